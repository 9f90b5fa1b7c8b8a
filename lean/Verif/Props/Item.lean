import Verif.Model.Item
import Verif.Spec.Item
import Verif.Props.Edit

/-! # C106: reading and writing the modules of a model by key -/

namespace Verif.Props

open Verif.Edit Verif.EditSpec Verif.ItemSpec

theorem getKey_iff (t : Tree Nat) (k : Key) (c : Tree Nat) : getKey t k = .ok c ↔ Child t k c := by
  constructor
  · intro h
    unfold getKey at h
    split at h
    · split at h
      · rename_i hl; cases h; exact .dict hl
      · cases h
    · cases h
    · split at h
      · rename_i p hp
        split at h
        · rename_i c' hc; cases h; exact .list ((refers_iff _ _ _).1 hp) hc
        · cases h
      · cases h
    · split at h
      · rename_i p hp
        split at h
        · rename_i c' hc; cases h; exact .tuple ((refers_iff _ _ _).1 hp) hc
        · cases h
      · cases h
    · cases h
  · intro h
    cases h with
    | dict h => simp [getKey, h]
    | list h1 h2 => simp [getKey, (refers_iff _ _ _).2 h1, h2]
    | tuple h1 h2 => simp [getKey, (refers_iff _ _ _).2 h1, h2]

theorem refers_get {ts : List (Tree Nat)} {i : Int} {p : Nat} (h : Refers ts.length i p) : ∃ c, ts[p]? = some c := ⟨ts[p]'h.1, List.getElem?_eq_getElem h.1⟩

theorem getKey_error_iff (t : Tree Nat) (k : Key) (e : PyErr) : getKey t k = .error e ↔ Missing t k e := by
  constructor
  · intro h
    unfold getKey at h
    split at h
    · split at h
      · cases h
      · rename_i hl; cases h; exact .name hl
    · cases h; exact .number
    · split at h
      · rename_i p hp
        obtain ⟨c, hc⟩ := refers_get ((refers_iff _ _ _).1 hp)
        rw [hc] at h; cases h
      · rename_i hp; cases h; exact .list ((pyIdx_none _ _).1 hp)
    · split at h
      · rename_i p hp
        obtain ⟨c, hc⟩ := refers_get ((refers_iff _ _ _).1 hp)
        rw [hc] at h; cases h
      · rename_i hp; cases h; exact .tuple ((pyIdx_none _ _).1 hp)
    · rename_i h1 h2 h3 h4
      cases h
      cases t with
      | leaf m => exact .leaf
      | none => exact .none
      | list ts => cases k with
        | str s => exact .listName
        | int i => exact (h3 _ _ rfl rfl).elim
      | tuple ts => cases k with
        | str s => exact .tupleName
        | int i => exact (h4 _ _ rfl rfl).elim
      | dict kvs => cases k with
        | str s => exact (h1 _ _ rfl rfl).elim
        | int i => exact (h2 _ _ rfl rfl).elim
  · intro h
    cases h with
    | name h => simp [getKey, h]
    | list h => simp [getKey, (pyIdx_none _ _).2 h]
    | tuple h => simp [getKey, (pyIdx_none _ _).2 h]
    | number => rfl
    | listName => rfl
    | tupleName => rfl
    | leaf => cases k <;> rfl
    | none => cases k <;> rfl

/-- **C106** `model[path]` is the part of the modules that the path leads to. -/
theorem C106_get (t : Tree Nat) (ks : List Key) (r : Tree Nat) : getItemT t (.path ks) = .ok r ↔ At t ks r := by
  rw [show getItemT t (.path ks) = getKeys t ks from rfl]
  induction ks generalizing t with
  | nil =>
    simp only [getKeys, Except.ok.injEq]
    exact ⟨fun h => h ▸ .here, fun h => by cases h; rfl⟩
  | cons k ks ih =>
    rw [getKeys]
    constructor
    · intro h
      cases hk : getKey t k with
      | error e => rw [hk] at h; cases h
      | ok c => rw [hk] at h; exact .down ((getKey_iff _ _ _).1 hk) ((ih c).1 h)
    · intro h
      cases h with
      | down h1 h2 => rw [(getKey_iff _ _ _).2 h1]; exact (ih _).2 h2

/-- **C106** `model[path]` raises exactly if the path leads to something of which the next key refers to nothing, with the exception for that. -/
theorem C106_get_error (t : Tree Nat) (ks : List Key) (e : PyErr) :
    getItemT t (.path ks) = .error e ↔ ∃ ks₁ k ks₂ c, ks = ks₁ ++ k :: ks₂ ∧ At t ks₁ c ∧ Missing c k e := by
  rw [show getItemT t (.path ks) = getKeys t ks from rfl]
  induction ks generalizing t with
  | nil => simp [getKeys]
  | cons k ks ih =>
    rw [getKeys]
    constructor
    · intro h
      cases hk : getKey t k with
      | error e' =>
        rw [hk] at h
        cases h
        exact ⟨[], k, ks, t, rfl, .here, (getKey_error_iff _ _ _).1 hk⟩
      | ok c =>
        rw [hk] at h
        obtain ⟨a, k', b, c', rfl, h2, h3⟩ := (ih c).1 h
        exact ⟨k :: a, k', b, c', rfl, .down ((getKey_iff _ _ _).1 hk) h2, h3⟩
    · rintro ⟨a, k', b, c', h1, h2, h3⟩
      cases h2 with
      | here =>
        simp only [List.nil_append, List.cons.injEq] at h1
        obtain ⟨rfl, rfl⟩ := h1
        rw [(getKey_error_iff _ _ _).2 h3]
      | down h4 h5 =>
        simp only [List.cons_append, List.cons.injEq] at h1
        obtain ⟨rfl, rfl⟩ := h1
        rw [(getKey_iff _ _ _).2 h4]
        exact (ih _).2 ⟨_, _, _, _, rfl, h5, h3⟩

/-- **C106** `model[name]` and `model[index]` are `model[(name,)]` and `model[(index,)]`, but a key of the wrong kind for the modules is always a `KeyError`. -/
theorem C106_get_key (t : Tree Nat) (k : Key) :
    (∀ r, getItemT t (.key k) = .ok r ↔ Child t k r) ∧
    ∀ e, getItemT t (.key k) = .error e ↔ (Missing t k e ∧ e ≠ .typeError) ∨ (Missing t k .typeError ∧ e = .keyError) := by
  constructor
  · intro r
    rw [← getKey_iff]
    cases k <;> cases t <;> simp [getItemT, getKey]
  · intro e
    rw [← getKey_error_iff, ← getKey_error_iff]
    cases k with
    | str s =>
      cases t with
      | dict kvs => cases h : kvs.lookup s <;> simp [getItemT, getKey, h] <;> rintro rfl <;> simp
      | _ => simp [getItemT, getKey, eq_comm]; try (intro h h'; exact (h' h.symm).elim)
    | int i =>
      cases t with
      | list ts =>
        have := getKey_error_iff (.list ts) (.int i)
        constructor
        · intro h
          left
          refine ⟨h, ?_⟩
          rintro rfl
          have := (this _).1 h
          cases this
        · rintro (h | ⟨h, -⟩)
          · exact h.1
          · cases (this _).1 h
      | tuple ts =>
        have := getKey_error_iff (.tuple ts) (.int i)
        constructor
        · intro h
          left
          refine ⟨h, ?_⟩
          rintro rfl
          have := (this _).1 h
          cases this
        · rintro (h | ⟨h, -⟩)
          · exact h.1
          · cases (this _).1 h
      | dict kvs => simp [getItemT, getKey]; rintro rfl; simp
      | _ => simp [getItemT, getKey, eq_comm]; try (intro h h'; exact (h' h.symm).elim)

/-- Whether anything can be stored under the key: in a dictionary under every name, in a list at the places there are, in a tuple nowhere. -/
inductive Storable : Tree Nat → Key → Prop
  | dict {kvs s} : Storable (.dict kvs) (.str s)
  | list {ts i p} : Refers ts.length i p → Storable (.list ts) (.int i)

theorem setKey_storable (t : Tree Nat) (k : Key) (v : Tree Nat) : (∃ t', setKey t k v = .ok t') ↔ Storable t k := by
  constructor
  · rintro ⟨t', h⟩
    unfold setKey at h
    split at h
    · exact .dict
    · rename_i ts i
      cases hp : pyIdx ts.length i with
      | none => simp [pySet, hp] at h
      | some p => exact .list ((refers_iff _ _ _).1 hp)
    · cases h
  · intro h
    cases h with
    | dict => exact ⟨_, rfl⟩
    | list h => exact ⟨_, by simp only [setKey, pySet_ok v h]; rfl⟩

/-- **C106** `model[path] = v` succeeds exactly if the path without its last key leads to a dictionary (then the last key is a name) or to a list (then it is an index in range). -/
theorem C106_set_ok {S : Type} (w : Mdl S) (ks : List Key) (v : Tree Nat) :
    (edit w (.setPath ks v)).2 = .ok none ↔ ∃ ks' k c, ks = ks' ++ [k] ∧ At w.modules ks' c ∧ Storable c k := by
  have he : (edit w (.setPath ks v)).2 = .ok none ↔ ∃ t', setKeys w.modules ks v = .ok t' := by
    cases hs : setKeys w.modules ks v <;> simp [edit, editT, hs, Except.map]
  rw [he]
  clear he
  generalize w.modules = t
  induction ks generalizing t with
  | nil => simp [setKeys]
  | cons k ks ih =>
    cases ks with
    | nil =>
      rw [show (∃ t', setKeys t [k] v = .ok t') ↔ Storable t k from setKey_storable t k v]
      constructor
      · intro h; exact ⟨[], k, t, rfl, .here, h⟩
      · rintro ⟨ks', k', c, h1, h2, h3⟩
        cases ks' with
        | nil =>
          simp only [List.nil_append, List.cons.injEq, and_true] at h1
          subst h1
          cases h2
          exact h3
        | cons a b => simp at h1
    | cons k2 ks =>
      constructor
      · rintro ⟨t', h⟩
        rw [setKeys] at h
        cases hk : getKey t k with
        | error e => rw [hk] at h; cases h
        | ok c =>
          rw [hk] at h
          simp only at h
          cases hc : setKeys c (k2 :: ks) v with
          | error e => rw [hc] at h; cases h
          | ok c' =>
            obtain ⟨a, k', d, h1, h2, h3⟩ := (ih c).1 ⟨c', hc⟩
            exact ⟨k :: a, k', d, by rw [h1]; rfl, .down ((getKey_iff _ _ _).1 hk) h2, h3⟩
      · rintro ⟨a, k', d, h1, h2, h3⟩
        cases h2 with
        | here => simp at h1
        | @down _ k0 c ks0 _ h4 h5 =>
          simp only [List.cons_append, List.cons.injEq] at h1
          obtain ⟨rfl, h1⟩ := h1
          obtain ⟨c', hc⟩ := (ih c).2 ⟨ks0, k', d, h1, h5, h3⟩
          refine ⟨putChild t k c', ?_⟩
          rw [setKeys, (getKey_iff _ _ _).2 h4]
          simp only [hc]

theorem getKey_set_list {ts : List (Tree Nat)} {j : Int} {p q : Nat} (c : Tree Nat) (hj : Refers ts.length j q) (hpq : p ≠ q) (ks : List Key) :
    getKeys (.list (ts.set p c)) (.int j :: ks) = getKeys (.list ts) (.int j :: ks) ∧
    getKeys (.tuple (ts.set p c)) (.int j :: ks) = getKeys (.tuple ts) (.int j :: ks) := by
  constructor <;> simp only [getKeys, getKey, List.length_set, (refers_iff _ _ _).2 hj, List.getElem?_set_ne hpq]

theorem getKey_set_same {ts : List (Tree Nat)} {j : Int} {p : Nat} (c : Tree Nat) (hj : Refers ts.length j p) (ks : List Key) :
    getKeys (.list (ts.set p c)) (.int j :: ks) = getKeys c ks ∧ getKeys (.tuple (ts.set p c)) (.int j :: ks) = getKeys c ks := by
  constructor <;> simp only [getKeys, getKey, List.length_set, (refers_iff _ _ _).2 hj, List.getElem?_set_self hj.1]

theorem set_frame (ks : List Key) (v : Tree Nat) : ∀ (t t' : Tree Nat) (ks' : List Key), setKeys t ks v = .ok t' → Apart t ks ks' → getKeys t' ks' = getKeys t ks' := by
  induction ks with
  | nil => intro t t' ks' h; simp [setKeys] at h
  | cons k ks ih =>
    intro t t' ks' h ha
    cases ks with
    | nil =>
      simp only [setKeys] at h
      cases ha with
      | name hs =>
        simp only [setKey, Except.ok.injEq] at h
        subst h
        simp only [getKeys, getKey, lookup_dictSet_other _ _ _ _ hs.symm]
      | list hi hj hpq =>
        simp only [setKey, pySet_ok v hi, Except.ok.injEq] at h
        subst h
        exact (getKey_set_list v hj hpq _).1
      | tuple hi hj hpq => simp [setKey] at h
      | inDict _ ha => cases ha
      | inList _ _ _ ha => cases ha
      | inTuple _ _ _ ha => cases ha
    | cons k2 ks =>
      rw [setKeys] at h
      cases hk : getKey t k with
      | error e => rw [hk] at h; cases h
      | ok c =>
        rw [hk] at h
        simp only at h
        cases hc : setKeys c (k2 :: ks) v with
        | error e => rw [hc] at h; cases h
        | ok c' =>
          rw [hc] at h
          simp only [Except.ok.injEq] at h
          subst h
          cases ha with
          | name hs =>
            simp only [putChild, getKeys, getKey, lookup_dictSet_other _ _ _ _ hs.symm]
          | list hi hj hpq =>
            simp only [putChild, (refers_iff _ _ _).2 hi]
            exact (getKey_set_list c' hj hpq _).1
          | tuple hi hj hpq =>
            simp only [putChild, (refers_iff _ _ _).2 hi]
            exact (getKey_set_list c' hj hpq _).2
          | inDict hl ha =>
            simp only [getKey, hl, Except.ok.injEq] at hk
            subst hk
            have := ih _ _ _ hc ha
            simp only [putChild, getKeys, getKey, lookup_dictSet_same, hl]
            exact this
          | inList hi hj hg ha =>
            simp only [getKey, (refers_iff _ _ _).2 hi, hg, Except.ok.injEq] at hk
            subst hk
            simp only [putChild, (refers_iff _ _ _).2 hi]
            rw [(getKey_set_same c' hj _).1, ih _ _ _ hc ha]
            simp only [getKeys, getKey, (refers_iff _ _ _).2 hj, hg]
          | inTuple hi hj hg ha =>
            simp only [getKey, (refers_iff _ _ _).2 hi, hg, Except.ok.injEq] at hk
            subst hk
            simp only [putChild, (refers_iff _ _ _).2 hi]
            rw [(getKey_set_same c' hj _).2, ih _ _ _ hc ha]
            simp only [getKeys, getKey, (refers_iff _ _ _).2 hj, hg]

/-- **C106** `model[path] = v` changes nothing that another path leads to. -/
theorem C106_set_frame {S : Type} (w : Mdl S) (ks ks' : List Key) (v : Tree Nat) (h : (edit w (.setPath ks v)).2 = .ok none) (ha : Apart w.modules ks ks') :
    getItemT (edit w (.setPath ks v)).1.modules (.path ks') = getItemT w.modules (.path ks') := by
  cases hs : setKeys w.modules ks v with
  | error e => simp [edit, editT, hs, Except.map] at h
  | ok t' => simp only [edit, editT, hs, Except.map, getItemT]; exact set_frame ks v _ _ _ hs ha

/-! ### Slices -/

theorem bound_spec (n d : Nat) (b : Option Int) (q : Nat) : Bound n d b q ↔ q = bound n d b := by
  cases b with
  | none => rfl
  | some i => exact ⟨fun h => insertsAt_unique h (clamp_inserts n i), fun h => h ▸ clamp_inserts n i⟩

theorem bound_le (n d : Nat) (hd : d ≤ n) (b : Option Int) : bound n d b ≤ n := by
  cases b with
  | none => exact hd
  | some i => exact clamp_le n i

/-- **C106** Reading a slice gives the entries it covers, in a container of the same kind. -/
theorem C106_get_slice (l : List (Tree Nat)) (a b : Option Int) (x s y : List (Tree Nat)) (h : Covers l a b x s y) :
    getItemT (.list l) (.cut a b) = .ok (.list s) ∧ getItemT (.tuple l) (.cut a b) = .ok (.tuple s) := by
  obtain ⟨h1, h2, q, h3, h4⟩ := h
  rw [bound_spec] at h2 h3
  have hs : slice l a b = s := by
    unfold slice
    rw [← h2, ← h3, h1, List.append_assoc]
    rcases Nat.le_total x.length q with hq | hq
    · have : q = x.length + s.length := by omega
      rw [this, List.take_length_add_append, List.take_left' rfl, List.drop_left' rfl]
    · have hs0 : s = [] := List.eq_nil_of_length_eq_zero (by omega)
      rw [hs0, List.drop_eq_nil_of_le]
      rw [List.length_take]
      omega
  exact ⟨by rw [getItemT, hs], by rw [getItemT, hs]⟩

/-- **C106** Writing to a slice of a list replaces the entries it covers. -/
theorem C106_set_slice {S : Type} (w : Mdl S) (l : List (Tree Nat)) (hw : w.modules = .list l) (a b : Option Int) (x s y vs : List (Tree Nat)) (h : Covers l a b x s y) :
    (edit w (.setSlice a b vs)).2 = .ok none ∧ (edit w (.setSlice a b vs)).1.modules = .list (x ++ vs ++ y) := by
  obtain ⟨h1, h2, q, h3, h4⟩ := h
  rw [bound_spec] at h2 h3
  have hs : pySetSlice l a b vs = x ++ vs ++ y := by
    unfold pySetSlice
    rw [← h2, ← h3, h1]
    have hm : max x.length q = (x ++ s).length := by rw [List.length_append]; omega
    rw [hm, List.drop_left' rfl, List.append_assoc x s y, List.take_left' rfl]
  constructor <;> simp [edit, editT, setSliceT, hw, hs, Except.map]

/-- **C106** Every slice of every sequence covers something, and only one thing. -/
theorem C106_slice (l : List (Tree Nat)) (a b : Option Int) :
    (∃ x s y, Covers l a b x s y) ∧ ∀ x s y x' s' y', Covers l a b x s y → Covers l a b x' s' y' → x = x' ∧ s = s' ∧ y = y' := by
  constructor
  · refine ⟨l.take (bound l.length 0 a), (l.drop (bound l.length 0 a)).take (bound l.length l.length b - bound l.length 0 a),
      (l.drop (bound l.length 0 a)).drop (bound l.length l.length b - bound l.length 0 a), ?_, ?_, bound l.length l.length b, ?_, ?_⟩
    · rw [List.append_assoc, List.take_append_drop, List.take_append_drop]
    · rw [bound_spec, List.length_take]
      have := bound_le l.length 0 (Nat.zero_le _) a
      omega
    · rw [bound_spec]
    · have h1 := bound_le l.length 0 (Nat.zero_le _) a
      have h2 := bound_le l.length l.length (Nat.le_refl _) b
      simp only [List.length_take, List.length_drop]
      omega
  · rintro x s y x' s' y' ⟨h1, h2, q, h3, h4⟩ ⟨h1', h2', q', h3', h4'⟩
    rw [bound_spec] at h2 h3 h2' h3'
    have e := h1.symm.trans h1'
    rw [List.append_assoc, List.append_assoc] at e
    have e1 := List.append_inj e (by omega)
    have e2 := List.append_inj e1.2 (by rw [h4, h4']; omega)
    exact ⟨e1.1, e2.1, e2.2⟩

/-! ### Examples -/

/-- A dictionary of modules with a list in it. -/
def itemTree : Tree Nat := .dict [("a".toList, .list [.leaf 1, .leaf 2, .leaf 3]), ("b".toList, .leaf 4)]

example : At itemTree [.str "a".toList, .int (-1)] (.leaf 3) :=
  .down (.dict rfl) (.down (.list (p := 2) ⟨by decide, by decide⟩ rfl) .here)
example : getItemT itemTree (.path [.str "a".toList, .int (-1)]) = .ok (.leaf 3) := by decide +kernel
example : getItemT itemTree (.path [.str "a".toList, .int 3, .int 0]) = .error .indexError := by decide +kernel
example : getItemT itemTree (.key (.int 0)) = .error .keyError ∧ getItemT (.leaf 1) (.key (.int 0)) = .error .keyError := by decide +kernel
example : Apart itemTree [.str "a".toList, .int 0] [.str "a".toList, .int (-1)] :=
  .inDict rfl (.list (p := 0) (q := 2) ⟨by decide, by decide⟩ ⟨by decide, by decide⟩ (by decide))
example : (edit (init itemTree : Mdl Nat) (.setPath [.str "a".toList, .int 0] (.leaf 9))).1.modules =
    .dict [("a".toList, .list [.leaf 9, .leaf 2, .leaf 3]), ("b".toList, .leaf 4)] := by decide +kernel
example : Covers [.leaf 1, .leaf 2, .leaf 3] (some (-2)) none [.leaf 1] [.leaf 2, .leaf 3] [] :=
  ⟨rfl, ⟨by decide, by decide⟩, 3, rfl, rfl⟩
example : (edit (init (.list [.leaf 1, .leaf 2, .leaf 3]) : Mdl Nat) (.setSlice (some (-2)) none [.leaf 7])).1.modules = .list [.leaf 1, .leaf 7] := by decide +kernel

end Verif.Props
