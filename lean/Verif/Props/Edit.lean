import Verif.Lemmas.EditReady
import Verif.Lemmas.TreeDec

/-!
# C23–C26: editing models, `+`, readiness, float counts
-/

namespace Verif.Props
open Verif Verif.Edit Verif.EditSpec

variable {M S : Type}

/-! ## C23: editing -/

/-- Inserting into a list or tuple model puts the module at the position Python's `insert` means and keeps all others. -/
theorem C23_insert (w : Mdl S) (l : List (Tree Nat)) (i : Int) (m p : Nat) (hp : InsertsAt l.length i p) :
    (w.modules = .list l → ∃ l', (edit w (.insert i m)).1.modules = .list l' ∧ (edit w (.insert i m)).2 = .ok none ∧
      Inserted l p (.leaf m) l') ∧
    (w.modules = .tuple l → ∃ l', (edit w (.insert i m)).1.modules = .tuple l' ∧ (edit w (.insert i m)).2 = .ok none ∧
      Inserted l p (.leaf m) l') := by
  have e : clampIdx l.length i = p := insertsAt_unique (clamp_inserts _ _) hp
  constructor
  · intro h
    refine ⟨pyInsert l i (.leaf m), ?_, ?_, e ▸ pyInsert_spec l i _⟩ <;> simp [edit, editT, insertT, h, Except.map]
  · intro h
    refine ⟨pyInsert l i (.leaf m), ?_, ?_, e ▸ pyInsert_spec l i _⟩ <;>
      simp [edit, editT, insertT, h, Except.map, slice_insert]

example : InsertsAt 3 (-1) 2 ∧ InsertsAt 3 7 3 ∧ InsertsAt 3 (-9) 0 := by unfold InsertsAt; decide
example : (edit (init (.list [.leaf 1, .leaf 2, .leaf 3]) : Mdl Nat) (.insert (-1) 9)).1.modules =
    .list [.leaf 1, .leaf 2, .leaf 9, .leaf 3] := by decide +kernel

/-- Prepending puts the module first. -/
theorem C23_prepend (w : Mdl S) (l : List (Tree Nat)) (m : Nat) :
    (w.modules = .list l → (edit w (.prepend m)).1.modules = .list (.leaf m :: l) ∧ (edit w (.prepend m)).2 = .ok none) ∧
    (w.modules = .tuple l → (edit w (.prepend m)).1.modules = .tuple (.leaf m :: l) ∧ (edit w (.prepend m)).2 = .ok none) := by
  have e : clampIdx l.length 0 = 0 := by simp [clampIdx]
  constructor <;> intro h <;> simp [edit, editT, prependT, insertT, h, Except.map, slice_insert, pyInsert, e]

example : (edit (init (.tuple [.leaf 1]) : Mdl Nat) (.prepend 9)).1.modules = .tuple [.leaf 9, .leaf 1] := by decide +kernel

/-- Appending puts the module last, provided the model holds at least as many modules as its top-level container has entries
(always so when the entries are modules or nonempty containers). -/
theorem C23_append_partial (w : Mdl S) (l : List (Tree Nat)) (m : Nat) (xs : List Nat) (hx : HoldsL l xs)
    (hl : l.length ≤ xs.length) :
    (w.modules = .list l → (edit w (.append m)).1.modules = .list (l ++ [.leaf m]) ∧ (edit w (.append m)).2 = .ok none) ∧
    (w.modules = .tuple l → (edit w (.append m)).1.modules = .tuple (l ++ [.leaf m]) ∧ (edit w (.append m)).2 = .ok none) := by
  have e1 : clampIdx l.length ((Tree.list l).jaxLeaves.length : Int) = l.length := by
    rw [(jaxLeaves_holds (.list hx)).length_eq]; unfold clampIdx; split <;> omega
  have e2 : clampIdx l.length ((Tree.tuple l).jaxLeaves.length : Int) = l.length := by
    rw [(jaxLeaves_holds (.tuple hx)).length_eq]; unfold clampIdx; split <;> omega
  constructor <;> intro h <;> simp [edit, editT, appendT, insertT, h, Except.map, slice_insert, pyInsert, e1, e2]

example : HoldsL [.leaf 1, .list [.leaf 2, .leaf 3]] [1, 2, 3] :=
  .cons (xs := [1]) (.leaf 1) (.cons (xs := [2, 3]) (.list (.cons (xs := [2]) (.leaf 2) (.cons (xs := [3]) (.leaf 3) .nil))) .nil)

/-- The append index is the number of modules, not the number of entries: with an empty container in the list the new
module does not come last. -/
theorem C23_append_refuted :
    ∃ (w : Mdl Nat) (l : List (Tree Nat)), w.modules = .list l ∧
      (edit w (.append 9)).1.modules ≠ .list (l ++ [.leaf 9]) ∧ (edit w (.append 9)).2 = .ok none :=
  ⟨init (.list [.list [], .leaf 1]), [.list [], .leaf 1], rfl, by decide +kernel, by decide +kernel⟩

/-- Popping from a list model returns the entry the index refers to and keeps all others in order. -/
theorem C23_pop_list (w : Mdl S) (l : List (Tree Nat)) (hw : w.modules = .list l) (i : Int) :
    (∀ p, Refers l.length i p → ∃ x l', (edit w (.popIndex i)).2 = .ok (some x) ∧
      (edit w (.popIndex i)).1.modules = .list l' ∧ Removed l p x l') ∧
    ((∀ p, ¬ Refers l.length i p) → (edit w (.popIndex i)).2 = .error .indexError ∧
      (edit w (.popIndex i)).1.modules = .list l) := by
  constructor
  · intro p hp
    obtain ⟨x, hx, he⟩ := pyPop_ok (l := l) hp
    refine ⟨x, l.take p ++ l.drop (p + 1), ?_, ?_, removed_of_get hx⟩ <;> simp [edit, editT, popIndexT, hw, he, Except.map]
  · intro hn
    have he := pyPop_err (l := l) hn
    constructor <;> simp [edit, editT, popIndexT, hw, he, Except.map, reset]

/-- The same for tuple models, for every index but `-1`. -/
theorem C23_pop_tuple_partial (w : Mdl S) (l : List (Tree Nat)) (hw : w.modules = .tuple l) (i : Int) (hi : i ≠ -1) :
    (∀ p, Refers l.length i p → ∃ x l', (edit w (.popIndex i)).2 = .ok (some x) ∧
      (edit w (.popIndex i)).1.modules = .tuple l' ∧ Removed l p x l') ∧
    ((∀ p, ¬ Refers l.length i p) → (edit w (.popIndex i)).2 = .error .indexError ∧
      (edit w (.popIndex i)).1.modules = .tuple l) := by
  constructor
  · intro p hp
    have h1 := (refers_iff l.length i p).2 hp
    have hlt : p < l.length := hp.1
    have h2 : l[p]? = some l[p] := List.getElem?_eq_getElem hp.1
    refine ⟨l[p], l.take p ++ l.drop (p + 1), ?_, ?_, removed_of_get h2⟩
    · simp [edit, editT, popIndexT, hw, h1, h2, Except.map]
    · simp [edit, editT, popIndexT, hw, h1, h2, Except.map, slice_pop l i p hp hi]
  · intro hn
    have he := (pyIdx_none l.length i).2 hn
    constructor <;> simp [edit, editT, popIndexT, hw, he, Except.map, reset]

example : Refers 3 (-2) 1 ∧ (∀ p, ¬ Refers 3 (-4) p) := by
  refine ⟨by unfold Refers; decide, fun p h => ?_⟩
  unfold Refers at h; omega
example : (edit (init (.tuple [.leaf 1, .leaf 2, .leaf 3]) : Mdl Nat) (.popIndex (-2))).1.modules =
    .tuple [.leaf 1, .leaf 3] := by decide +kernel

/-- Popping the last entry of a tuple model with index `-1` removes nothing: the result is all entries but the last, followed
by all entries again. -/
theorem C23_pop_tuple_last_defect (w : Mdl S) (l : List (Tree Nat)) (hw : w.modules = .tuple l) (hl : l ≠ []) :
    (edit w (.popIndex (-1))).1.modules = .tuple (l.dropLast ++ l) := by
  have hlen : 0 < l.length := List.length_pos_iff.2 hl
  have h1 : pyIdx l.length (-1) = some (l.length - 1) := (refers_iff _ _ _).2 ⟨by omega, by omega⟩
  have h2 : l[l.length - 1]? = some l[l.length - 1] := List.getElem?_eq_getElem (by omega)
  simp only [edit, editT, popIndexT, hw, h1, h2, Except.map]
  rw [slice_pop_last, List.dropLast_eq_take]

example : (edit (init (.tuple [.leaf 1, .leaf 2]) : Mdl Nat) (.popIndex (-1))).1.modules =
    .tuple [.leaf 1, .leaf 1, .leaf 2] := by decide +kernel

/-- Inserting into a dictionary model, or popping from it by index, never works: it raises and leaves the modules alone. -/
theorem C23_dict_insert_defect (w : Mdl S) (kvs : List (Str × Tree Nat)) (hw : w.modules = .dict kvs) (i : Int) (m : Nat) :
    (edit w (.insert i m)).2 = .error .typeError ∧ (edit w (.append m)).2 = .error .typeError ∧
    (edit w (.prepend m)).2 = .error .typeError ∧ (∃ e, (edit w (.popIndex i)).2 = .error e) := by
  refine ⟨?_, ?_, ?_, ?_⟩
  · simp [edit, editT, insertT, hw, Except.map]
  · simp [edit, editT, appendT, insertT, hw, Except.map]
  · simp [edit, editT, prependT, insertT, hw, Except.map]
  · simp only [edit, editT, popIndexT, hw]
    split
    · rename_i e
      split at e
      · simp [Except.map] at e
      · simp [Except.map] at e
    · exact ⟨_, rfl⟩

/-- Appending and then popping the last entry gives the module back and restores the list. -/
theorem C23_append_pop (w : Mdl S) (l : List (Tree Nat)) (hw : w.modules = .list l) (m : Nat) (xs : List Nat)
    (hx : HoldsL l xs) (hl : l.length ≤ xs.length) :
    (edit (edit w (.append m)).1 (.popIndex (-1))).1.modules = .list l ∧
    (edit (edit w (.append m)).1 (.popIndex (-1))).2 = .ok (some (.leaf m)) := by
  have h1 := ((C23_append_partial w l m xs hx hl).1 hw).1
  obtain ⟨x, l', h2, h3, a, b, h4, h5, h6⟩ :=
    (C23_pop_list _ _ h1 (-1)).1 l.length ⟨by simp, by simp; omega⟩
  have h7 := List.append_inj h6 h5.symm
  have h8 : l = a ∧ .leaf m = x ∧ b = [] := by
    refine ⟨h7.1, ?_⟩
    have := h7.2
    simp at this
    exact ⟨this.1, this.2⟩
  obtain ⟨rfl, rfl, rfl⟩ := h8
  rw [h2, h3, h4]
  simp

/-- Assigning an item of a list model replaces that entry only; an index out of range raises and changes nothing; tuples refuse. -/
theorem C23_setitem_seq (w : Mdl S) (l : List (Tree Nat)) (i : Int) (v : Tree Nat) :
    (w.modules = .list l → ∀ p, Refers l.length i p → ∃ l', (edit w (.setItem (.int i) v)).2 = .ok none ∧
      (edit w (.setItem (.int i) v)).1.modules = .list l' ∧ Replaced l p v l') ∧
    (w.modules = .list l → (∀ p, ¬ Refers l.length i p) → (edit w (.setItem (.int i) v)).2 = .error .indexError ∧
      (edit w (.setItem (.int i) v)).1.modules = .list l) ∧
    (w.modules = .tuple l → (edit w (.setItem (.int i) v)).2 = .error .typeError ∧
      (edit w (.setItem (.int i) v)).1.modules = .tuple l) := by
  refine ⟨fun hw p hp => ?_, fun hw hn => ?_, fun hw => ?_⟩
  · have he := pySet_ok (l := l) v hp
    refine ⟨l.set p v, ?_, ?_, replaced_set v hp.1⟩ <;> simp [edit, editT, setItemT, hw, he, Except.map]
  · have he : pySet l i v = .error .indexError := by unfold pySet; rw [(pyIdx_none _ _).2 hn]
    constructor <;> simp [edit, editT, setItemT, hw, he, Except.map, reset]
  · constructor <;> simp [edit, editT, setItemT, hw, Except.map, reset]

example : (edit (init (.list [.leaf 1, .leaf 2, .leaf 3]) : Mdl Nat) (.setItem (.int (-3)) (.leaf 7))).1.modules =
    .list [.leaf 7, .leaf 2, .leaf 3] := by decide +kernel

theorem lookup_dictSet_same (kvs : List (Str × Tree Nat)) (s : Str) (v : Tree Nat) :
    (dictSet kvs s v).lookup s = some v := by
  have h := getKey_setKey (t := .dict kvs) (k := .str s) (v := v) rfl
  simp only [getKey] at h
  split at h
  · rename_i c hc; cases h; exact hc
  · cases h

theorem lookup_dictSet_other (kvs : List (Str × Tree Nat)) (s s' : Str) (v : Tree Nat) (h : s' ≠ s) :
    (dictSet kvs s v).lookup s' = kvs.lookup s' := by
  induction kvs with
  | nil =>
    have hb : (s' == s) = false := by simpa using h
    simp [dictSet, List.lookup, hb]
  | cons q r ih =>
    obtain ⟨k, t⟩ := q
    by_cases hk : k = s
    · subst hk
      have hb : (s' == k) = false := by simpa using h
      simp [dictSet, List.lookup, hb]
    · simp only [dictSet, hk, if_false, List.lookup]
      split
      · rfl
      · exact ih

theorem dictSet_keys (kvs : List (Str × Tree Nat)) (s : Str) (v : Tree Nat) :
    (dictSet kvs s v).map Prod.fst = if s ∈ kvs.map Prod.fst then kvs.map Prod.fst else kvs.map Prod.fst ++ [s] := by
  induction kvs with
  | nil => simp [dictSet]
  | cons q r ih =>
    obtain ⟨k, t⟩ := q
    by_cases hk : k = s
    · simp [dictSet, hk]
    · have hk' : ¬ s = k := fun e => hk e.symm
      simp only [dictSet, hk, if_false, List.map_cons, ih, List.mem_cons, hk', false_or]
      split <;> simp

/-- Assigning a key of a dictionary model: that key gets the value, every other key keeps its own, the key order is kept and
a new key comes last. -/
theorem C23_setitem_dict (w : Mdl S) (kvs : List (Str × Tree Nat)) (hw : w.modules = .dict kvs) (s : Str) (v : Tree Nat) :
    ∃ kvs', (edit w (.setItem (.str s) v)).2 = .ok none ∧ (edit w (.setItem (.str s) v)).1.modules = .dict kvs' ∧
      kvs'.lookup s = some v ∧ (∀ s', s' ≠ s → kvs'.lookup s' = kvs.lookup s') ∧
      kvs'.map Prod.fst = if s ∈ kvs.map Prod.fst then kvs.map Prod.fst else kvs.map Prod.fst ++ [s] := by
  refine ⟨dictSet kvs s v, ?_, ?_, lookup_dictSet_same _ _ _, fun s' h => lookup_dictSet_other _ _ _ _ h, dictSet_keys _ _ _⟩ <;>
    simp [edit, editT, setItemT, hw, Except.map]

example : (edit (init (.dict [("a".toList, .leaf 1), ("b".toList, .leaf 2)]) : Mdl Nat) (.setItem (.str "a".toList) (.leaf 7))).1.modules
    = .dict [("a".toList, .leaf 7), ("b".toList, .leaf 2)] := by decide +kernel

/-- Popping a key of a dictionary model (keys distinct) returns its entry and keeps all others in order; a missing key raises
and changes nothing. -/
theorem C23_pop_key (w : Mdl S) (kvs : List (Str × Tree Nat)) (hw : w.modules = .dict kvs) (hd : (kvs.map Prod.fst).Nodup)
    (s : Str) :
    (∀ x, (s, x) ∈ kvs → ∃ a b, kvs = a ++ (s, x) :: b ∧ (edit w (.popKey (.str s))).2 = .ok (some x) ∧
      (edit w (.popKey (.str s))).1.modules = .dict (a ++ b)) ∧
    (s ∉ kvs.map Prod.fst → (edit w (.popKey (.str s))).2 = .error .keyError ∧
      (edit w (.popKey (.str s))).1.modules = .dict kvs) := by
  constructor
  · intro x hx
    obtain ⟨a, b, e⟩ := List.append_of_mem hx
    refine ⟨a, b, e, ?_⟩
    have hna : ∀ q ∈ a, q.1 ≠ s := by
      intro q hq hqs
      rw [e, List.map_append, List.nodup_append] at hd
      exact hd.2.2 q.1 (List.mem_map_of_mem hq) s (by simp) hqs
    have hnb : ∀ q ∈ b, q.1 ≠ s := by
      intro q hq hqs
      rw [e, List.map_append, List.nodup_append, List.map_cons, List.nodup_cons] at hd
      exact hd.2.1.1 (by simpa [hqs] using List.mem_map_of_mem (f := Prod.fst) hq)
    have hl : kvs.lookup s = some x := by
      rw [e]
      clear e hw hd hx
      induction a with
      | nil => simp
      | cons q r ih =>
        obtain ⟨k, t⟩ := q
        have hb : (s == k) = false := by
          have := hna (k, t) (by simp); simpa using fun e => this e.symm
        simp only [List.cons_append, List.lookup, hb]
        exact ih fun q hq => hna q (by simp [hq])
    have hf : kvs.filter (fun p => !(p.1 == s)) = a ++ b := by
      rw [e, List.filter_append, List.filter_cons]
      have h1 : a.filter (fun p => !(p.1 == s)) = a := List.filter_eq_self.2 fun q hq => by simpa using hna q hq
      have h2 : b.filter (fun p => !(p.1 == s)) = b := List.filter_eq_self.2 fun q hq => by simpa using hnb q hq
      rw [h1, h2]; simp
    constructor <;> simp [edit, editT, popKeyT, hw, hl, hf, Except.map]
  · intro hn
    have hl : kvs.lookup s = none := by
      rw [List.lookup_eq_none_iff]
      intro p hp
      have : p.1 ≠ s := fun e => hn (e ▸ List.mem_map_of_mem hp)
      simpa using fun e => this e.symm
    constructor <;> simp [edit, editT, popKeyT, hw, hl, Except.map, reset]

example : (edit (init (.dict [("a".toList, .leaf 1), ("b".toList, .leaf 2)]) : Mdl Nat) (.popKey (.str "a".toList))).1.modules
    = .dict [("b".toList, .leaf 2)] := by decide +kernel

/-- Assigning along a path makes that path read back as the assigned value. -/
theorem C23_setpath_get (w : Mdl S) (ks : List Key) (v : Tree Nat) (h : (edit w (.setPath ks v)).2 = .ok none) :
    getKeys (edit w (.setPath ks v)).1.modules ks = .ok v := by
  simp only [edit, editT] at h ⊢
  cases hs : setKeys w.modules ks v with
  | error e => simp [hs, Except.map] at h
  | ok t => simp only [Except.map]; exact getKeys_setKeys ks _ _ hs

example : (edit (init (.dict [("a".toList, .list [.leaf 1, .leaf 2])]) : Mdl Nat)
    (.setPath [.str "a".toList, .int (-1)] (.leaf 7))).2 = .ok none := by decide +kernel

/-- The references an edit brings into the model. -/
def brings : EditOp → List Nat
  | .setAll t => t.flat
  | .setItem _ v => v.flat
  | .setSlice _ _ vs => Tree.flatL vs
  | .setPath _ v => v.flat
  | .insert _ m | .append m | .prepend m => [m]
  | .popIndex _ | .popKey _ => []

/-- Popping a tuple model with the index `-1` (see `C23_pop_tuple_last_defect`). -/
def popsTupleLast (t : Tree Nat) : EditOp → Prop
  | .popIndex i => i = -1 ∧ ∃ ts, t = .tuple ts
  | .popKey (.int i) => i = -1 ∧ ∃ ts, t = .tuple ts
  | _ => False

/-- Every edit keeps the relative order of the modules it does not bring in: the old modules that are still there appear in
the old order, none twice. `K` is any set of modules disjoint from those the edit brings in. -/
theorem C23_order_kept (w : Mdl S) (o : EditOp) (K : Nat → Bool) (hK : ∀ m ∈ brings o, K m = false)
    (ho : ¬ popsTupleLast w.modules o) (xs ys : List Nat) (hx : Holds w.modules xs) (hy : Holds (edit w o).1.modules ys) :
    (ys.filter K).Sublist (xs.filter K) := by
  rw [holds_unique hx, holds_unique hy]
  unfold edit
  split
  · rename_i t r he
    show (t.flat.filter K).Sublist _
    cases o with
    | setAll u =>
      have : t.flat = u.flat := by
        cases u <;> simp only [editT, Except.ok.injEq, Prod.mk.injEq] at he <;> rw [← he.1] <;> simp [Tree.flat, Tree.flatL]
      rw [this, filter_nil_sub hK]; simp
    | setItem k v =>
      simp only [editT] at he
      cases hs : setItemT w.modules k v with
      | error e => rw [hs] at he; cases he
      | ok t' =>
        rw [hs] at he; cases he
        refine setKey_sub (v := v) (k := k) hK ?_
        unfold setItemT at hs
        unfold setKey
        cases k with
        | str s =>
          simp only at hs
          cases ht : w.modules <;> rw [ht] at hs <;> simp_all
        | int i =>
          simp only at hs
          cases ht : w.modules <;> rw [ht] at hs <;> simp_all
    | setSlice a b vs =>
      simp only [editT, setSliceT] at he
      cases ht : w.modules with
      | list ts =>
        rw [ht] at he
        simp only [Except.map, Except.ok.injEq, Prod.mk.injEq] at he
        rw [← he.1]
        simp only [Tree.flat]
        refine setSlice_sub ts vs a b fun x hx' y hy' => hK y ?_
        simp only [brings]
        clear hK he ho hy
        induction vs with
        | nil => cases hx'
        | cons v vs ih =>
          rw [Tree.flatL, List.mem_append]
          rcases List.mem_cons.1 hx' with rfl | h'
          · exact .inl hy'
          · exact .inr (ih h')
      | _ => rw [ht] at he; cases he
    | setPath ks v =>
      simp only [editT] at he
      cases hs : setKeys w.modules ks v with
      | error e => rw [hs] at he; cases he
      | ok t' => rw [hs] at he; cases he; exact setKeys_sub hK ks _ _ hs
    | insert i m =>
      simp only [editT] at he
      cases hs : insertT w.modules i m with
      | error e => rw [hs] at he; cases he
      | ok t' => rw [hs] at he; cases he; exact insertT_sub (hK m (by simp [brings])) hs
    | append m =>
      simp only [editT, appendT] at he
      cases hs : insertT w.modules w.modules.jaxLeaves.length m with
      | error e => rw [hs] at he; cases he
      | ok t' => rw [hs] at he; cases he; exact insertT_sub (hK m (by simp [brings])) hs
    | prepend m =>
      simp only [editT, prependT] at he
      cases hs : insertT w.modules 0 m with
      | error e => rw [hs] at he; cases he
      | ok t' => rw [hs] at he; cases he; exact insertT_sub (hK m (by simp [brings])) hs
    | popIndex i =>
      simp only [editT] at he
      cases hs : popIndexT w.modules i with
      | error e => rw [hs] at he; cases he
      | ok q => obtain ⟨x, t'⟩ := q; rw [hs] at he; cases he; exact popIndexT_sub hs ho
    | popKey k =>
      simp only [editT] at he
      cases hs : popKeyT w.modules k with
      | error e => rw [hs] at he; cases he
      | ok q =>
        obtain ⟨x, t'⟩ := q; rw [hs] at he; cases he
        unfold popKeyT at hs
        cases k with
        | str s =>
          simp only at hs
          cases ht : w.modules with
          | dict kvs =>
            rw [ht] at hs; simp only at hs
            split at hs
            · cases hs; simp only [Tree.flat]; exact filter_keys_sub kvs s
            · cases hs
          | _ => rw [ht] at hs; cases hs
        | int i =>
          simp only at hs
          cases ht : w.modules with
          | list ts => rw [ht] at hs; refine popIndexT_sub hs ?_; rintro ⟨_, ts', h⟩; cases h
          | tuple ts => rw [ht] at hs; refine popIndexT_sub hs ?_; rw [ht] at ho; exact ho
          | _ => rw [ht] at hs; cases hs
  · exact List.Sublist.refl _

example : ¬ popsTupleLast (.list [.leaf 1, .leaf 2]) (.popIndex (-1)) ∧ brings (.insert 0 5) = [5] := by
  constructor
  · rintro ⟨_, ts, h⟩; cases h
  · rfl

/-- A failed edit leaves the modules as they were. -/
theorem C23_error_keeps (w : Mdl S) (o : EditOp) (e : PyErr) (h : (edit w o).2 = .error e) :
    (edit w o).1.modules = w.modules := by
  unfold edit at h ⊢
  split
  · rename_i t r he; rw [he] at h; cases h
  · rfl

example : (edit (init (.list [.leaf 1]) : Mdl Nat) (.popIndex 4)).2 = .error .indexError := by decide +kernel

theorem setKeys_list {l : List (Tree Nat)} {ks : List Key} {v t : Tree Nat} (h : setKeys (.list l) ks v = .ok t) :
    ∃ l', t = .list l' := by
  cases ks with
  | nil => simp [setKeys] at h
  | cons k ks =>
    cases ks with
    | nil =>
      cases k with
      | str s => simp [setKeys, setKey] at h
      | int i =>
        simp only [setKeys, setKey] at h
        cases hp : pySet l i v with
        | error e => rw [hp] at h; cases h
        | ok q => rw [hp] at h; cases h; exact ⟨_, rfl⟩
    | cons k' ks =>
      rw [setKeys] at h
      cases hg : getKey (.list l) k with
      | error e => rw [hg] at h; cases h
      | ok c =>
        rw [hg] at h
        simp only at h
        cases hs : setKeys c (k' :: ks) v with
        | error e => rw [hs] at h; cases h
        | ok c' =>
          rw [hs] at h; cases h
          cases k with
          | str s => exact ⟨_, rfl⟩
          | int i =>
            cases hp : pyIdx l.length i with
            | none => exact ⟨l, by simp [putChild, hp]⟩
            | some p => exact ⟨l.set p c', by simp [putChild, hp]⟩

/-- Over every history of list edits: the surviving original modules keep their order. `K` is any set of modules that no edit
brings in. -/
theorem C23_history_order (K : Nat → Bool) (ops : List EditOp) (w : Mdl S) (l : List (Tree Nat)) (hw : w.modules = .list l)
    (hK : ∀ o ∈ ops, ∀ m ∈ brings o, K m = false) (hs : ∀ o ∈ ops, ∀ t, o ≠ .setAll t) :
    ∃ l' xs ys, (ops.foldl (fun w o => (edit w o).1) w).modules = .list l' ∧ HoldsL l xs ∧ HoldsL l' ys ∧
      (ys.filter K).Sublist (xs.filter K) := by
  induction ops generalizing w l with
  | nil => exact ⟨l, Tree.flatL l, Tree.flatL l, hw, flat_holds'.2.1 l, flat_holds'.2.1 l, List.Sublist.refl _⟩
  | cons o ops ih =>
    have hl1 : ∃ l1, (edit w o).1.modules = .list l1 := by
      unfold edit
      split
      · rename_i t r he
        show ∃ l1, t = .list l1
        cases o with
        | setAll t => exact absurd rfl (hs _ (by simp) t)
        | setItem k v =>
          cases k with
          | str s => simp [editT, setItemT, hw, Except.map] at he
          | int i =>
            simp only [editT, setItemT, hw] at he
            cases hp : pySet l i v with
            | error e => rw [hp] at he; cases he
            | ok q => rw [hp] at he; cases he; exact ⟨_, rfl⟩
        | setSlice a b vs => simp only [editT, setSliceT, hw, Except.map, Except.ok.injEq, Prod.mk.injEq] at he; exact ⟨_, he.1.symm⟩
        | setPath ks v =>
          simp only [editT, hw] at he
          cases hk : setKeys (.list l) ks v with
          | error e => rw [hk] at he; cases he
          | ok t' =>
            rw [hk] at he; cases he
            exact setKeys_list hk
        | insert i m => simp only [editT, insertT, hw, Except.map, Except.ok.injEq, Prod.mk.injEq] at he; exact ⟨_, he.1.symm⟩
        | append m => simp only [editT, appendT, insertT, hw, Except.map, Except.ok.injEq, Prod.mk.injEq] at he; exact ⟨_, he.1.symm⟩
        | prepend m => simp only [editT, prependT, insertT, hw, Except.map, Except.ok.injEq, Prod.mk.injEq] at he; exact ⟨_, he.1.symm⟩
        | popIndex i =>
          simp only [editT, popIndexT, hw] at he
          cases hp : pyPop l i with
          | error e => rw [hp] at he; cases he
          | ok q => rw [hp] at he; cases he; exact ⟨_, rfl⟩
        | popKey k =>
          cases k with
          | str s => simp [editT, popKeyT, hw, Except.map] at he
          | int i =>
            simp only [editT, popKeyT, popIndexT, hw] at he
            cases hp : pyPop l i with
            | error e => rw [hp] at he; cases he
            | ok q => rw [hp] at he; cases he; exact ⟨_, rfl⟩
      · exact ⟨l, hw⟩
    obtain ⟨l1, h1⟩ := hl1
    obtain ⟨l', xs, ys, h2, h3, h4, h5⟩ := ih (edit w o).1 l1 h1 (fun o' h' => hK o' (by simp [h'])) (fun o' h' => hs o' (by simp [h']))
    refine ⟨l', Tree.flatL l, ys, h2, flat_holds'.2.1 l, h4, h5.trans ?_⟩
    refine C23_order_kept w o K (hK o (by simp)) ?_ _ _ (hw ▸ .list (flat_holds'.2.1 l)) (h1 ▸ .list h3)
    intro hp
    rw [hw] at hp
    cases o with
    | popIndex i => obtain ⟨_, ts, h⟩ := hp; cases h
    | popKey k =>
      cases k with
      | str s => exact hp
      | int i => obtain ⟨_, ts, h⟩ := hp; cases h
    | _ => exact hp

example : ([.insert 0 5, .popIndex (-1), .append 6] : List EditOp).foldl (fun w o => (edit w o).1)
    (init (.list [.leaf 1, .leaf 2, .leaf 3]) : Mdl Nat) = init (.list [.leaf 5, .leaf 1, .leaf 2, .leaf 6]) := by
  show (⟨_, _, _, _, _, _⟩ : Mdl Nat) = ⟨_, _, _, _, _, _⟩
  congr 1

/-- Every edit, successful or not, invalidates the compiled state: shapes, cached callable, optimizer state and execution order
are gone and the model is not ready. -/
theorem C23_invalidates (sig : Sig M S) (kind : Kind) (w : World M S) (o : EditOp) :
    (edit w.mdl o).1.inShape = none ∧ (edit w.mdl o).1.outShape = none ∧ (edit w.mdl o).1.callable = none ∧
    (edit w.mdl o).1.optState = false ∧ (edit w.mdl o).1.order = none ∧
    isReady sig kind { w with mdl := (edit w.mdl o).1 } = false := by
  obtain ⟨t, ht⟩ := edit_reset w.mdl o
  rw [ht]
  cases kind <;> simp [reset, isReady]

/-! ## C24: `a + b` -/

/-- The sum holds the modules of `a` followed by `b` (for list and tuple models). -/
theorem C24_result (h : Heap) (a m c : Nat) :
    modulesOf (hAdd h a m c) c = modulesOf h a ++ [m] := by
  unfold hAdd hAppend modulesOf
  have e : (upd h.models c ⟨(h.models a).modules, false⟩ c).modules = (h.models a).modules := by simp [upd]
  simp only [e]
  cases hm : (h.models a).modules with
  | listRef r =>
    have hc : clampIdx (h.lists r).length ((h.lists r).length : Int) = (h.lists r).length := by
      unfold clampIdx; split <;> omega
    simp [entries, upd, pyInsert, hc]
  | tupleVal xs =>
    have hc : clampIdx xs.length (xs.length : Int) = xs.length := by unfold clampIdx; split <;> omega
    simp only [slice_insert]
    simp [entries, upd, pyInsert, hc]

/-- For tuple models every other model, in particular the left operand, is unchanged. -/
theorem C24_tuple_partial (h : Heap) (a m c : Nat) (xs : List Nat) (ha : (h.models a).modules = .tupleVal xs) (d : Nat)
    (hd : d ≠ c) : modulesOf (hAdd h a m c) d = modulesOf h d ∧ (hAdd h a m c).models d = h.models d := by
  unfold hAdd hAppend modulesOf
  have e : (upd h.models c ⟨(h.models a).modules, false⟩ c).modules = .tupleVal xs := by simp [upd, ha]
  simp only [e]
  have e2 : ∀ y z : HMdl, upd (upd h.models c y) c z d = h.models d := by intro y z; simp [upd, hd]
  rw [e2]
  refine ⟨?_, rfl⟩
  cases (h.models d).modules <;> rfl

/-- The result of an addition has to be compiled before it can be called, whatever the operand was. -/
theorem C24_uncompiled (h : Heap) (a m c : Nat) : ((hAdd h a m c).models c).compiled = false := by
  unfold hAdd hAppend
  cases hm : (upd h.models c ⟨(h.models a).modules, false⟩ c).modules <;> simp [upd, hm]

example : ((hAdd ⟨fun _ => [7], fun _ => ⟨.listRef 0, true⟩⟩ 0 5 1).models 1).compiled = false := C24_uncompiled _ _ _ _

/-- For list models the left operand is changed by every addition: it also gets the new module, while keeping its compiled
state. So the property fails for all list models. -/
theorem C24_list_refuted (h : Heap) (a m c r : Nat) (ha : (h.models a).modules = .listRef r) (hac : a ≠ c) :
    modulesOf (hAdd h a m c) a = modulesOf h a ++ [m] ∧ modulesOf (hAdd h a m c) a ≠ modulesOf h a ∧
    ((hAdd h a m c).models a).compiled = (h.models a).compiled := by
  have hx : modulesOf (hAdd h a m c) a = modulesOf h a ++ [m] ∧
      ((hAdd h a m c).models a).compiled = (h.models a).compiled := by
    unfold hAdd hAppend modulesOf
    have e : (upd h.models c ⟨(h.models a).modules, false⟩ c).modules = .listRef r := by simp [upd, ha]
    simp only [e]
    have e2 : ∀ y z : HMdl, upd (upd h.models c y) c z a = h.models a := by intro y z; simp [upd, hac]
    rw [e2, ha]
    have hc : clampIdx (h.lists r).length ((h.lists r).length : Int) = (h.lists r).length := by
      unfold clampIdx; split <;> omega
    simp [entries, upd, pyInsert, hc]
  refine ⟨hx.1, ?_, hx.2⟩
  rw [hx.1]
  simp

example : ∃ h : Heap, (h.models 0).modules = .listRef 0 ∧ modulesOf h 0 = [1, 2] :=
  ⟨⟨fun _ => [1, 2], fun _ => ⟨.listRef 0, true⟩⟩, rfl, rfl⟩
example : ∃ h : Heap, (h.models 0).modules = .tupleVal [1, 2] := ⟨⟨fun _ => [], fun _ => ⟨.tupleVal [1, 2], true⟩⟩, rfl⟩

/-! ## C25: readiness -/

/-- A ready model has shapes and ready modules: all of them (and at least one) in a sequential model, the scheduled ones in a
non-sequential model. -/
theorem C25_ready_modules (sig : Sig M S) (w : World M S) :
    (isReady sig .sequential w = true ↔ (∀ xs, Holds w.mdl.modules xs → xs ≠ [] ∧ ∀ i ∈ xs, sig.ready (w.heap i) = true) ∧
      w.mdl.inShape ≠ none ∧ w.mdl.outShape ≠ none) ∧
    (isReady sig .nonSequential w = true ↔ (∃ ids, w.mdl.order = some ids ∧ ∀ i ∈ ids, sig.ready (w.heap i) = true) ∧
      w.mdl.inShape ≠ none ∧ w.mdl.outShape ≠ none) := by
  constructor
  · simp only [isReady, Bool.and_eq_true, decide_eq_true_eq, List.all_eq_true, Option.isSome_iff_ne_none, and_assoc]
    constructor
    · rintro ⟨h1, h2, h3, h4⟩
      refine ⟨fun xs hx => ?_, h3, h4⟩
      have hp := jaxLeaves_holds hx
      refine ⟨fun e => ?_, fun i hi => h2 i (hp.mem_iff.2 hi)⟩
      rw [hp.length_eq, e] at h1; simp at h1
    · rintro ⟨h1, h3, h4⟩
      have h := h1 _ (flat_holds _)
      have hp := jaxLeaves_perm w.mdl.modules
      refine ⟨?_, fun i hi => h.2 i (hp.mem_iff.1 hi), h3, h4⟩
      rw [hp.length_eq]; exact List.length_pos_iff.2 h.1
  · simp only [isReady]
    cases w.mdl.order with
    | none => simp
    | some ids => simp [and_assoc, Option.isSome_iff_ne_none]

/-- In every history of a new model: if it reports ready, `compile` was called after the last edit or reset. -/
theorem C25_ready_compiled (sig : Sig M S) (kind : Kind) (h : Nat → M) (t : Tree Nat) (ops : List (Op S))
    (hr : isReady sig kind (run sig kind ⟨h, init t⟩ ops) = true) :
    ∃ pre s post, ops = pre ++ .compile s :: post ∧ ∀ o ∈ post, (∃ s', o = .compile s') ∨ ∃ s', o = .call s' := by
  obtain ⟨s, hs⟩ := ready_outShape hr
  rcases outShape_compiled sig kind ⟨h, init t⟩ rfl ops with h' | ⟨pre, s, post, e, hp, _⟩
  · rw [h'] at hs; cases hs
  · refine ⟨pre, s, post, e, fun o ho => ?_⟩
    have := hp o ho
    cases o with
    | edit o => cases this
    | reset => cases this
    | compile s' => exact .inl ⟨s', rfl⟩
    | call s' => exact .inr ⟨s', rfl⟩

/-- For a sequential model whose output shapes always have a non-batch dimension, that compilation succeeded. -/
theorem C25_ready_succeeded_partial (sig : Sig M S) (hn : ∀ s, sig.scalar s = false) (h : Nat → M) (t : Tree Nat)
    (ops : List (Op S)) (hr : isReady sig .sequential (run sig .sequential ⟨h, init t⟩ ops) = true) :
    ∃ pre s post, ops = pre ++ .compile s :: post ∧ (∀ o ∈ post, (∃ s', o = .compile s') ∨ ∃ s', o = .call s') ∧
      (compile sig .sequential (run sig .sequential ⟨h, init t⟩ pre) s).2 = .ok () := by
  obtain ⟨s, hs⟩ := ready_outShape hr
  rcases seq_outShape_compiled sig hn ⟨h, init t⟩ rfl ops with h' | ⟨pre, s, post, e, hp, hok⟩
  · rw [h'] at hs; cases hs
  · refine ⟨pre, s, post, e, fun o ho => ?_, hok⟩
    have := hp o ho
    cases o with
    | edit o => cases this
    | reset => cases this
    | compile s' => exact .inl ⟨s', rfl⟩
    | call s' => exact .inr ⟨s', rfl⟩

/-- A small module class for the examples: it is ready once compiled, and refuses to be compiled again for another size
(as e.g. modules/bias.py:149-190 does). Shapes are sizes; size 0 stands for a shape without dimensions. -/
def editSig : Sig (Option Nat) Nat where
  ready m := m.isSome
  compile m s := match m with
    | none => (some s, none)
    | some s0 => if s0 = s then (m, none) else (m, some .valueError)
  outShape _ s := .ok s
  scalar s := s == 0
  shapeEq a b := a == b
  numFloats m := m
  trainable _ := true
  setTrainable _ m := m
  schedule t := .ok t.jaxLeaves
  progression _ ids s := .ok (ids.map fun _ => s, s)

/-- The same with an output that always has a dimension. -/
def editSig1 : Sig (Option Nat) Nat := { editSig with scalar := fun _ => false }

example : isReady editSig1 .sequential (run editSig1 .sequential ⟨fun _ => none, init (.list [.leaf 0, .leaf 1])⟩
    [.compile 3, .edit (.append 2), .compile 3, .call 3]) = true := by decide +kernel
example : isReady editSig .nonSequential (run editSig .nonSequential ⟨fun _ => none, init (.dict [("a".toList, .leaf 0)])⟩
    [.compile 3, .call 3]) = true := by decide +kernel

/-- A model can report ready although its only compilation failed: `compile` stores the shapes before it rejects an output
without non-batch dimension. -/
theorem C25_ready_after_failure_refuted :
    ∃ (h : Nat → Option Nat) (t : Tree Nat), (compile editSig .sequential ⟨h, init t⟩ 0).2 = .error .valueError ∧
      isReady editSig .sequential (run editSig .sequential ⟨h, init t⟩ [.compile 0]) = true :=
  ⟨fun _ => none, .list [.leaf 0], by decide +kernel, by decide +kernel⟩

/-- After a failed re-compilation a sequential model stays ready, but for the shape that was refused: it then accepts data of
that shape and rejects data of the shape it was compiled for. -/
theorem C25_failed_recompile_defect :
    ∃ (h : Nat → Option Nat) (t : Tree Nat),
      let w1 := run editSig1 .sequential ⟨h, init t⟩ [.compile 5]
      let w2 := run editSig1 .sequential ⟨h, init t⟩ [.compile 5, .compile 6]
      (compile editSig1 .sequential w1 6).2 = .error .runtimeError ∧
      (call editSig1 .sequential w1 5).2 = .ok t ∧
      (call editSig1 .sequential w2 5).2 = .error .valueError ∧ (call editSig1 .sequential w2 6).2 = .ok t :=
  ⟨fun _ => none, .list [.leaf 0], by decide +kernel⟩

/-- Calling a model that is not ready raises `RuntimeError`; calling a ready model with data of another shape raises
`ValueError`; neither changes anything. -/
theorem C25_call_guards (sig : Sig M S) (kind : Kind) (w : World M S) (s : S) :
    (isReady sig kind w = false → call sig kind w s = (w, .error .runtimeError)) ∧
    (∀ s0, w.mdl.inShape = some s0 → isReady sig kind w = true → sig.shapeEq s0 s = false →
      call sig kind w s = (w, .error .valueError)) ∧
    (∀ t, (call sig kind w s).2 = .ok t → isReady sig kind w = true ∧ ∃ s0, w.mdl.inShape = some s0 ∧ sig.shapeEq s0 s = true) := by
  refine ⟨fun h => by simp [call, h], fun s0 h0 h1 h2 => by simp [call, h0, h1, h2], fun t ht => ?_⟩
  unfold call at ht
  cases hr : isReady sig kind w with
  | false => simp [hr] at ht
  | true =>
    cases hi : w.mdl.inShape with
    | none => simp [hr, hi] at ht
    | some s0 =>
      cases he : sig.shapeEq s0 s with
      | false => simp [hr, hi, he] at ht
      | true => exact ⟨rfl, s0, rfl, he⟩

/-- In every history of edits, resets, compilations and calls, a successful call evaluates the current modules. -/
theorem C25_call_current (sig : Sig M S) (kind : Kind) (h : Nat → M) (t : Tree Nat) (ops : List (Op S)) (s : S) (u : Tree Nat)
    (hc : (call sig kind (run sig kind ⟨h, init t⟩ ops) s).2 = .ok u) :
    u = (run sig kind ⟨h, init t⟩ ops).mdl.modules := by
  have hi := callable_current sig kind ⟨h, init t⟩ rfl ops
  unfold call at hc
  split at hc
  · cases hc
  · split at hc
    · cases hc
    · split at hc
      · cases hc
      · split at hc
        · rename_i t' ht
          cases hc
          rcases hi with hi | hi
          · rw [ht] at hi; cases hi
          · rw [ht] at hi; exact Option.some.inj hi
        · cases hc; rfl

example : (call editSig1 .sequential (run editSig1 .sequential ⟨fun _ => none, init (.list [.leaf 0, .leaf 1])⟩
    [.compile 3, .call 3, .edit (.popIndex 0), .compile 3]) 3).2 = .ok (.list [.leaf 1]) := by decide +kernel

/-- Not so after loading hyperparameters into a model that was called before: the old callable stays cached. -/
theorem C25_load_stale_defect :
    ∃ (h : Nat → Option Nat) (t t' : Tree Nat),
      let w := run editSig1 .sequential ⟨h, init t⟩ [.compile 3, .call 3]
      (load w t' (some 3) (some 3)).mdl.modules = t' ∧ (call editSig1 .sequential (load w t' (some 3) (some 3)) 3).2 = .ok t ∧
      t ≠ t' :=
  ⟨fun i => if i = 1 then some 3 else none, .list [.leaf 0], .list [.leaf 1], by decide +kernel⟩

/-! ## C26: trainable floats -/

/-- The count of a model is the sum of the counts of its modules; it is undefined exactly if some module has none (is not
ready). -/
theorem C26_additive (sig : Sig M S) (h : Nat → M) (t : Tree Nat) (xs : List Nat) (hx : Holds t xs) :
    (∀ c : Nat → Nat, (∀ i ∈ xs, sig.numFloats (h i) = some (c i)) → numFloats sig h t = some (xs.map c).sum) ∧
    (numFloats sig h t = none ↔ ∃ i ∈ xs, sig.numFloats (h i) = none) := by
  rw [holds_unique hx]
  exact ⟨fun c hc => numFloats_some hc, numFloats_none⟩

example : numFloats editSig (fun i => some (10 * i)) (.dict [("b".toList, .leaf 1), ("a".toList, .list [.leaf 2, .leaf 3])]) = some 60 := by
  decide +kernel

/-- Inserting a module adds exactly its count; popping one removes exactly its count. -/
theorem C26_edit (sig : Sig M S) (h : Nat → M) (c : Nat → Nat) (hc : ∀ i, sig.numFloats (h i) = some (c i))
    (l l' : List (Tree Nat)) (p m : Nat) (hl : Inserted l p (.leaf m) l') (n n' : Nat)
    (hn : numFloats sig h (.list l) = some n) (hn' : numFloats sig h (.list l') = some n') : n' = n + c m := by
  rw [numFloats_some fun i _ => hc i] at hn hn'
  obtain ⟨a, b, rfl, _, rfl⟩ := hl
  simp only [Option.some.injEq] at hn hn'
  simp only [Tree.flat, flatL_append, Tree.flatL, List.map_append, List.sum_append_nat] at hn hn'
  simp at hn'
  omega

example : Inserted [Tree.leaf 1, .leaf 2] 1 (.leaf 9) [.leaf 1, .leaf 9, .leaf 2] := ⟨[.leaf 1], [.leaf 2], rfl, rfl, rfl⟩

/-- The base-class count of a ready module: one per real entry and two per complex entry of its parameters. -/
theorem C26_base_count (m : BaseMod) (xs : List (Bool × Nat)) (hx : Holds m.params xs) :
    (m.ready = true → baseNumFloats m =
      some ((xs.map fun p => p.2).sum + ((xs.filter fun p => p.1).map fun p => p.2).sum)) ∧
    (m.ready = false → baseNumFloats m = none) := by
  refine ⟨fun hr => ?_, fun hr => by simp [baseNumFloats, hr]⟩
  have hp := jaxLeaves_holds hx
  have key : ∀ (l : List (Bool × Nat)) (a : Nat), l.foldl (fun s p => s + (if p.1 then 2 else 1) * p.2) a =
      a + ((l.map fun p => p.2).sum + ((l.filter fun p => p.1).map fun p => p.2).sum) := by
    intro l
    induction l with
    | nil => intro a; simp
    | cons q l ih =>
      intro a
      obtain ⟨b, n⟩ := q
      rw [List.foldl_cons, ih]
      cases b <;> simp <;> omega
  have e : (m.params.jaxLeaves.map fun p => p.2).sum + ((m.params.jaxLeaves.filter fun p => p.1).map fun p => p.2).sum =
      (xs.map fun p => p.2).sum + ((xs.filter fun p => p.1).map fun p => p.2).sum := by
    rw [(hp.map _).sum_nat, ((hp.filter _).map _).sum_nat]
  unfold baseNumFloats
  simp only [hr, Bool.not_true, Bool.false_eq_true, if_false]
  split
  · rename_i h0
    rw [List.length_eq_zero_iff.1 h0] at e
    rw [← e]; simp
  · rw [key, e]; simp

example : baseNumFloats ⟨true, true, .dict [("a".toList, .leaf (true, 3)), ("b".toList, .leaf (false, 4))]⟩ = some 10 := by
  decide +kernel

/-- Freezing or unfreezing never changes a count: the flag is not looked at. So "freezing removes exactly the module's own
count" fails for every module with parameters. -/
theorem C26_freeze_refuted (m : BaseMod) (v : Bool) :
    baseNumFloats (baseSetTrainable v m) = baseNumFloats m ∧
    (∀ n, baseNumFloats m = some n → 0 < n → baseNumFloats (baseSetTrainable false m) ≠ some 0) := by
  refine ⟨rfl, fun n hn h0 h => ?_⟩
  have : baseNumFloats (baseSetTrainable false m) = baseNumFloats m := rfl
  rw [this, hn] at h
  cases h; omega

/-- Setting the flag of a model sets it on all its modules and on no other object; the model then reports it (if it has
modules). -/
theorem C26_model_flag (sig : Sig M S) (hset : ∀ v m, sig.trainable (sig.setTrainable v m) = v) (v : Bool) (h : Nat → M)
    (t : Tree Nat) (xs : List Nat) (hx : Holds t xs) :
    (∀ i ∈ xs, sig.trainable (setModelTrainable sig v h t i) = v) ∧ (∀ i, i ∉ xs → setModelTrainable sig v h t i = h i) ∧
    (xs ≠ [] → modelTrainable sig (setModelTrainable sig v h t) t = v) := by
  have key : ∀ (l : List Nat) (g : Nat → M),
      (∀ i, i ∈ l ∨ sig.trainable (g i) = v → sig.trainable (l.foldl (fun h i => upd h i (sig.setTrainable v (h i))) g i) = v) ∧
      (∀ i, i ∉ l → l.foldl (fun h i => upd h i (sig.setTrainable v (h i))) g i = g i) := by
    intro l
    induction l with
    | nil => intro g; exact ⟨fun i hi => by simpa using hi, fun i _ => rfl⟩
    | cons j l ih =>
      intro g
      rw [List.foldl_cons]
      refine ⟨fun i hi => (ih _).1 i ?_, fun i hi => ?_⟩
      · by_cases hij : i = j
        · right; simp [upd, hij, hset]
        · rcases hi with hi | hi
          · left
            rcases List.mem_cons.1 hi with h' | h'
            · exact absurd h' hij
            · exact h'
          · right; simp [upd, hij, hi]
      · rw [(ih _).2 i (fun h' => hi (by simp [h']))]
        have : i ≠ j := fun e => hi (by simp [e])
        simp [upd, this]
  have hp := jaxLeaves_holds hx
  have h1 : ∀ i ∈ xs, sig.trainable (setModelTrainable sig v h t i) = v :=
    fun i hi => (key _ _).1 i (.inl (hp.mem_iff.2 hi))
  refine ⟨h1, fun i hi => (key _ _).2 i (fun h' => hi (hp.mem_iff.1 h')), fun hne => ?_⟩
  unfold modelTrainable
  cases v with
  | true =>
    rw [List.any_eq_true]
    obtain ⟨i, hi⟩ := List.exists_mem_of_ne_nil _ hne
    exact ⟨i, hp.mem_iff.2 hi, h1 i hi⟩
  | false =>
    rw [List.any_eq_false]
    intro i hi
    rw [h1 i (hp.mem_iff.1 hi)]; simp

example : ∀ v m, (⟨fun m => m.ready, fun m _ => (m, none), fun _ s => .ok s, fun _ => false, fun _ _ => true, baseNumFloats,
    BaseMod.trainable, baseSetTrainable, fun _ => .ok [], fun _ _ s => .ok ([], s)⟩ : Sig BaseMod Nat).trainable (baseSetTrainable v m) = v :=
  fun _ _ => rfl

end Verif.Props
