import Verif.Model.Edit
import Verif.Spec.Edit
import Mathlib.Data.List.Basic

/-! Lemmas on the editing model. -/

namespace Verif.Edit
open EditSpec

variable {α : Type}

theorem pyIdx_iff (n : Nat) (i : Int) (p : Nat) : pyIdx n i = some p ↔ Refers n i p ∧ (0 ≤ i ∨ i + n = p) := by
  unfold pyIdx Refers
  split
  · split <;> simp <;> omega
  · split <;> simp <;> omega

theorem refers_iff (n : Nat) (i : Int) (p : Nat) : pyIdx n i = some p ↔ Refers n i p := by
  unfold pyIdx Refers
  split
  · split
    · simp; omega
    · simp; omega
  · split
    · simp; omega
    · simp; omega

theorem pyIdx_none (n : Nat) (i : Int) : pyIdx n i = none ↔ ∀ p, ¬ Refers n i p := by
  constructor
  · intro h p hp
    rw [(refers_iff n i p).2 hp] at h; cases h
  · intro h
    cases hx : pyIdx n i with
    | none => rfl
    | some p => exact absurd ((refers_iff n i p).1 hx) (h p)

theorem clamp_inserts (n : Nat) (i : Int) : InsertsAt n i (clampIdx n i) := by
  unfold clampIdx InsertsAt
  split <;> omega

theorem insertsAt_unique {n : Nat} {i : Int} {p q : Nat} (hp : InsertsAt n i p) (hq : InsertsAt n i q) : p = q := by
  unfold InsertsAt at *; omega

theorem clamp_le (n : Nat) (i : Int) : clampIdx n i ≤ n := (clamp_inserts n i).1

theorem pyInsert_spec (l : List α) (i : Int) (x : α) : Inserted l (clampIdx l.length i) x (pyInsert l i x) :=
  ⟨l.take _, l.drop _, (List.take_append_drop _ _).symm, by simp [clamp_le], rfl⟩

theorem removed_of_get {l : List α} {p : Nat} {x : α} (h : l[p]? = some x) : Removed l p x (l.take p ++ l.drop (p + 1)) := by
  obtain ⟨hp, hx⟩ := List.getElem?_eq_some_iff.1 h
  refine ⟨l.take p, l.drop (p + 1), rfl, by simp; omega, ?_⟩
  rw [← hx, ← List.drop_eq_getElem_cons hp, List.take_append_drop]

theorem pyPop_ok {l : List α} {i : Int} {p : Nat} (h : Refers l.length i p) :
    ∃ x, l[p]? = some x ∧ pyPop l i = .ok (x, l.take p ++ l.drop (p + 1)) := by
  have hp : p < l.length := h.1
  refine ⟨l[p], by simp [hp], ?_⟩
  unfold pyPop
  rw [(refers_iff _ _ _).2 h]
  simp [hp]

theorem pyPop_err {l : List α} {i : Int} (h : ∀ p, ¬ Refers l.length i p) : pyPop l i = .error .indexError := by
  unfold pyPop; rw [(pyIdx_none _ _).2 h]

theorem pySet_ok {l : List α} {i : Int} {p : Nat} (x : α) (h : Refers l.length i p) : pySet l i x = .ok (l.set p x) := by
  unfold pySet; rw [(refers_iff _ _ _).2 h]

theorem replaced_set {l : List α} {p : Nat} (x : α) (h : p < l.length) : Replaced l p x (l.set p x) := by
  refine ⟨l.take p, l[p], l.drop (p + 1), ?_, by simp; omega, ?_⟩
  · rw [← List.drop_eq_getElem_cons h, List.take_append_drop]
  · rw [List.set_eq_take_append_cons_drop, if_pos h]

theorem slice_insert (l : List α) (i : Int) (x : α) :
    slice l none (some i) ++ x :: slice l (some i) none = pyInsert l i x := by
  simp [slice, pyInsert, bound]

/-- The slices of the tuple branch of `pop_module_by_index` for a nonnegative index or a negative one other than `-1`. -/
theorem slice_pop (l : List α) (i : Int) (p : Nat) (h : Refers l.length i p) (hi : i ≠ -1) :
    slice l none (some i) ++ slice l (some (i + 1)) none = l.take p ++ l.drop (p + 1) := by
  have h1 : clampIdx l.length i = p := by
    unfold Refers at h; unfold clampIdx; split <;> omega
  have h2 : clampIdx l.length (i + 1) = p + 1 := by
    unfold Refers at h; unfold clampIdx; split <;> omega
  simp [slice, bound, h1, h2]

theorem slice_pop_last (l : List α) : slice l none (some (-1)) ++ slice l (some (-1 + 1)) none = l.take (l.length - 1) ++ l := by
  have h1 : clampIdx l.length (-1) = l.length - 1 := by unfold clampIdx; split <;> omega
  have h2 : clampIdx l.length (-1 + 1) = 0 := by unfold clampIdx; split <;> omega
  simp only [slice, bound, h1, h2]; simp

/-! ### The order of references -/

theorem flat_holds' : (∀ (t : Tree α), Holds t t.flat) ∧ (∀ (ts : List (Tree α)), HoldsL ts (Tree.flatL ts)) ∧
    (∀ (kvs : List (Str × Tree α)), HoldsL (kvs.map Prod.snd) (Tree.flatD kvs)) := by
  have key : ∀ n : Nat, (∀ (t : Tree α), sizeOf t ≤ n → Holds t t.flat) ∧
      (∀ (ts : List (Tree α)), sizeOf ts ≤ n → HoldsL ts (Tree.flatL ts)) ∧
      (∀ (kvs : List (Str × Tree α)), sizeOf kvs ≤ n → HoldsL (kvs.map Prod.snd) (Tree.flatD kvs)) := by
    intro n
    induction n with
    | zero =>
      refine ⟨fun t h => ?_, fun ts h => ?_, fun kvs h => ?_⟩
      · cases t <;> simp at h
      · cases ts <;> simp at h
      · cases kvs <;> simp at h
    | succ n ih =>
      refine ⟨fun t h => ?_, fun ts h => ?_, fun kvs h => ?_⟩
      · cases t with
        | leaf a => simp only [Tree.flat]; exact .leaf a
        | none => simp only [Tree.flat]; exact .none
        | list ts => simp only [Tree.flat]; exact .list (ih.2.1 ts (by simp at h; omega))
        | tuple ts => simp only [Tree.flat]; exact .tuple (ih.2.1 ts (by simp at h; omega))
        | dict kvs => simp only [Tree.flat]; exact .dict (ih.2.2 kvs (by simp at h; omega))
      · cases ts with
        | nil => simp only [Tree.flatL]; exact .nil
        | cons t ts =>
          simp only [Tree.flatL]
          exact .cons (ih.1 t (by simp at h; omega)) (ih.2.1 ts (by simp at h; omega))
      · cases kvs with
        | nil => simp only [Tree.flatD]; exact .nil
        | cons p kvs =>
          obtain ⟨k, t⟩ := p
          simp only [Tree.flatD]
          exact .cons (ih.1 t (by simp at h; omega)) (ih.2.2 kvs (by simp at h; omega))
  exact ⟨fun t => (key _).1 t (Nat.le_refl _), fun t => (key _).2.1 t (Nat.le_refl _), fun t => (key _).2.2 t (Nat.le_refl _)⟩

theorem flat_holds (t : Tree α) : Holds t t.flat := flat_holds'.1 t

mutual
theorem holds_unique : ∀ {t : Tree α} {xs : List α}, Holds t xs → xs = t.flat
  | _, _, .leaf a => by simp [Tree.flat]
  | _, _, .none => by simp [Tree.flat]
  | _, _, .list h => by rw [Tree.flat]; exact holdsL_unique h
  | _, _, .tuple h => by rw [Tree.flat]; exact holdsL_unique h
  | _, _, @Holds.dict _ kvs xs h => by
    rw [Tree.flat, holdsL_unique h]
    clear h
    induction kvs with
    | nil => simp [Tree.flatL, Tree.flatD]
    | cons p r ih => simp [Tree.flatL, Tree.flatD, ih]
theorem holdsL_unique : ∀ {ts : List (Tree α)} {xs : List α}, HoldsL ts xs → xs = Tree.flatL ts
  | _, _, .nil => by simp [Tree.flatL]
  | _, _, .cons h hs => by rw [Tree.flatL, holds_unique h, holdsL_unique hs]
end

theorem flatL_append (a b : List (Tree α)) : Tree.flatL (a ++ b) = Tree.flatL a ++ Tree.flatL b := by
  induction a with
  | nil => simp [Tree.flatL]
  | cons t a ih => simp [Tree.flatL, ih]

theorem flatL_set_sub (f : α → Bool) {ts : List (Tree α)} {p : Nat} {c c' : Tree α} (h : ts[p]? = some c)
    (hs : (c'.flat.filter f).Sublist (c.flat.filter f)) :
    ((Tree.flatL (ts.set p c')).filter f).Sublist ((Tree.flatL ts).filter f) := by
  obtain ⟨hp, rfl⟩ := List.getElem?_eq_some_iff.1 h
  obtain ⟨a, y, b, e1, e2, e3⟩ := replaced_set c' hp
  have hy : y = ts[p] := by
    have : ts[p]? = some y := by rw [e1, ← e2]; simp
    rw [List.getElem?_eq_getElem hp] at this; exact (Option.some.inj this).symm
  rw [e3]
  conv_rhs => rw [e1]
  rw [flatL_append, flatL_append, Tree.flatL, Tree.flatL]
  simp only [List.filter_append]
  rw [hy]
  exact List.Sublist.append (List.Sublist.refl _) (List.Sublist.append hs (List.Sublist.refl _))

theorem dictSet_sub (f : α → Bool) {kvs : List (Str × Tree α)} {s : Str} {c' : Tree α}
    (hs : ∀ c, kvs.lookup s = some c → (c'.flat.filter f).Sublist (c.flat.filter f))
    (hn : kvs.lookup s = none → c'.flat.filter f = []) :
    ((Tree.flatD (dictSet kvs s c')).filter f).Sublist ((Tree.flatD kvs).filter f) := by
  induction kvs with
  | nil => simp [dictSet, Tree.flatD, hn rfl]
  | cons q r ih =>
    obtain ⟨k, t⟩ := q
    by_cases hk : k = s
    · subst hk
      simp only [dictSet, if_true, Tree.flatD, List.filter_append]
      exact List.Sublist.append (hs t (by simp)) (List.Sublist.refl _)
    · have hl : List.lookup s ((k, t) :: r) = r.lookup s := by
        simp only [List.lookup]
        have : (s == k) = false := by simpa using fun e => hk e.symm
        rw [this]
      simp only [dictSet, hk, if_false, Tree.flatD, List.filter_append]
      rw [hl] at hs hn
      exact List.Sublist.append (List.Sublist.refl _) (ih hs hn)

theorem filter_nil_sub {f : α → Bool} {v : Tree α} (hv : ∀ x ∈ v.flat, f x = false) : v.flat.filter f = [] := by
  simpa [List.filter_eq_nil_iff] using hv

theorem setKey_sub {f : Nat → Bool} {t v t' : Tree Nat} {k : Key} (hv : ∀ x ∈ v.flat, f x = false)
    (h : setKey t k v = .ok t') : (t'.flat.filter f).Sublist (t.flat.filter f) := by
  unfold setKey at h
  split at h
  · cases h
    simp only [Tree.flat]
    exact dictSet_sub f (fun c _ => by rw [filter_nil_sub hv]; simp) (fun _ => filter_nil_sub hv)
  · rename_i ts i
    unfold pySet at h
    split at h
    · rename_i ts' he
      split at he
      · cases he
      · rename_i p hp
        cases he; cases h
        have hlt : p < ts.length := ((refers_iff _ _ _).1 hp).1
        simp only [Tree.flat]
        exact flatL_set_sub f (List.getElem?_eq_getElem hlt) (by rw [filter_nil_sub hv]; simp)
    · cases h
  · cases h

theorem putChild_sub {f : Nat → Bool} {t c c' : Tree Nat} {k : Key} (h : getKey t k = .ok c)
    (hs : (c'.flat.filter f).Sublist (c.flat.filter f)) :
    ((putChild t k c').flat.filter f).Sublist (t.flat.filter f) := by
  unfold getKey at h
  split at h
  · rename_i kvs s
    split at h
    · rename_i c0 hl
      cases h
      simp only [putChild, Tree.flat]
      refine dictSet_sub f (fun c1 h1 => ?_) (fun h1 => ?_)
      · rw [hl] at h1; cases h1; exact hs
      · rw [hl] at h1; cases h1
    · cases h
  · cases h
  · rename_i ts i
    split at h
    · rename_i p hp
      split at h
      · rename_i c0 hc
        cases h
        simp only [putChild, hp, Tree.flat]
        exact flatL_set_sub f hc hs
      · cases h
    · cases h
  · rename_i ts i
    split at h
    · rename_i p hp
      split at h
      · rename_i c0 hc
        cases h
        simp only [putChild, hp, Tree.flat]
        exact flatL_set_sub f hc hs
      · cases h
    · cases h
  · cases h

theorem setKeys_sub {f : Nat → Bool} {v : Tree Nat} (hv : ∀ x ∈ v.flat, f x = false) :
    ∀ (ks : List Key) (t t' : Tree Nat), setKeys t ks v = .ok t' → (t'.flat.filter f).Sublist (t.flat.filter f)
  | [], _, _, h => by simp [setKeys] at h
  | [k], t, t', h => setKey_sub hv h
  | k :: k' :: ks, t, t', h => by
    rw [setKeys] at h
    split at h
    · cases h
    · rename_i c hc
      split at h
      · cases h
      · rename_i c' hc'
        cases h
        exact putChild_sub hc (setKeys_sub hv (k' :: ks) c c' hc')

theorem inserted_sub {f : Nat → Bool} {l l' : List (Tree Nat)} {p : Nat} {x : Tree Nat} (h : Inserted l p x l')
    (hx : ∀ y ∈ x.flat, f y = false) : ((Tree.flatL l').filter f).Sublist ((Tree.flatL l).filter f) := by
  obtain ⟨a, b, rfl, _, rfl⟩ := h
  rw [flatL_append, flatL_append, Tree.flatL]
  simp only [List.filter_append, filter_nil_sub hx]
  simp

theorem removed_sub {f : Nat → Bool} {l l' : List (Tree Nat)} {p : Nat} {x : Tree Nat} (h : Removed l p x l') :
    ((Tree.flatL l').filter f).Sublist ((Tree.flatL l).filter f) := by
  obtain ⟨a, b, rfl, _, rfl⟩ := h
  rw [flatL_append, flatL_append, Tree.flatL]
  simp only [List.filter_append]
  exact List.Sublist.append (List.Sublist.refl _) (List.sublist_append_right _ _)

theorem setSlice_sub {f : Nat → Bool} (l xs : List (Tree Nat)) (a b : Option Int) (hx : ∀ x ∈ xs, ∀ y ∈ x.flat, f y = false) :
    ((Tree.flatL (pySetSlice l a b xs)).filter f).Sublist ((Tree.flatL l).filter f) := by
  have hxs : (Tree.flatL xs).filter f = [] := by
    induction xs with
    | nil => simp [Tree.flatL]
    | cons x xs ih =>
      rw [Tree.flatL, List.filter_append, filter_nil_sub (hx x (by simp)), ih fun z hz => hx z (by simp [hz])]; rfl
  simp only [pySetSlice]
  generalize bound l.length 0 a = lo
  generalize bound l.length l.length b = hi
  rw [flatL_append, flatL_append, List.filter_append, List.filter_append, hxs, List.append_nil]
  conv_rhs => rw [← List.take_append_drop lo l, flatL_append, List.filter_append]
  refine List.Sublist.append (List.Sublist.refl _) ?_
  obtain ⟨d, hd⟩ : ∃ d, max lo hi = lo + d := ⟨max lo hi - lo, by omega⟩
  rw [hd, ← List.drop_drop]
  conv_rhs => rw [← List.take_append_drop d (l.drop lo), flatL_append, List.filter_append]
  exact List.sublist_append_right _ _

theorem insertT_sub {f : Nat → Bool} {t t' : Tree Nat} {i : Int} {m : Nat} (hm : f m = false) (h : insertT t i m = .ok t') :
    (t'.flat.filter f).Sublist (t.flat.filter f) := by
  have hx : ∀ y ∈ (Tree.leaf m : Tree Nat).flat, f y = false := by intro y hy; simp [Tree.flat] at hy; subst hy; exact hm
  unfold insertT at h
  split at h
  · cases h
  · cases h; simp only [Tree.flat]; exact inserted_sub (pyInsert_spec _ _ _) hx
  · cases h; simp only [Tree.flat]; rw [slice_insert]; exact inserted_sub (pyInsert_spec _ _ _) hx
  · cases h

theorem filter_keys_sub {f : Nat → Bool} (kvs : List (Str × Tree Nat)) (s : Str) :
    ((Tree.flatD (kvs.filter fun p => !(p.1 == s))).filter f).Sublist ((Tree.flatD kvs).filter f) := by
  induction kvs with
  | nil => simp
  | cons q r ih =>
    obtain ⟨k, t⟩ := q
    simp only [List.filter_cons]
    split
    · rw [Tree.flatD, Tree.flatD, List.filter_append, List.filter_append]
      exact List.Sublist.append (List.Sublist.refl _) ih
    · rw [Tree.flatD, List.filter_append]
      exact List.Sublist.trans ih (List.sublist_append_right _ _)

theorem popIndexT_sub {f : Nat → Bool} {t x t' : Tree Nat} {i : Int} (h : popIndexT t i = .ok (x, t'))
    (hn : ¬ (i = -1 ∧ ∃ ts, t = .tuple ts)) : (t'.flat.filter f).Sublist (t.flat.filter f) := by
  unfold popIndexT at h
  split at h
  · split at h <;> cases h
  · rename_i ts
    split at h
    · rename_i x0 r he
      cases h
      unfold pyPop at he
      split at he
      · cases he
      · rename_i p hp
        split at he
        · rename_i y hy
          cases he
          simp only [Tree.flat]
          exact removed_sub (removed_of_get hy)
        · cases he
    · cases h
  · rename_i ts
    split at h
    · cases h
    · rename_i p hp
      split at h
      · cases h
      · rename_i y hy
        cases h
        simp only [Tree.flat]
        rw [slice_pop ts i p ((refers_iff _ _ _).1 hp) (fun e => hn ⟨e, ts, rfl⟩)]
        exact removed_sub (removed_of_get hy)
  · cases h

end Verif.Edit
