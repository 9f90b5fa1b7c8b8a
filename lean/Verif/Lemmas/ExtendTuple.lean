import Verif.Lemmas.ExtendAt

/-! `extend` from nothing creates no tuples. -/

namespace Verif.Tree
open TreeSpec

variable {β : Type}

theorem hasTupleL_iff (ts : List (Tree β)) : hasTupleL ts = false ↔ ∀ t ∈ ts, hasTuple t = false := by
  induction ts with
  | nil => simp [hasTupleL]
  | cons t ts ih => simp [hasTupleL, ih]

theorem hasTupleD_iff (ts : List (Str × Tree β)) : hasTupleD ts = false ↔ ∀ p ∈ ts, hasTuple p.2 = false := by
  induction ts with
  | nil => simp [hasTupleD]
  | cons t ts ih => obtain ⟨k, t⟩ := t; simp [hasTupleD, ih]

theorem hasTupleL_padTo {ts : List (Tree β)} (h : hasTupleL ts = false) (i : Nat) : hasTupleL (padTo ts i) = false := by
  rw [hasTupleL_iff] at h ⊢
  intro t ht
  unfold padTo at ht
  rcases List.mem_append.1 ht with ht | ht
  · exact h t ht
  · rw [(List.mem_replicate.1 ht).2]; rfl

theorem hasTupleL_set {ts : List (Tree β)} (h : hasTupleL ts = false) (i : Nat) {c : Tree β} (hc : hasTuple c = false) :
    hasTupleL (ts.set i c) = false := by
  rw [hasTupleL_iff] at h ⊢
  intro t ht
  rcases List.mem_or_eq_of_mem_set ht with h' | rfl
  · exact h t h'
  · exact hc

theorem hasTupleD_set {ts : List (Str × Tree β)} (h : hasTupleD ts = false) (k : Str) {c : Tree β} (hc : hasTuple c = false) :
    hasTupleD (dictSet ts k c) = false := by
  rw [hasTupleD_iff] at h ⊢
  intro t ht
  rcases mem_dictSet ht with h' | rfl
  · exact h t h'
  · exact hc

theorem hasTuple_fresh (n : Str) : hasTuple (freshNode n : Tree β) = false := by
  unfold freshNode; split <;> rfl

theorem hasTuple_getD {ts : List (Tree β)} (h : hasTupleL ts = false) (i : Nat) :
    hasTuple ((padTo ts i).getD i .none) = false := by
  rcases getD_padTo ts i with e | ⟨_, e⟩
  · exact hasTupleL_get h e
  · rw [e]; rfl

theorem extendOne_noTuple {eqv : Tree β → Tree β → Bool} {fill : Tree β} (hf : hasTuple fill = false) :
    ∀ {p : List Str} {t t' : Tree β} {pre : List Str} {rec : List (List Str)},
      extendOne eqv fill t pre p = .ok (t', rec) → hasTuple t = false → hasTuple t' = false ∧ rec = [] := by
  intro p
  induction p with
  | nil =>
    intro t t' pre rec h ht
    rw [extendOne.eq_def] at h
    simp only [Except.ok.injEq, Prod.mk.injEq] at h
    obtain ⟨rfl, rfl⟩ := h
    exact ⟨ht, rfl⟩
  | cons k ks ih =>
    intro t t' pre rec h ht
    rw [extendOne.eq_def] at h
    simp only at h
    cases t with
    | leaf b => simp at h
    | none => simp at h
    | tuple ts => simp [hasTuple] at ht
    | list ts =>
      simp only [hasTuple] at ht
      simp only [ne_eq, not_true_eq_false, false_and, if_false] at h
      split at h
      · simp at h
      · split at h
        · by_cases hks : ks = []
          · simp only [if_pos hks, Except.ok.injEq, Prod.mk.injEq] at h
            obtain ⟨rfl, rfl⟩ := h
            exact ⟨by simp only [hasTuple]; exact hasTupleL_set (hasTupleL_padTo ht _) _ hf, rfl⟩
          · simp only [if_neg hks] at h
            split at h
            · next c rec' hc =>
              simp only [Except.ok.injEq, Prod.mk.injEq] at h
              obtain ⟨rfl, rfl⟩ := h
              obtain ⟨h1, rfl⟩ := ih hc (hasTuple_fresh _)
              exact ⟨by simp only [hasTuple]; exact hasTupleL_set (hasTupleL_padTo ht _) _ h1, rfl⟩
            · simp at h
        · by_cases hks : ks = []
          · simp only [if_pos hks] at h
            split at h
            · simp at h
            · simp only [Except.ok.injEq, Prod.mk.injEq] at h
              obtain ⟨rfl, rfl⟩ := h
              exact ⟨by simp only [hasTuple]; exact hasTupleL_padTo ht _, rfl⟩
          · simp only [if_neg hks] at h
            split at h
            · next c rec' hc =>
              simp only [Except.ok.injEq, Prod.mk.injEq] at h
              obtain ⟨rfl, rfl⟩ := h
              obtain ⟨h1, rfl⟩ := ih hc (hasTuple_getD ht _)
              exact ⟨by simp only [hasTuple]; exact hasTupleL_set (hasTupleL_padTo ht _) _ h1, rfl⟩
            · simp at h
    | dict kvs =>
      simp only [hasTuple] at ht
      simp only [ne_eq, not_true_eq_false, false_and, if_false] at h
      split at h
      · by_cases hks : ks = []
        · simp only [if_pos hks, Except.ok.injEq, Prod.mk.injEq] at h
          obtain ⟨rfl, rfl⟩ := h
          exact ⟨by simp only [hasTuple]; exact hasTupleD_set ht _ hf, rfl⟩
        · simp only [if_neg hks] at h
          split at h
          · next c rec' hc =>
            simp only [Except.ok.injEq, Prod.mk.injEq] at h
            obtain ⟨rfl, rfl⟩ := h
            obtain ⟨h1, rfl⟩ := ih hc (hasTuple_fresh _)
            exact ⟨by simp only [hasTuple]; exact hasTupleD_set ht _ h1, rfl⟩
          · simp at h
      · next cur hl =>
        by_cases hks : ks = []
        · simp only [if_pos hks] at h
          split at h
          · simp at h
          · simp only [Except.ok.injEq, Prod.mk.injEq] at h
            obtain ⟨rfl, rfl⟩ := h
            exact ⟨by simpa only [hasTuple] using ht, rfl⟩
        · simp only [if_neg hks] at h
          split at h
          · next c rec' hc =>
            simp only [Except.ok.injEq, Prod.mk.injEq] at h
            obtain ⟨rfl, rfl⟩ := h
            obtain ⟨h1, rfl⟩ := ih hc (hasTupleD_get ht hl)
            exact ⟨by simp only [hasTuple]; exact hasTupleD_set ht _ h1, rfl⟩
          · simp at h

theorem extendAll_noTuple {eqv : Tree β → Tree β → Bool} : ∀ {pfs : List (List Str × Tree β)} {t t' : Tree β}
    {rec : List (List Str)}, (∀ pf ∈ pfs, hasTuple pf.2 = false) → extendAll eqv t pfs = .ok (t', rec) →
    hasTuple t = false → hasTuple t' = false ∧ rec = [] := by
  intro pfs
  induction pfs with
  | nil =>
    intro t t' rec _ h ht
    simp only [extendAll, Except.ok.injEq, Prod.mk.injEq] at h
    obtain ⟨rfl, rfl⟩ := h
    exact ⟨ht, rfl⟩
  | cons pf pfs ih =>
    intro t t' rec hf h ht
    obtain ⟨p, fill⟩ := pf
    simp only [extendAll] at h
    split at h
    · simp at h
    · next t1 r1 h1 =>
      split at h
      · simp at h
      · next t2 r2 h2 =>
        simp only [Except.ok.injEq, Prod.mk.injEq] at h
        obtain ⟨rfl, rfl⟩ := h
        obtain ⟨a, rfl⟩ := extendOne_noTuple (hf (p, fill) (by simp)) h1 ht
        obtain ⟨b, rfl⟩ := ih (fun pf hpf => hf pf (List.mem_cons_of_mem _ hpf)) h2 a
        exact ⟨b, rfl⟩

theorem extend_none_noTuple {eqv : Tree β → Tree β → Bool} {pfs : List (List Str × Tree β)} {t : Tree β}
    (h : extend eqv .none pfs = .ok t) (hf : ∀ pf ∈ pfs, hasTuple pf.2 = false) : hasTuple t = false := by
  unfold extend at h
  simp only at h
  have hb : ∀ bb : Bool, hasTuple (if bb then .list [] else .dict [] : Tree β) = false := by
    intro bb; cases bb <;> rfl
  split at h
  · next ts hts => exfalso; split at hts <;> simp at hts
  · split at h
    · simp at h
    · next t1 rec h1 =>
      obtain ⟨h2, rfl⟩ := extendAll_noTuple hf h1 (hb _)
      simp only [restoreTuples, Except.ok.injEq] at h
      subst h; exact h2

theorem extend_none_get {eqv : Tree β → Tree β → Bool} {pfs : List (List Str × Tree β)} {t : Tree β}
    (h : extend eqv .none pfs = .ok t) (hf : ∀ pf ∈ pfs, hasTuple pf.2 = false) (hne : ∀ pf ∈ pfs, pf.1 ≠ [] ∧ Proper pf.1)
    (hd : pfs.Pairwise fun a b => Diverge a.1 b.1) : ∀ pf ∈ pfs, ∃ v, get t pf.1 = .ok v := by
  unfold extend at h
  simp only at h
  have hb : ∀ bb : Bool, hasTuple (if bb then .list [] else .dict [] : Tree β) = false := by
    intro bb; cases bb <;> rfl
  split at h
  · next ts hts => exfalso; split at hts <;> simp at hts
  · split at h
    · simp at h
    · next t1 rec h1 =>
      obtain ⟨h2, rfl⟩ := extendAll_noTuple hf h1 (hb _)
      simp only [restoreTuples, Except.ok.injEq] at h
      subst h
      intro pf hpf
      obtain ⟨v, hv, -⟩ := extendAll_read h1 hne hd pf hpf
      exact ⟨v, hv⟩

end Verif.Tree
