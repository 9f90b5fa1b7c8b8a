import Verif.Model.Einsum
import Mathlib.Algebra.BigOperators.Ring.Finset
import Mathlib.Algebra.BigOperators.Group.Finset.Sigma
import Mathlib.Data.List.Nodup
import Mathlib.Data.List.Perm.Lattice

/-! Lemmas about sizes of indices and sums over them. -/

namespace Verif.Einsum

/-! ### Sizes -/

theorem lookup_append_single (m : List (Char × Nat)) (c x : Char) (d : Nat) :
    (m ++ [(c, d)]).lookup x = (m.lookup x).or (if x = c then some d else none) := by
  induction m with
  | nil =>
    by_cases h : x = c
    · subst h; simp [List.lookup]
    · have : (x == c) = false := by simpa using h
      simp [List.lookup, this, h]
  | cons a m ih =>
    obtain ⟨k, v⟩ := a
    by_cases h : x = k
    · subst h; simp [List.lookup]
    · have : (x == k) = false := by simpa using h
      simp only [List.cons_append, List.lookup_cons, this]
      exact ih

theorem record_ok {l : List (Char × Nat)} : ∀ {m m' : List (Char × Nat)}, record m l = .ok m' →
    (∀ c d, m.lookup c = some d → m'.lookup c = some d) ∧ ∀ p ∈ l, m'.lookup p.1 = some p.2 := by
  induction l with
  | nil => intro m m' h; cases h; exact ⟨fun _ _ h => h, by simp⟩
  | cons a l ih =>
    obtain ⟨c, d⟩ := a
    intro m m' h
    unfold record at h
    cases hc : m.lookup c with
    | none =>
      rw [hc] at h
      obtain ⟨h1, h2⟩ := ih h
      have hnew : m'.lookup c = some d := h1 c d (by rw [lookup_append_single, hc]; simp)
      refine ⟨fun x e hx => h1 x e (by rw [lookup_append_single, hx]; rfl), fun p hp => ?_⟩
      rcases List.mem_cons.1 hp with rfl | hp
      · exact hnew
      · exact h2 p hp
    | some d' =>
      rw [hc] at h
      simp only at h
      split at h
      · next e =>
        subst e
        obtain ⟨h1, h2⟩ := ih h
        refine ⟨h1, fun p hp => ?_⟩
        rcases List.mem_cons.1 hp with rfl | hp
        · exact h1 c _ hc
        · exact h2 p hp
      · cases h

theorem record_total {l : List (Char × Nat)} {f : Char → Nat} (hl : ∀ p ∈ l, p.2 = f p.1) : ∀ {m : List (Char × Nat)},
    (∀ c d, m.lookup c = some d → d = f c) → ∃ m', record m l = .ok m' ∧ ∀ c d, m'.lookup c = some d → d = f c := by
  induction l with
  | nil => intro m hm; exact ⟨m, rfl, hm⟩
  | cons a l ih =>
    obtain ⟨c, d⟩ := a
    intro m hm
    have hd : d = f c := hl (c, d) (by simp)
    unfold record
    cases hc : m.lookup c with
    | none =>
      refine ih (fun p hp => hl p (by simp [hp])) fun x e hx => ?_
      rw [lookup_append_single] at hx
      cases hx' : m.lookup x with
      | some e' =>
        rw [hx'] at hx
        cases hx
        exact hm x _ hx'
      | none =>
        rw [hx'] at hx
        simp only [Option.none_or] at hx
        split at hx
        · next e1 => subst e1; cases hx; exact hd
        · cases hx
    | some d' =>
      simp only
      rw [if_pos ((hm c d' hc).trans hd.symm)]
      exact ih (fun p hp => hl p (by simp [hp])) hm

theorem map_of_zip {s : Str} {sh : List Nat} {f : Char → Nat} (hl : s.length = sh.length) (h : ∀ p ∈ s.zip sh, p.2 = f p.1) : sh = s.map f := by
  induction s generalizing sh with
  | nil => cases sh <;> simp_all
  | cons c s ih =>
    cases sh with
    | nil => simp at hl
    | cons d sh =>
      rw [List.map_cons, ← h (c, d) (by simp), ← ih (by simpa using hl) fun p hp => h p (by simp [hp])]

theorem mem_zip_fst {s : Str} {sh : List Nat} (hl : s.length = sh.length) {c : Char} (hc : c ∈ s) : ∃ d, (c, d) ∈ s.zip sh := by
  induction s generalizing sh with
  | nil => cases hc
  | cons a s ih =>
    cases sh with
    | nil => simp at hl
    | cons d sh =>
      rcases List.mem_cons.1 hc with rfl | hc
      · exact ⟨d, by simp⟩
      · obtain ⟨e, he⟩ := ih (by simpa using hl) hc
        exact ⟨e, by simp [he]⟩

theorem recordAll_ok {l : List (Str × List Nat)} : ∀ {m m' : List (Char × Nat)}, recordAll m l = .ok m' →
    (∀ c d, m.lookup c = some d → m'.lookup c = some d) ∧ ∀ p ∈ l, p.2 = p.1.map (dim m') ∧ ∀ c ∈ p.1, (m'.lookup c).isSome = true := by
  induction l with
  | nil => intro m m' h; cases h; exact ⟨fun _ _ h => h, by simp⟩
  | cons a l ih =>
    obtain ⟨s, sh⟩ := a
    intro m m' h
    unfold recordAll at h
    split at h
    · cases h
    · next hl =>
      rw [not_not] at hl
      cases hr : record m (s.zip sh) with
      | error e => rw [hr] at h; cases h
      | ok m1 =>
        rw [hr] at h
        obtain ⟨h1, h2⟩ := record_ok hr
        obtain ⟨h3, h4⟩ := ih h
        refine ⟨fun c d hc => h3 c d (h1 c d hc), fun p hp => ?_⟩
        rcases List.mem_cons.1 hp with rfl | hp
        · refine ⟨map_of_zip hl fun p hp => ?_, fun c hc => ?_⟩
          · unfold dim
            rw [h3 _ _ (h2 p hp)]
            rfl
          · obtain ⟨d, hd⟩ := mem_zip_fst hl hc
            rw [h3 _ _ (h2 _ hd)]
            rfl
        · exact h4 p hp

theorem recordAll_total {l : List (Str × List Nat)} {f : Char → Nat} (hl : ∀ p ∈ l, p.2 = p.1.map f) : ∀ {m : List (Char × Nat)},
    (∀ c d, m.lookup c = some d → d = f c) → ∃ m', recordAll m l = .ok m' ∧ ∀ c d, m'.lookup c = some d → d = f c := by
  induction l with
  | nil => intro m hm; exact ⟨m, rfl, hm⟩
  | cons a l ih =>
    obtain ⟨s, sh⟩ := a
    intro m hm
    have e : sh = s.map f := hl (s, sh) (by simp)
    obtain ⟨m1, h1, h2⟩ := record_total (l := s.zip sh) (f := f) (fun p hp => by
      rw [e, List.zip_map_right, List.mem_map] at hp
      obtain ⟨q, hq, rfl⟩ := hp
      have : ∀ (s : Str) (q : Char × Char), q ∈ s.zip s → q.2 = q.1 := by
        intro s
        induction s with
        | nil => simp
        | cons a s ih =>
          intro q hq
          rw [List.zip_cons_cons, List.mem_cons] at hq
          rcases hq with rfl | hq
          · rfl
          · exact ih q hq
      show f q.2 = f q.1
      rw [this s q hq]) hm
    obtain ⟨m2, h3, h4⟩ := ih (fun p hp => hl p (by simp [hp])) h2
    refine ⟨m2, ?_, h4⟩
    unfold recordAll
    rw [if_neg (by rw [e]; simp), h1]
    exact h3

/-- If all arrays have the sizes `f`, the recorded sizes are those. -/
theorem recordAll_dim {l : List (Str × List Nat)} {f : Char → Nat} (hl : ∀ p ∈ l, p.2 = p.1.map f) :
    ∃ m, recordAll [] l = .ok m ∧ ∀ p ∈ l, ∀ c ∈ p.1, dim m c = f c := by
  obtain ⟨m, h1, h2⟩ := recordAll_total hl (m := []) (by simp)
  refine ⟨m, h1, fun p hp c hc => ?_⟩
  have := ((recordAll_ok h1).2 p hp).2 c hc
  obtain ⟨d, hd⟩ := Option.isSome_iff_exists.1 this
  unfold dim
  rw [hd]
  exact h2 c d hd

/-! ### Sums -/

variable {K : Type}

theorem sumOver_rel [AddCommMonoid K] {R : (Char → Nat) → (Char → Nat) → Prop} {F G : (Char → Nat) → K} (hFG : ∀ σ τ, R σ τ → F σ = G τ) :
    ∀ {l : List (Char × Nat)}, (∀ p ∈ l, ∀ σ τ k, R σ τ → R (Function.update σ p.1 k) (Function.update τ p.1 k)) → ∀ {σ τ}, R σ τ → sumOver l F σ = sumOver l G τ
  | [], _, _, _, h => hFG _ _ h
  | (c, d) :: l, hl, σ, τ, h => by
    unfold sumOver
    refine Finset.sum_congr rfl fun k _ => sumOver_rel hFG (fun p hp => hl p (by simp [hp])) (hl (c, d) (by simp) σ τ k h)

theorem sumOver_perm [AddCommMonoid K] {F : (Char → Nat) → K} {l l' : List (Char × Nat)} (h : l.Perm l') (hn : (l.map Prod.fst).Nodup) (σ : Char → Nat) :
    sumOver l F σ = sumOver l' F σ := by
  induction h generalizing σ with
  | nil => rfl
  | cons a _ ih =>
    obtain ⟨c, d⟩ := a
    unfold sumOver
    exact Finset.sum_congr rfl fun k _ => ih (List.nodup_cons.1 hn).2 _
  | swap a b l =>
    obtain ⟨c, d⟩ := a
    obtain ⟨c', d'⟩ := b
    simp only [sumOver]
    rw [Finset.sum_comm]
    refine Finset.sum_congr rfl fun k _ => Finset.sum_congr rfl fun k' _ => ?_
    have : c ≠ c' := by
      intro e
      simp [e] at hn
    rw [Function.update_comm this]
  | trans h1 _ ih1 ih2 => rw [ih1 hn, ih2 ((h1.map _).nodup_iff.1 hn)]

theorem assign_cons {c : Char} {s : Str} {k : Nat} {i : List Nat} : assign (c :: s) (k :: i) = Function.update (assign s i) c k := rfl

theorem assign_not_mem {s : Str} {i : List Nat} {c : Char} (h : c ∉ s) : assign s i c = 0 := by
  induction s generalizing i with
  | nil => rfl
  | cons a s ih =>
    cases i with
    | nil => rfl
    | cons k i =>
      rw [assign_cons, Function.update_of_ne (by rintro rfl; exact h (by simp))]
      exact ih fun hc => h (by simp [hc])

end Verif.Einsum
