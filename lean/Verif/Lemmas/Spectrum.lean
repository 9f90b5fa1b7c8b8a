import Verif.Spec.Pmm
import Mathlib.LinearAlgebra.FiniteDimensional.Lemmas
import Mathlib.LinearAlgebra.Dimension.Constructions

/-! # Ordered eigenvalues of Hermitian matrices -/

namespace Verif.Pmm
open Matrix PmmSpec

variable {n : Nat}

theorem lenSq_eq (v : Fin n → ℂ) : ((lenSq v : ℝ) : ℂ) = star v ⬝ᵥ v := by
  unfold lenSq dotProduct
  rw [Complex.ofReal_sum]
  refine Finset.sum_congr rfl fun i _ => ?_
  rw [Pi.star_apply, Complex.normSq_eq_conj_mul_self]
  rfl

theorem lenSq_nonneg (v : Fin n → ℂ) : 0 ≤ lenSq v := Finset.sum_nonneg fun _ _ => Complex.normSq_nonneg _

theorem lenSq_pos {v : Fin n → ℂ} (h : v ≠ 0) : 0 < lenSq v := by
  rcases (lenSq_nonneg v).lt_or_eq with h' | h'
  · exact h'
  · exfalso
    apply h
    have := (Finset.sum_eq_zero_iff_of_nonneg fun i _ => Complex.normSq_nonneg (v i)).1 h'.symm
    funext i
    exact Complex.normSq_eq_zero.1 (this i (Finset.mem_univ i))

theorem lenSq_unitary {U : Matrix (Fin n) (Fin n) ℂ} (hU : U * Uᴴ = 1) (v : Fin n → ℂ) : lenSq (Uᴴ *ᵥ v) = lenSq v := by
  have : ((lenSq (Uᴴ *ᵥ v) : ℝ) : ℂ) = lenSq v := by
    rw [lenSq_eq, lenSq_eq, star_mulVec, conjTranspose_conjTranspose, dotProduct_mulVec, vecMul_vecMul, hU, vecMul_one]
  exact_mod_cast this

theorem energy_diag {A U : Matrix (Fin n) (Fin n) ℂ} {l : Fin n → ℝ} (hA : A = U * diagonal (fun i => (l i : ℂ)) * Uᴴ) (v : Fin n → ℂ) :
    energy A v = ∑ i, l i * Complex.normSq ((Uᴴ *ᵥ v) i) := by
  have e : star v ⬝ᵥ A *ᵥ v = star (Uᴴ *ᵥ v) ⬝ᵥ diagonal (fun i => (l i : ℂ)) *ᵥ (Uᴴ *ᵥ v) := by
    rw [hA, star_mulVec, conjTranspose_conjTranspose, dotProduct_mulVec, dotProduct_mulVec, dotProduct_mulVec, vecMul_vecMul, vecMul_vecMul]
    rw [Matrix.mul_assoc]
  unfold energy
  rw [e]
  unfold dotProduct
  rw [Complex.re_sum]
  refine Finset.sum_congr rfl fun i _ => ?_
  rw [mulVec_diagonal, Pi.star_apply]
  generalize (Uᴴ *ᵥ v) i = z
  rw [Complex.normSq_apply]
  simp
  ring

/-- A Hermitian matrix in the basis of its eigenvectors. -/
theorem exists_diag {A : Matrix (Fin n) (Fin n) ℂ} (hA : A.IsHermitian) :
    ∃ (U : Matrix (Fin n) (Fin n) ℂ) (l : Fin n → ℝ), U * Uᴴ = 1 ∧ Uᴴ * U = 1 ∧ A = U * diagonal (fun i => (l i : ℂ)) * Uᴴ ∧
      A.charpoly.roots = Multiset.map (fun i => ((l i : ℝ) : ℂ)) Finset.univ.val := by
  refine ⟨hA.eigenvectorUnitary, hA.eigenvalues, ?_, ?_, ?_, hA.roots_charpoly_eq_eigenvalues⟩
  · exact Unitary.coe_mul_star_self hA.eigenvectorUnitary
  · exact Unitary.coe_star_mul_self hA.eigenvectorUnitary
  · have := hA.spectral_theorem
    rw [Unitary.conjStarAlgAut_apply] at this
    exact this

theorem ev_perm {ev : Matrix (Fin n) (Fin n) ℂ → List ℝ} (hev : IsEigvalsh ev) {A : Matrix (Fin n) (Fin n) ℂ} (hA : A.IsHermitian) {l : Fin n → ℝ}
    (hl : A.charpoly.roots = Multiset.map (fun i => ((l i : ℝ) : ℂ)) Finset.univ.val) : ((ev A : List ℝ) : Multiset ℝ) = Multiset.map l Finset.univ.val := by
  have h := (hev A hA).2
  rw [hl, ← Multiset.map_coe, show Multiset.map (fun i => ((l i : ℝ) : ℂ)) Finset.univ.val = Multiset.map (fun e : ℝ => (e : ℂ)) (Multiset.map l Finset.univ.val) from by rw [Multiset.map_map]; rfl] at h
  exact Multiset.map_injective Complex.ofReal_injective h

theorem ev_length {ev : Matrix (Fin n) (Fin n) ℂ → List ℝ} (hev : IsEigvalsh ev) {A : Matrix (Fin n) (Fin n) ℂ} (hA : A.IsHermitian) : (ev A).length = n := by
  obtain ⟨U, l, -, -, -, hl⟩ := exists_diag hA
  have := congrArg Multiset.card (ev_perm hev hA hl)
  simpa using this

theorem ev_mem {ev : Matrix (Fin n) (Fin n) ℂ → List ℝ} (hev : IsEigvalsh ev) {A : Matrix (Fin n) (Fin n) ℂ} (hA : A.IsHermitian) {l : Fin n → ℝ}
    (hl : A.charpoly.roots = Multiset.map (fun i => ((l i : ℝ) : ℂ)) Finset.univ.val) (e : ℝ) : e ∈ ev A ↔ ∃ i, l i = e := by
  have := ev_perm hev hA hl
  rw [← Multiset.mem_coe, this, Multiset.mem_map]
  simp

/-- Two matrices with the same characteristic polynomial have the same eigenvalues. -/
theorem ev_charpoly {ev : Matrix (Fin n) (Fin n) ℂ → List ℝ} (hev : IsEigvalsh ev) {A B : Matrix (Fin n) (Fin n) ℂ} (hA : A.IsHermitian) (hB : B.IsHermitian)
    (h : A.charpoly = B.charpoly) : ev A = ev B := by
  obtain ⟨sA, pA⟩ := hev A hA
  obtain ⟨sB, pB⟩ := hev B hB
  have hp : ((ev A).map fun e : ℝ => (e : ℂ)).Perm ((ev B).map fun e : ℝ => (e : ℂ)) := by
    rw [← Multiset.coe_eq_coe, pA, pB, h]
  have hp' : (ev A).Perm (ev B) := by
    have := hp.map Complex.re
    simpa [List.map_map, Function.comp_def] using this
  exact hp'.eq_of_pairwise (fun a b _ _ h1 h2 => le_antisymm h1 h2) sA sB

theorem countP_card (l : Fin n → ℝ) (P : ℝ → Prop) [DecidablePred P] (E : List ℝ) (h : ((E : List ℝ) : Multiset ℝ) = Multiset.map l Finset.univ.val) :
    E.countP (fun e => decide (P e)) = (Finset.univ.filter fun i => P (l i)).card := by
  have := congrArg (Multiset.countP P) h
  rw [Multiset.coe_countP, Multiset.countP_map] at this
  rw [this]
  rfl

theorem count_le {E : List ℝ} (hs : E.Pairwise (· ≤ ·)) {j : Nat} (hj : j < E.length) : j + 1 ≤ E.countP fun e => decide (e ≤ E[j]) := by
  have h1 : (E.take (j + 1)).countP (fun e => decide (e ≤ E[j])) = j + 1 := by
    have hl : (E.take (j + 1)).length = j + 1 := by rw [List.length_take]; omega
    rw [List.countP_eq_length.2, hl]
    intro a ha
    obtain ⟨i, hi, rfl⟩ := List.getElem_of_mem ha
    rw [List.getElem_take]
    have hij : i ≤ j := by omega
    rcases Nat.lt_or_ge i j with h | h
    · exact decide_eq_true ((List.pairwise_iff_getElem.1 hs) i j (by omega) hj h)
    · have : i = j := by omega
      subst this; simp
  calc j + 1 = (E.take (j + 1)).countP (fun e => decide (e ≤ E[j])) := h1.symm
    _ ≤ _ := (List.take_sublist _ _).countP_le

theorem count_ge {E : List ℝ} (hs : E.Pairwise (· ≤ ·)) {j : Nat} (hj : j < E.length) : E.length - j ≤ E.countP fun e => decide (E[j] ≤ e) := by
  have h1 : (E.drop j).countP (fun e => decide (E[j] ≤ e)) = E.length - j := by
    rw [List.countP_eq_length.2, List.length_drop]
    intro a ha
    obtain ⟨i, hi, rfl⟩ := List.getElem_of_mem ha
    rw [List.getElem_drop]
    rcases Nat.eq_zero_or_pos i with h | h
    · subst h; simp
    · exact decide_eq_true ((List.pairwise_iff_getElem.1 hs) j (j + i) hj _ (by omega))
  calc _ = (E.drop j).countP (fun e => decide (E[j] ≤ e)) := h1.symm
    _ ≤ _ := (List.drop_sublist _ _).countP_le

/-- Two subspaces given by vanishing coordinates that are large enough have a common vector. -/
theorem exists_common (U W : Matrix (Fin n) (Fin n) ℂ) (I J : Finset (Fin n)) (h : n < I.card + J.card) :
    ∃ v : Fin n → ℂ, v ≠ 0 ∧ (∀ i, i ∉ I → (Uᴴ *ᵥ v) i = 0) ∧ ∀ j, j ∉ J → (Wᴴ *ᵥ v) j = 0 := by
  let f : (Fin n → ℂ) →ₗ[ℂ] (({i // i ∉ I} → ℂ) × ({j // j ∉ J} → ℂ)) :=
    { toFun := fun v => (fun i => (Uᴴ *ᵥ v) i, fun j => (Wᴴ *ᵥ v) j)
      map_add' := fun v w => by ext <;> simp [mulVec_add]
      map_smul' := fun c v => by ext <;> simp [mulVec_smul] }
  have hI : Fintype.card {i // i ∉ I} = n - I.card := by
    rw [Fintype.card_subtype_compl]; simp
  have hJ : Fintype.card {i // i ∉ J} = n - J.card := by
    rw [Fintype.card_subtype_compl]; simp
  have cI := Finset.card_le_univ I
  have cJ := Finset.card_le_univ J
  rw [Fintype.card_fin] at cI cJ
  have hne : LinearMap.ker f ≠ ⊥ := LinearMap.ker_ne_bot_of_finrank_lt <| by
    rw [Module.finrank_prod, Module.finrank_fintype_fun_eq_card, Module.finrank_fintype_fun_eq_card, Module.finrank_fintype_fun_eq_card, Fintype.card_fin, hI, hJ]
    omega
  obtain ⟨v, hv, hv0⟩ := Submodule.exists_mem_ne_zero_of_ne_bot hne
  have hv' : f v = 0 := LinearMap.mem_ker.1 hv
  refine ⟨v, hv0, fun i hi => ?_, fun j hj => ?_⟩
  · exact congrFun (congrArg Prod.fst hv') ⟨i, hi⟩
  · exact congrFun (congrArg Prod.snd hv') ⟨j, hj⟩

/-- Weyl's inequality: if the quadratic form of `A` is at most that of `B` plus `c`, every ordered eigenvalue is too. -/
theorem weyl {ev : Matrix (Fin n) (Fin n) ℂ → List ℝ} (hev : IsEigvalsh ev) {A B : Matrix (Fin n) (Fin n) ℂ} (hA : A.IsHermitian) (hB : B.IsHermitian)
    {c : ℝ} (h : ∀ v, energy A v ≤ energy B v + c * lenSq v) (j : Nat) (a b : ℝ) (ha : (ev A)[j]? = some a) (hb : (ev B)[j]? = some b) : a ≤ b + c := by
  obtain ⟨U, l, hU1, -, hUA, hl⟩ := exists_diag hA
  obtain ⟨W, m, hW1, -, hWB, hm⟩ := exists_diag hB
  obtain ⟨hj, rfl⟩ := List.getElem?_eq_some_iff.1 ha
  obtain ⟨hj', rfl⟩ := List.getElem?_eq_some_iff.1 hb
  have c1 := count_ge (hev A hA).1 hj
  have c2 := count_le (hev B hB).1 hj'
  rw [countP_card l (fun e => (ev A)[j] ≤ e) _ (ev_perm hev hA hl), ev_length hev hA] at c1
  rw [countP_card m (fun e => e ≤ (ev B)[j]) _ (ev_perm hev hB hm)] at c2
  rw [ev_length hev hA] at hj
  obtain ⟨v, hv0, hvI, hvJ⟩ := exists_common U W (Finset.univ.filter fun i => (ev A)[j] ≤ l i) (Finset.univ.filter fun i => m i ≤ (ev B)[j]) (by omega)
  have hp := lenSq_pos hv0
  have e1 : (ev A)[j] * lenSq v ≤ energy A v := by
    rw [energy_diag hUA, ← lenSq_unitary hU1 v, lenSq, Finset.mul_sum]
    refine Finset.sum_le_sum fun i _ => ?_
    by_cases hi : (ev A)[j] ≤ l i
    · exact mul_le_mul_of_nonneg_right hi (Complex.normSq_nonneg _)
    · rw [hvI i (by simpa using hi)]; simp
  have e2 : energy B v ≤ (ev B)[j] * lenSq v := by
    rw [energy_diag hWB, ← lenSq_unitary hW1 v, lenSq, Finset.mul_sum]
    refine Finset.sum_le_sum fun i _ => ?_
    by_cases hi : m i ≤ (ev B)[j]
    · exact mul_le_mul_of_nonneg_right hi (Complex.normSq_nonneg _)
    · rw [hvJ i (by simpa using hi)]; simp
  have := e1.trans ((h v).trans (add_le_add_left e2 _))
  rw [← add_mul] at this
  exact le_of_mul_le_mul_right this hp

/-- The smallest eigenvalue is the minimum of the quadratic form on unit vectors. -/
theorem ev_least {ev : Matrix (Fin n) (Fin n) ℂ → List ℝ} (hev : IsEigvalsh ev) {A : Matrix (Fin n) (Fin n) ℂ} (hA : A.IsHermitian) {e : ℝ}
    (he : (ev A)[0]? = some e) : (∀ v, e * lenSq v ≤ energy A v) ∧ ∃ v, lenSq v = 1 ∧ energy A v = e := by
  obtain ⟨U, l, hU1, hU2, hUA, hl⟩ := exists_diag hA
  have hmin : ∀ i, e ≤ l i := fun i => by
    have hmem := (ev_mem hev hA hl (l i)).2 ⟨i, rfl⟩
    cases hE : ev A with
    | nil => rw [hE] at he; cases he
    | cons x xs =>
      have hs := (hev A hA).1
      rw [hE] at he hmem hs
      obtain rfl : x = e := Option.some.inj he
      rcases List.mem_cons.1 hmem with h | h
      · exact h.ge
      · exact List.rel_of_pairwise_cons hs h
  refine ⟨fun v => ?_, ?_⟩
  · rw [energy_diag hUA, ← lenSq_unitary hU1 v, lenSq, Finset.mul_sum]
    exact Finset.sum_le_sum fun i _ => mul_le_mul_of_nonneg_right (hmin i) (Complex.normSq_nonneg _)
  · obtain ⟨i, hi⟩ := (ev_mem hev hA hl e).1 (List.mem_of_getElem? he)
    have hsingle : Uᴴ *ᵥ (U *ᵥ Pi.single i 1) = Pi.single i 1 := by rw [mulVec_mulVec, hU2, one_mulVec]
    refine ⟨U *ᵥ Pi.single i 1, ?_, ?_⟩
    · rw [← lenSq_unitary hU1, hsingle, lenSq, Finset.sum_eq_single i]
      · simp
      · intro j _ hj; simp [Pi.single_apply, hj]
      · simp
    · rw [energy_diag hUA, hsingle, Finset.sum_eq_single i]
      · simp [hi]
      · intro j _ hj; simp [Pi.single_apply, hj]
      · simp

theorem energy_add (A B : Matrix (Fin n) (Fin n) ℂ) (v : Fin n → ℂ) : energy (A + B) v = energy A v + energy B v := by
  unfold energy
  rw [add_mulVec, dotProduct_add, Complex.add_re]

theorem energy_smul (t : ℝ) (A : Matrix (Fin n) (Fin n) ℂ) (v : Fin n → ℂ) : energy ((t : ℂ) • A) v = t * energy A v := by
  unfold energy
  rw [smul_mulVec, dotProduct_smul, smul_eq_mul, Complex.re_ofReal_mul]

theorem energy_zero (v : Fin n → ℂ) : energy (0 : Matrix (Fin n) (Fin n) ℂ) v = 0 := by
  unfold energy
  rw [zero_mulVec, dotProduct_zero, Complex.zero_re]

theorem energy_sum {p : Nat} (f : Fin p → Matrix (Fin n) (Fin n) ℂ) (v : Fin n → ℂ) : energy (∑ i, f i) v = ∑ i, energy (f i) v := by
  unfold energy
  rw [sum_mulVec, dotProduct_sum, Complex.re_sum]

/-- The largest eigenvalue is the maximum of the quadratic form on unit vectors. -/
theorem ev_greatest {ev : Matrix (Fin n) (Fin n) ℂ → List ℝ} (hev : IsEigvalsh ev) {A : Matrix (Fin n) (Fin n) ℂ} (hA : A.IsHermitian) {e : ℝ}
    (he : (ev A)[n - 1]? = some e) : (∀ v, energy A v ≤ e * lenSq v) ∧ ∃ v, lenSq v = 1 ∧ energy A v = e := by
  obtain ⟨U, l, hU1, hU2, hUA, hl⟩ := exists_diag hA
  have hlen := ev_length hev hA
  have hmax : ∀ i, l i ≤ e := fun i => by
    have hmem := (ev_mem hev hA hl (l i)).2 ⟨i, rfl⟩
    obtain ⟨j, hj, hj'⟩ := List.getElem_of_mem hmem
    obtain ⟨h1, h2⟩ := List.getElem?_eq_some_iff.1 he
    rw [← hj', ← h2]
    rcases Nat.lt_or_ge j (n - 1) with h | h
    · exact (List.pairwise_iff_getElem.1 (hev A hA).1) j (n - 1) hj h1 h
    · obtain rfl : j = n - 1 := by omega
      exact le_rfl
  refine ⟨fun v => ?_, ?_⟩
  · rw [energy_diag hUA, ← lenSq_unitary hU1 v, lenSq, Finset.mul_sum]
    exact Finset.sum_le_sum fun i _ => mul_le_mul_of_nonneg_right (hmax i) (Complex.normSq_nonneg _)
  · obtain ⟨i, hi⟩ := (ev_mem hev hA hl e).1 (List.mem_of_getElem? he)
    have hsingle : Uᴴ *ᵥ (U *ᵥ Pi.single i 1) = Pi.single i 1 := by rw [mulVec_mulVec, hU2, one_mulVec]
    refine ⟨U *ᵥ Pi.single i 1, ?_, ?_⟩
    · rw [← lenSq_unitary hU1, hsingle, lenSq, Finset.sum_eq_single i]
      · simp
      · intro j _ hj; simp [Pi.single_apply, hj]
      · simp
    · rw [energy_diag hUA, hsingle, Finset.sum_eq_single i]
      · simp [hi]
      · intro j _ hj; simp [Pi.single_apply, hj]
      · simp

/-- The eigenvalues of a real diagonal matrix with ascending entries are its entries. -/
theorem ev_diagonal {ev : Matrix (Fin n) (Fin n) ℂ → List ℝ} (hev : IsEigvalsh ev) (d : Fin n → ℝ) (hd : (List.ofFn d).Pairwise (· ≤ ·)) :
    ev (diagonal fun i => (d i : ℂ)) = List.ofFn d := by
  have hA : (diagonal fun i => (d i : ℂ) : Matrix (Fin n) (Fin n) ℂ).IsHermitian := by
    rw [IsHermitian, diagonal_conjTranspose]
    congr 1
    funext i
    simp
  obtain ⟨h1, h2⟩ := hev _ hA
  have hp : (((ev (diagonal fun i => (d i : ℂ))).map fun e : ℝ => (e : ℂ)) : Multiset ℂ) = ((List.ofFn d).map fun e : ℝ => (e : ℂ) : List ℂ) := by
    have e : (∏ i : Fin n, (Polynomial.X - Polynomial.C ((d i : ℝ) : ℂ))) =
        ((Multiset.map (fun i : Fin n => ((d i : ℝ) : ℂ)) Finset.univ.val).map fun a => Polynomial.X - Polynomial.C a).prod := by
      rw [Multiset.map_map]; rfl
    rw [h2, charpoly_diagonal, e, Polynomial.roots_multiset_prod_X_sub_C, List.map_ofFn, List.ofFn_eq_map, ← Multiset.map_coe]
    rfl
  have hp' : (ev (diagonal fun i => (d i : ℂ))).Perm (List.ofFn d) := by
    rw [← Multiset.map_coe, ← Multiset.map_coe] at hp
    exact Multiset.coe_eq_coe.1 (Multiset.map_injective Complex.ofReal_injective hp)
  exact hp'.eq_of_pairwise (fun _ _ _ _ => le_antisymm) h1 hd

/-- An `eigvalsh` exists. -/
theorem exists_eigvalsh : IsEigvalsh fun A : Matrix (Fin n) (Fin n) ℂ => (A.charpoly.roots.map Complex.re).sort (· ≤ ·) := by
  intro A hA
  refine ⟨Multiset.pairwise_sort _ _, ?_⟩
  rw [← Multiset.map_coe, Multiset.sort_eq, hA.roots_charpoly_eq_eigenvalues, Multiset.map_map, Multiset.map_map]
  refine Multiset.map_congr rfl fun i _ => ?_
  simp

end Verif.Pmm
