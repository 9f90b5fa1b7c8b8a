import Verif.Lemmas.Spectrum

/-! # Eigenvalues of a matrix and of its restriction to a subspace -/

namespace Verif.Pmm
open Matrix PmmSpec

variable {n m : Nat}

theorem lenSq_isometry {P : Matrix (Fin n) (Fin m) ℂ} (hP : Pᴴ * P = 1) (v : Fin m → ℂ) : lenSq (P *ᵥ v) = lenSq v := by
  have : ((lenSq (P *ᵥ v) : ℝ) : ℂ) = lenSq v := by
    rw [lenSq_eq, lenSq_eq, star_mulVec, dotProduct_mulVec, vecMul_vecMul, hP, vecMul_one]
  exact_mod_cast this

theorem energy_compress (A : Matrix (Fin n) (Fin n) ℂ) (P : Matrix (Fin n) (Fin m) ℂ) (v : Fin m → ℂ) : energy (Pᴴ * A * P) v = energy A (P *ᵥ v) := by
  unfold energy
  rw [star_mulVec, dotProduct_mulVec, dotProduct_mulVec, dotProduct_mulVec, vecMul_vecMul, vecMul_vecMul, Matrix.mul_assoc]

theorem hermitian_compress {A : Matrix (Fin n) (Fin n) ℂ} (hA : A.IsHermitian) (P : Matrix (Fin n) (Fin m) ℂ) : (Pᴴ * A * P).IsHermitian := by
  unfold Matrix.IsHermitian
  rw [conjTranspose_mul, conjTranspose_mul, conjTranspose_conjTranspose, hA.eq, Matrix.mul_assoc]

/-- Few enough linear conditions have a common solution. -/
theorem exists_common_of (P : Matrix (Fin n) (Fin m) ℂ) (U : Matrix (Fin n) (Fin n) ℂ) (W : Matrix (Fin m) (Fin m) ℂ) (I : Finset (Fin n)) (J : Finset (Fin m))
    (h : n < I.card + J.card) : ∃ v : Fin m → ℂ, v ≠ 0 ∧ (∀ i, i ∉ I → (Uᴴ *ᵥ (P *ᵥ v)) i = 0) ∧ ∀ j, j ∉ J → (Wᴴ *ᵥ v) j = 0 := by
  let f : (Fin m → ℂ) →ₗ[ℂ] (({i // i ∉ I} → ℂ) × ({j // j ∉ J} → ℂ)) :=
    { toFun := fun v => (fun i => (Uᴴ *ᵥ (P *ᵥ v)) i, fun j => (Wᴴ *ᵥ v) j)
      map_add' := fun v w => by ext <;> simp [mulVec_add]
      map_smul' := fun c v => by ext <;> simp [mulVec_smul] }
  have hI : Fintype.card {i // i ∉ I} = n - I.card := by
    rw [Fintype.card_subtype_compl]; simp
  have hJ : Fintype.card {i // i ∉ J} = m - J.card := by
    rw [Fintype.card_subtype_compl]; simp
  have cI := Finset.card_le_univ I
  have cJ := Finset.card_le_univ J
  rw [Fintype.card_fin] at cI cJ
  have hne : LinearMap.ker f ≠ ⊥ := LinearMap.ker_ne_bot_of_finrank_lt <| by
    rw [Module.finrank_prod, Module.finrank_fintype_fun_eq_card, Module.finrank_fintype_fun_eq_card, Module.finrank_fintype_fun_eq_card, Fintype.card_fin, hI, hJ]
    omega
  obtain ⟨v, hv, hv0⟩ := Submodule.exists_mem_ne_zero_of_ne_bot hne
  have hv' : f v = 0 := LinearMap.mem_ker.1 hv
  refine ⟨v, hv0, fun i hi => ?_, fun j hj => ?_⟩
  · exact congrFun (congrArg Prod.fst hv') ⟨i, hi⟩
  · exact congrFun (congrArg Prod.snd hv') ⟨j, hj⟩

theorem energy_ge {A U : Matrix (Fin n) (Fin n) ℂ} {l : Fin n → ℝ} (hU : U * Uᴴ = 1) (hA : A = U * diagonal (fun i => (l i : ℂ)) * Uᴴ) (a : ℝ) {v : Fin n → ℂ}
    (hv : ∀ i, i ∉ (Finset.univ.filter fun i => a ≤ l i) → (Uᴴ *ᵥ v) i = 0) : a * lenSq v ≤ energy A v := by
  rw [energy_diag hA, ← lenSq_unitary hU v, lenSq, Finset.mul_sum]
  refine Finset.sum_le_sum fun i _ => ?_
  by_cases hi : a ≤ l i
  · exact mul_le_mul_of_nonneg_right hi (Complex.normSq_nonneg _)
  · rw [hv i (by simpa using hi)]; simp

theorem energy_le {A U : Matrix (Fin n) (Fin n) ℂ} {l : Fin n → ℝ} (hU : U * Uᴴ = 1) (hA : A = U * diagonal (fun i => (l i : ℂ)) * Uᴴ) (a : ℝ) {v : Fin n → ℂ}
    (hv : ∀ i, i ∉ (Finset.univ.filter fun i => l i ≤ a) → (Uᴴ *ᵥ v) i = 0) : energy A v ≤ a * lenSq v := by
  rw [energy_diag hA, ← lenSq_unitary hU v, lenSq, Finset.mul_sum]
  refine Finset.sum_le_sum fun i _ => ?_
  by_cases hi : l i ≤ a
  · exact mul_le_mul_of_nonneg_right hi (Complex.normSq_nonneg _)
  · rw [hv i (by simpa using hi)]; simp

/-- The ordered eigenvalues of a restriction to a subspace lie between those of the matrix. -/
theorem interlace {ev : Matrix (Fin n) (Fin n) ℂ → List ℝ} (hev : IsEigvalsh ev) {ev' : Matrix (Fin m) (Fin m) ℂ → List ℝ} (hev' : IsEigvalsh ev')
    {A : Matrix (Fin n) (Fin n) ℂ} (hA : A.IsHermitian) {P : Matrix (Fin n) (Fin m) ℂ} (hP : Pᴴ * P = 1) (j : Nat) (b : ℝ) (hb : (ev' (Pᴴ * A * P))[j]? = some b) :
    (∀ a, (ev A)[j]? = some a → a ≤ b) ∧ ∀ a, (ev A)[j + (n - m)]? = some a → m ≤ n → b ≤ a := by
  have hB := hermitian_compress hA P
  obtain ⟨U, l, hU1, -, hUA, hl⟩ := exists_diag hA
  obtain ⟨W, w, hW1, -, hWB, hw⟩ := exists_diag hB
  obtain ⟨hj, rfl⟩ := List.getElem?_eq_some_iff.1 hb
  have hjm := hj
  rw [ev_length hev' hB] at hjm
  refine ⟨fun a ha => ?_, fun a ha hmn => ?_⟩
  · obtain ⟨hj', rfl⟩ := List.getElem?_eq_some_iff.1 ha
    have c1 := count_ge (hev A hA).1 hj'
    have c2 := count_le (hev' _ hB).1 hj
    rw [countP_card l (fun e => (ev A)[j] ≤ e) _ (ev_perm hev hA hl), ev_length hev hA] at c1
    rw [countP_card w (fun e => e ≤ (ev' (Pᴴ * A * P))[j]) _ (ev_perm hev' hB hw)] at c2
    rw [ev_length hev hA] at hj'
    obtain ⟨v, hv0, hvI, hvJ⟩ := exists_common_of P U W (Finset.univ.filter fun i => (ev A)[j] ≤ l i) (Finset.univ.filter fun i => w i ≤ (ev' (Pᴴ * A * P))[j]) (by omega)
    have e1 := energy_ge hU1 hUA _ hvI
    have e2 := energy_le hW1 hWB _ hvJ
    rw [energy_compress] at e2
    rw [lenSq_isometry hP] at e1
    exact le_of_mul_le_mul_right (e1.trans e2) (lenSq_pos hv0)
  · obtain ⟨hj', rfl⟩ := List.getElem?_eq_some_iff.1 ha
    have c1 := count_ge (hev' _ hB).1 hj
    have c2 := count_le (hev A hA).1 hj'
    rw [countP_card w (fun e => (ev' (Pᴴ * A * P))[j] ≤ e) _ (ev_perm hev' hB hw), ev_length hev' hB] at c1
    rw [countP_card l (fun e => e ≤ (ev A)[j + (n - m)]) _ (ev_perm hev hA hl)] at c2
    obtain ⟨v, hv0, hvI, hvJ⟩ := exists_common_of P U W (Finset.univ.filter fun i => l i ≤ (ev A)[j + (n - m)]) (Finset.univ.filter fun i => (ev' (Pᴴ * A * P))[j] ≤ w i) (by omega)
    have e1 := energy_le hU1 hUA _ hvI
    have e2 := energy_ge hW1 hWB _ hvJ
    rw [energy_compress] at e2
    rw [lenSq_isometry hP] at e1
    exact le_of_mul_le_mul_right (e2.trans e1) (lenSq_pos hv0)

/-- A vector at which the quadratic form is as small as possible is an eigenvector. -/
theorem least_eigenvector {A : Matrix (Fin n) (Fin n) ℂ} (hA : A.IsHermitian) {a : ℝ} (hmin : ∀ v, a * lenSq v ≤ energy A v) {w : Fin n → ℂ} (hw : energy A w = a * lenSq w) :
    A *ᵥ w = (a : ℂ) • w := by
  obtain ⟨U, l, hU1, hU2, hUA, -⟩ := exists_diag hA
  have hl : ∀ i, a ≤ l i := fun i => by
    have hsingle : Uᴴ *ᵥ (U *ᵥ Pi.single i 1) = Pi.single i 1 := by rw [mulVec_mulVec, hU2, one_mulVec]
    have := hmin (U *ᵥ Pi.single i 1)
    rw [energy_diag hUA, ← lenSq_unitary hU1, hsingle, lenSq, Finset.sum_eq_single i, Finset.sum_eq_single i] at this
    · simpa using this
    all_goals simp +contextual [Pi.single_apply]
  have hz : ∀ i, (l i - a) * Complex.normSq ((Uᴴ *ᵥ w) i) = 0 := by
    have h0 : ∑ i, (l i - a) * Complex.normSq ((Uᴴ *ᵥ w) i) = 0 := by
      rw [energy_diag hUA, ← lenSq_unitary hU1 w, lenSq, Finset.mul_sum] at hw
      simp only [sub_mul, Finset.sum_sub_distrib]
      linarith
    exact fun i => (Finset.sum_eq_zero_iff_of_nonneg fun i _ => mul_nonneg (sub_nonneg.2 (hl i)) (Complex.normSq_nonneg _)).1 h0 i (Finset.mem_univ i)
  have hd : diagonal (fun i => (l i : ℂ)) *ᵥ (Uᴴ *ᵥ w) = (a : ℂ) • (Uᴴ *ᵥ w) := by
    funext i
    rw [mulVec_diagonal, Pi.smul_apply, smul_eq_mul]
    rcases mul_eq_zero.1 (hz i) with h | h
    · rw [sub_eq_zero.1 h]
    · rw [Complex.normSq_eq_zero.1 h]; simp
  rw [hUA, ← mulVec_mulVec, ← mulVec_mulVec, hd, mulVec_smul, mulVec_mulVec, hU1, one_mulVec]

end Verif.Pmm
