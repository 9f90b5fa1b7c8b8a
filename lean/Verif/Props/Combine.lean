import Verif.Props.Capacity
import Mathlib.LinearAlgebra.Matrix.Kronecker

/-! # C125: combining parametric matrix models -/

namespace Verif.Props
open Tree Hermitian Eigen Pmm PmmSpec
open scoped Matrix Kronecker

variable {n m k p : Nat}

/-- A way to make one matrix of two that respects linear combinations, adjoints and commutators. -/
structure Combines (L : Mat n n → Mat m m → Mat k k) : Prop where
  add : ∀ A A' B B', L (A + A') (B + B') = L A B + L A' B'
  smul : ∀ (t : ℂ) A B, L (t • A) (t • B) = t • L A B
  star : ∀ A B, L Aᴴ Bᴴ = (L A B)ᴴ
  bracket : ∀ A A' B B', L (A * A' - A' * A) (B * B' - B' * B) = L A B * L A' B' - L A' B' * L A B

theorem Combines.zero {L : Mat n n → Mat m m → Mat k k} (h : Combines L) : L 0 0 = 0 := by
  have := h.smul 0 0 0
  simpa using this

theorem Combines.sum {L : Mat n n → Mat m m → Mat k k} (h : Combines L) {ι : Type} (s : Finset ι) (A : ι → Mat n n) (B : ι → Mat m m) :
    L (∑ i ∈ s, A i) (∑ i ∈ s, B i) = ∑ i ∈ s, L (A i) (B i) := by
  classical
  induction s using Finset.induction_on with
  | empty => simp [h.zero]
  | insert a s ha ih => rw [Finset.sum_insert ha, Finset.sum_insert ha, Finset.sum_insert ha, h.add, ih]

theorem Combines.herm {L : Mat n n → Mat m m → Mat k k} (h : Combines L) (A : Mat n n) (B : Mat m m) : herm (L A B) = L (herm A) (herm B) := by
  unfold Props.herm
  rw [h.smul, h.add, h.star]

theorem Combines.commutators {L : Mat n n → Mat m m → Mat k k} (h : Combines L) {q : Nat} (A : Fin q → Mat n n) (B : Fin q → Mat m m) :
    commutators (fun i => L (A i) (B i)) = L (commutators A) (commutators B) := by
  unfold Props.commutators
  rw [h.smul, h.sum]
  congr 1
  refine Finset.sum_congr rfl fun i _ => ?_
  rw [h.sum]
  refine Finset.sum_congr rfl fun j _ => ?_
  split
  · rw [h.bracket]
  · rw [h.zero]

/-- The matrix of the combined model is the combination of the matrices of the two models. -/
theorem Combines.model {L : Mat n n → Mat m m → Mat k k} (h : Combines L) (s : ℝ) (M0 : Mat n n) (M : Fin p → Mat n n) (N0 : Mat m m) (N : Fin p → Mat m m)
    (x : Fin p → ℝ) :
    modelMatrix s (some (L M0 N0)) (fun i => L (M i) (N i)) x = L (modelMatrix s (some M0) M x) (modelMatrix s (some N0) N x) := by
  have hc : (fun i : Fin (p + 1) => Props.herm ((Fin.cons (L M0 N0) fun i => L (M i) (N i) : Fin (p + 1) → Mat k k) i)) =
      fun i => L (Props.herm ((Fin.cons M0 M : Fin (p + 1) → Mat n n) i)) (Props.herm ((Fin.cons N0 N : Fin (p + 1) → Mat m m) i)) := by
    funext i
    refine Fin.cases ?_ (fun j => ?_) i
    · simp only [Fin.cons_zero, h.herm]
    · simp only [Fin.cons_succ, h.herm]
  rw [modelMatrix_some, modelMatrix_some, modelMatrix_some, hc, h.commutators]
  simp only [h.herm, ← h.smul, ← h.sum, ← h.add]

/-- Two blocks on the diagonal. -/
noncomputable def directSum (A : Mat n n) (B : Mat m m) : Mat (n + m) (n + m) := Matrix.reindex finSumFinEquiv finSumFinEquiv (Matrix.fromBlocks A 0 0 B)

/-- `A ⊗ 1 + 1 ⊗ B`. -/
noncomputable def kronSum (A : Mat n n) (B : Mat m m) : Mat (n * m) (n * m) := Matrix.reindex finProdFinEquiv finProdFinEquiv (A ⊗ₖ (1 : Mat m m) + (1 : Mat n n) ⊗ₖ B)

theorem directSum_combines : Combines (directSum (n := n) (m := m)) where
  add A A' B B' := by
    unfold directSum
    rw [Matrix.reindex_apply, Matrix.reindex_apply, Matrix.reindex_apply]
    have h : Matrix.fromBlocks (A + A') 0 0 (B + B') = Matrix.fromBlocks A 0 0 B + Matrix.fromBlocks A' 0 0 B' := by
      rw [Matrix.fromBlocks_add, add_zero, add_zero]
    rw [h]
    rfl
  smul t A B := by
    unfold directSum
    rw [Matrix.reindex_apply, Matrix.reindex_apply]
    have h : Matrix.fromBlocks (t • A) 0 0 (t • B) = t • Matrix.fromBlocks A 0 0 B := by rw [Matrix.fromBlocks_smul, smul_zero, smul_zero]
    rw [h]
    rfl
  star A B := by
    unfold directSum
    rw [Matrix.conjTranspose_reindex, Matrix.fromBlocks_conjTranspose]
    simp
  bracket A A' B B' := by
    unfold directSum
    simp only [Matrix.reindex_apply]
    rw [Matrix.submatrix_mul_equiv, Matrix.submatrix_mul_equiv, Matrix.fromBlocks_multiply, Matrix.fromBlocks_multiply]
    simp only [Matrix.mul_zero, Matrix.zero_mul, add_zero, zero_add]
    have h : Matrix.fromBlocks (A * A' - A' * A) 0 0 (B * B' - B' * B) =
        Matrix.fromBlocks (A * A') 0 0 (B * B') - Matrix.fromBlocks (A' * A) 0 0 (B' * B) := by
      ext i j
      rcases i with i | i <;> rcases j with j | j <;> simp
    rw [h]
    rfl

theorem kronSum_combines : Combines (kronSum (n := n) (m := m)) where
  add A A' B B' := by
    unfold kronSum
    simp only [Matrix.reindex_apply]
    have h : (A + A') ⊗ₖ (1 : Mat m m) + (1 : Mat n n) ⊗ₖ (B + B') = (A ⊗ₖ (1 : Mat m m) + (1 : Mat n n) ⊗ₖ B) + (A' ⊗ₖ (1 : Mat m m) + (1 : Mat n n) ⊗ₖ B') := by
      rw [Matrix.add_kronecker, Matrix.kronecker_add]
      abel
    rw [h]
    rfl
  smul t A B := by
    unfold kronSum
    simp only [Matrix.reindex_apply]
    have h : (t • A) ⊗ₖ (1 : Mat m m) + (1 : Mat n n) ⊗ₖ (t • B) = t • (A ⊗ₖ (1 : Mat m m) + (1 : Mat n n) ⊗ₖ B) := by
      rw [Matrix.smul_kronecker, Matrix.kronecker_smul, smul_add]
    rw [h]
    rfl
  star A B := by
    unfold kronSum
    rw [Matrix.conjTranspose_reindex, Matrix.conjTranspose_add, Matrix.conjTranspose_kronecker, Matrix.conjTranspose_kronecker]
    simp
  bracket A A' B B' := by
    unfold kronSum
    simp only [Matrix.reindex_apply]
    rw [Matrix.submatrix_mul_equiv, Matrix.submatrix_mul_equiv]
    have h : (A * A' - A' * A) ⊗ₖ (1 : Mat m m) + (1 : Mat n n) ⊗ₖ (B * B' - B' * B) =
        (A ⊗ₖ (1 : Mat m m) + (1 : Mat n n) ⊗ₖ B) * (A' ⊗ₖ (1 : Mat m m) + (1 : Mat n n) ⊗ₖ B') -
        (A' ⊗ₖ (1 : Mat m m) + (1 : Mat n n) ⊗ₖ B') * (A ⊗ₖ (1 : Mat m m) + (1 : Mat n n) ⊗ₖ B) := by
      have s1 : (A * A' - A' * A) ⊗ₖ (1 : Mat m m) = (A * A') ⊗ₖ (1 : Mat m m) - (A' * A) ⊗ₖ (1 : Mat m m) := by
        ext i j; simp [Matrix.kroneckerMap_apply, sub_mul]
      have s2 : (1 : Mat n n) ⊗ₖ (B * B' - B' * B) = (1 : Mat n n) ⊗ₖ (B * B') - (1 : Mat n n) ⊗ₖ (B' * B) := by
        ext i j; simp [Matrix.kroneckerMap_apply, mul_sub]
      rw [s1, s2]
      simp only [add_mul, mul_add, ← Matrix.mul_kronecker_mul, Matrix.mul_one, Matrix.one_mul]
      abel
    rw [h]
    rfl

/-! ### Energies of combined matrices -/

theorem energy_expand (A : Mat n n) (v : Fin n → ℂ) : energy A v = (∑ i, ∑ j, (starRingEnd ℂ) (v i) * A i j * v j).re := by
  unfold energy
  congr 1
  rw [dotProduct]
  refine Finset.sum_congr rfl fun i _ => ?_
  rw [Matrix.mulVec, dotProduct, Finset.mul_sum]
  exact Finset.sum_congr rfl fun j _ => (mul_assoc _ _ _).symm

theorem energy_directSum (A : Mat n n) (B : Mat m m) (v : Fin (n + m) → ℂ) :
    energy (directSum A B) v = energy A (fun i => v (Fin.castAdd m i)) + energy B (fun i => v (Fin.natAdd n i)) := by
  rw [energy_expand, energy_expand, energy_expand, ← Complex.add_re]
  congr 1
  rw [Fin.sum_univ_add]
  congr 1
  · refine Finset.sum_congr rfl fun i _ => ?_
    rw [Fin.sum_univ_add]
    simp [directSum]
  · refine Finset.sum_congr rfl fun i _ => ?_
    rw [Fin.sum_univ_add]
    simp [directSum]

theorem lenSq_directSum (v : Fin (n + m) → ℂ) : lenSq v = lenSq (fun i => v (Fin.castAdd m i)) + lenSq (fun i => v (Fin.natAdd n i)) := by
  unfold lenSq
  rw [Fin.sum_univ_add]

theorem energy_kronSum (A : Mat n n) (B : Mat m m) (v : Fin (n * m) → ℂ) :
    energy (kronSum A B) v = ∑ j, energy A (fun i => v (finProdFinEquiv (i, j))) + ∑ i, energy B (fun j => v (finProdFinEquiv (i, j))) := by
  simp only [energy_expand]
  rw [← Complex.re_sum, ← Complex.re_sum, ← Complex.add_re]
  congr 1
  have h : ∀ a b : Fin n × Fin m, kronSum A B (finProdFinEquiv a) (finProdFinEquiv b) =
      (if a.2 = b.2 then A a.1 b.1 else 0) + if a.1 = b.1 then B a.2 b.2 else 0 := fun a b => by
    simp [kronSum, Matrix.kroneckerMap_apply, Matrix.one_apply]
  rw [← Equiv.sum_comp finProdFinEquiv]
  have h2 : ∀ a : Fin n × Fin m, ∑ b : Fin (n * m), (starRingEnd ℂ) (v (finProdFinEquiv a)) * kronSum A B (finProdFinEquiv a) b * v b =
      ∑ i, (starRingEnd ℂ) (v (finProdFinEquiv a)) * A a.1 i * v (finProdFinEquiv (i, a.2)) +
      ∑ j, (starRingEnd ℂ) (v (finProdFinEquiv a)) * B a.2 j * v (finProdFinEquiv (a.1, j)) := fun a => by
    rw [← Equiv.sum_comp finProdFinEquiv, Fintype.sum_prod_type]
    simp only [h, mul_add, add_mul, Finset.sum_add_distrib]
    congr 1
    · refine Finset.sum_congr rfl fun i _ => ?_
      rw [Finset.sum_eq_single a.2]
      · simp
      · intro j _ hj; simp [Ne.symm hj]
      · simp
    · rw [Finset.sum_eq_single a.1]
      · simp
      · intro i _ hi; simp [Ne.symm hi]
      · simp
  rw [Finset.sum_congr rfl fun a _ => h2 a, Finset.sum_add_distrib, Fintype.sum_prod_type, Fintype.sum_prod_type]
  congr 1
  exact Finset.sum_comm

theorem lenSq_kron (v : Fin (n * m) → ℂ) : lenSq v = ∑ j, lenSq (fun i => v (finProdFinEquiv (i, j))) := by
  unfold lenSq
  rw [← Equiv.sum_comp finProdFinEquiv, Fintype.sum_prod_type, Finset.sum_comm]

theorem lenSq_kron' (v : Fin (n * m) → ℂ) : lenSq v = ∑ i, lenSq (fun j => v (finProdFinEquiv (i, j))) := by
  unfold lenSq
  rw [← Equiv.sum_comp finProdFinEquiv, Fintype.sum_prod_type]

/-! ### One eigenvalue -/

/-- `e` is the smallest (largest) value of the energy on unit vectors. -/
def Extreme (part : Part) (A : Mat n n) (e : ℝ) : Prop :=
  (∀ v, if part = .smallest then e * lenSq v ≤ energy A v else energy A v ≤ e * lenSq v) ∧ ∃ v, lenSq v = 1 ∧ energy A v = e

theorem extreme_unique {part : Part} {A : Mat n n} {e e' : ℝ} (h : Extreme part A e) (h' : Extreme part A e') : e = e' := by
  obtain ⟨h1, v, hv, hve⟩ := h
  obtain ⟨h1', v', hv', hve'⟩ := h'
  have a := h1 v'
  have b := h1' v
  rw [hv', hve'] at a
  rw [hv, hve] at b
  split at a <;> rename_i hp
  · rw [if_pos hp] at b; linarith
  · rw [if_neg hp] at b; linarith

/-- A model asked for one extreme eigenvalue predicts the extreme energy. -/
theorem call_extreme (ev : Mat n n → List ℝ) (hev : IsEigvalsh ev) (c : Eigen.Cfg) {part : Part} (hp : part = .smallest ∨ part = .largest)
    (hw : parseWhich c.which = .ok (part, .algebraic)) (hk : c.numEig = some 1) (hn : 0 < n) (s : ℝ) (M0 : Mat n n) (M : Fin p → Mat n n) (x : Fin p → ℝ) :
    ∃ e, eigenvalueCall ev c true s (M0 :: List.ofFn M) (.leaf [sample x]) = .ok (.leaf [[e]]) ∧ Extreme part (modelMatrix s (some M0) M x) e := by
  have hk1 : c.numEig.getD n = 1 := by rw [hk]; rfl
  obtain ⟨idx, -, hcall, hidx⟩ := call_sorted ev hev c hw (by omega) s (some M0) M
  have hA := modelMatrix_isHermitian s (some M0) M x
  have hc := hcall x
  rcases hp with rfl | rfl
  · rw [(hidx hk1).1 rfl] at hc
    obtain ⟨g1, g2⟩ := ev_least hev hA (getD_some (i := 0) (by rw [ev_length hev hA]; exact hn))
    exact ⟨_, hc, fun v => by rw [if_pos rfl]; exact g1 v, g2⟩
  · rw [(hidx hk1).2 rfl] at hc
    obtain ⟨g1, g2⟩ := ev_greatest hev hA (getD_some (i := n - 1) (by rw [ev_length hev hA]; omega))
    exact ⟨_, hc, fun v => by rw [if_neg (by decide)]; exact g1 v, g2⟩

theorem call_value {ev : Mat n n → List ℝ} (hev : IsEigvalsh ev) {c : Eigen.Cfg} {part : Part} (hp : part = .smallest ∨ part = .largest)
    (hw : parseWhich c.which = .ok (part, .algebraic)) (hk : c.numEig = some 1) (hn : 0 < n) {s : ℝ} {M0 : Mat n n} {M : Fin p → Mat n n} {x : Fin p → ℝ} {e : ℝ}
    (h : Extreme part (modelMatrix s (some M0) M x) e) : eigenvalueCall ev c true s (M0 :: List.ofFn M) (.leaf [sample x]) = .ok (.leaf [[e]]) := by
  obtain ⟨e', h1, h2⟩ := call_extreme ev hev c hp hw hk hn s M0 M x
  rw [extreme_unique h h2]
  exact h1

/-! ### The theorems -/

theorem extreme_directSum {part : Part} (hp : part = .smallest ∨ part = .largest) {A : Mat n n} {B : Mat m m} {a b : ℝ} (ha : Extreme part A a)
    (hb : Extreme part B b) : Extreme part (directSum A B) (if part = .smallest then min a b else max a b) := by
  obtain ⟨ha1, u, hu, hua⟩ := ha
  obtain ⟨hb1, w, hw, hwb⟩ := hb
  have z : ∀ {q : Nat} (C : Mat q q), energy C (fun _ => 0) = 0 ∧ lenSq (fun _ : Fin q => (0 : ℂ)) = 0 := fun C => by
    constructor
    · simp [energy, dotProduct]
    · simp [lenSq]
  have wu : ∃ v : Fin (n + m) → ℂ, lenSq v = 1 ∧ energy (directSum A B) v = a := by
    refine ⟨Fin.addCases u fun _ => 0, ?_, ?_⟩
    · rw [lenSq_directSum]; simp only [Fin.addCases_left, Fin.addCases_right]; rw [(z B).2, add_zero]; exact hu
    · rw [energy_directSum]; simp only [Fin.addCases_left, Fin.addCases_right]; rw [(z B).1, add_zero]; exact hua
  have ww : ∃ v : Fin (n + m) → ℂ, lenSq v = 1 ∧ energy (directSum A B) v = b := by
    refine ⟨Fin.addCases (fun _ => 0) w, ?_, ?_⟩
    · rw [lenSq_directSum]; simp only [Fin.addCases_left, Fin.addCases_right]; rw [(z A).2, zero_add]; exact hw
    · rw [energy_directSum]; simp only [Fin.addCases_left, Fin.addCases_right]; rw [(z A).1, zero_add]; exact hwb
  rcases hp with rfl | rfl
  · simp only [if_true] at ha1 hb1 ⊢
    refine ⟨fun v => ?_, ?_⟩
    · rw [if_pos rfl, energy_directSum, lenSq_directSum, mul_add]
      exact add_le_add ((mul_le_mul_of_nonneg_right (min_le_left _ _) (lenSq_nonneg _)).trans (ha1 _))
        ((mul_le_mul_of_nonneg_right (min_le_right _ _) (lenSq_nonneg _)).trans (hb1 _))
    · rcases min_choice a b with h | h
      · rw [h]; exact wu
      · rw [h]; exact ww
  · simp only [reduceCtorEq, if_false] at ha1 hb1 ⊢
    refine ⟨fun v => ?_, ?_⟩
    · rw [if_neg (by decide), energy_directSum, lenSq_directSum, mul_add]
      exact add_le_add ((ha1 _).trans (mul_le_mul_of_nonneg_right (le_max_left _ _) (lenSq_nonneg _)))
        ((hb1 _).trans (mul_le_mul_of_nonneg_right (le_max_right _ _) (lenSq_nonneg _)))
    · rcases max_choice a b with h | h
      · rw [h]; exact wu
      · rw [h]; exact ww

theorem energy_scale (A : Mat n n) (t : ℂ) (v : Fin n → ℂ) : energy A (fun i => t * v i) = Complex.normSq t * energy A v ∧
    lenSq (fun i => t * v i) = Complex.normSq t * lenSq v := by
  constructor
  · rw [energy_expand, energy_expand, ← Complex.re_ofReal_mul]
    congr 1
    rw [Finset.mul_sum]
    refine Finset.sum_congr rfl fun i _ => ?_
    rw [Finset.mul_sum]
    refine Finset.sum_congr rfl fun j _ => ?_
    rw [map_mul, Complex.normSq_eq_conj_mul_self]
    ring
  · unfold lenSq
    rw [Finset.mul_sum]
    exact Finset.sum_congr rfl fun i _ => Complex.normSq_mul _ _

theorem extreme_kronSum {part : Part} {A : Mat n n} {B : Mat m m} {a b : ℝ} (ha : Extreme part A a) (hb : Extreme part B b) :
    Extreme part (kronSum A B) (a + b) := by
  obtain ⟨ha1, u, hu, hua⟩ := ha
  obtain ⟨hb1, w, hw, hwb⟩ := hb
  refine ⟨fun v => ?_, fun q => u (finProdFinEquiv.symm q).1 * w (finProdFinEquiv.symm q).2, ?_, ?_⟩
  · have e1 : (a + b) * lenSq v = ∑ j, a * lenSq (fun i => v (finProdFinEquiv (i, j))) + ∑ i, b * lenSq (fun j => v (finProdFinEquiv (i, j))) := by
      rw [add_mul, ← Finset.mul_sum, ← Finset.mul_sum, ← lenSq_kron, ← lenSq_kron']
    rw [e1, energy_kronSum]
    by_cases hp : part = .smallest
    · simp only [hp, if_true] at ha1 hb1 ⊢
      exact add_le_add (Finset.sum_le_sum fun j _ => ha1 _) (Finset.sum_le_sum fun i _ => hb1 _)
    · simp only [hp, if_false] at ha1 hb1 ⊢
      exact add_le_add (Finset.sum_le_sum fun j _ => ha1 _) (Finset.sum_le_sum fun i _ => hb1 _)
  · rw [lenSq_kron']
    simp only [Equiv.symm_apply_apply]
    simp only [(energy_scale B _ w).2, hw, mul_one]
    exact hu
  · rw [energy_kronSum]
    simp only [Equiv.symm_apply_apply]
    have e1 : ∀ j, energy A (fun i => u i * w j) = Complex.normSq (w j) * a := fun j => by
      have := (energy_scale A (w j) u).1
      rw [hua] at this
      rw [← this]
      congr 1
      funext i
      ring
    simp only [e1, (energy_scale B _ w).1, hwb]
    rw [← Finset.sum_mul, ← Finset.sum_mul]
    have h1 : ∑ j, Complex.normSq (w j) = 1 := hw
    have h2 : ∑ i, Complex.normSq (u i) = 1 := hu
    rw [h1, h2, one_mul, one_mul]

/-- **C125** The smaller of the smallest eigenvalues (larger of the largest) that two models predict is predicted by one model: the one with the matrices of
both as diagonal blocks, with the same smoothing. -/
theorem C125_either (c : Eigen.Cfg) {part : Part} (hp : part = .smallest ∨ part = .largest) (hw : parseWhich c.which = .ok (part, .algebraic))
    (hk : c.numEig = some 1) (hn : 0 < n) (hm : 0 < m) (s : ℝ) (M0 : Mat n n) (M : Fin p → Mat n n) (N0 : Mat m m) (N : Fin p → Mat m m) :
    ∃ (L0 : Mat (n + m) (n + m)) (L : Fin p → Mat (n + m) (n + m)), ∀ (ev : Mat n n → List ℝ) (ev' : Mat m m → List ℝ)
      (ev'' : Mat (n + m) (n + m) → List ℝ), IsEigvalsh ev → IsEigvalsh ev' → IsEigvalsh ev'' → ∀ x : Fin p → ℝ,
      ∃ a b, eigenvalueCall ev c true s (M0 :: List.ofFn M) (.leaf [sample x]) = .ok (.leaf [[a]]) ∧
        eigenvalueCall ev' c true s (N0 :: List.ofFn N) (.leaf [sample x]) = .ok (.leaf [[b]]) ∧
        eigenvalueCall ev'' c true s (L0 :: List.ofFn L) (.leaf [sample x]) = .ok (.leaf [[if part = .smallest then min a b else max a b]]) := by
  refine ⟨directSum M0 N0, fun i => directSum (M i) (N i), fun ev ev' ev'' h h' h'' x => ?_⟩
  obtain ⟨a, ha, hae⟩ := call_extreme ev h c hp hw hk hn s M0 M x
  obtain ⟨b, hb, hbe⟩ := call_extreme ev' h' c hp hw hk hm s N0 N x
  refine ⟨a, b, ha, hb, call_value h'' hp hw hk (by omega) ?_⟩
  rw [directSum_combines.model]
  exact extreme_directSum hp hae hbe

/-- **C125** The sum of the smallest (largest) eigenvalues that two models predict is predicted by one model, whose size is the product of theirs, with
the same smoothing. -/
theorem C125_sum (c : Eigen.Cfg) {part : Part} (hp : part = .smallest ∨ part = .largest) (hw : parseWhich c.which = .ok (part, .algebraic))
    (hk : c.numEig = some 1) (hn : 0 < n) (hm : 0 < m) (s : ℝ) (M0 : Mat n n) (M : Fin p → Mat n n) (N0 : Mat m m) (N : Fin p → Mat m m) :
    ∃ (L0 : Mat (n * m) (n * m)) (L : Fin p → Mat (n * m) (n * m)), ∀ (ev : Mat n n → List ℝ) (ev' : Mat m m → List ℝ)
      (ev'' : Mat (n * m) (n * m) → List ℝ), IsEigvalsh ev → IsEigvalsh ev' → IsEigvalsh ev'' → ∀ x : Fin p → ℝ,
      ∃ a b, eigenvalueCall ev c true s (M0 :: List.ofFn M) (.leaf [sample x]) = .ok (.leaf [[a]]) ∧
        eigenvalueCall ev' c true s (N0 :: List.ofFn N) (.leaf [sample x]) = .ok (.leaf [[b]]) ∧
        eigenvalueCall ev'' c true s (L0 :: List.ofFn L) (.leaf [sample x]) = .ok (.leaf [[a + b]]) := by
  refine ⟨kronSum M0 N0, fun i => kronSum (M i) (N i), fun ev ev' ev'' h h' h'' x => ?_⟩
  obtain ⟨a, ha, hae⟩ := call_extreme ev h c hp hw hk hn s M0 M x
  obtain ⟨b, hb, hbe⟩ := call_extreme ev' h' c hp hw hk hm s N0 N x
  refine ⟨a, b, ha, hb, call_value h'' hp hw hk (Nat.mul_pos hn hm) ?_⟩
  rw [kronSum_combines.model]
  exact extreme_kronSum hae hbe

/-- **C125** Changing the sign of all matrices and of the smoothing turns predictions of the smallest eigenvalue into those of the largest, with the
opposite sign. -/
theorem C125_sign (c c' : Eigen.Cfg) (hw : parseWhich c.which = .ok (.smallest, .algebraic)) (hk : c.numEig = some 1)
    (hw' : parseWhich c'.which = .ok (.largest, .algebraic)) (hk' : c'.numEig = some 1) (hn : 0 < n) (s : ℝ) (M0 : Mat n n) (M : Fin p → Mat n n)
    (ev : Mat n n → List ℝ) (hev : IsEigvalsh ev) (x : Fin p → ℝ) :
    ∃ a, eigenvalueCall ev c true s (M0 :: List.ofFn M) (.leaf [sample x]) = .ok (.leaf [[a]]) ∧
      eigenvalueCall ev c' true (-s) (-M0 :: List.ofFn fun i => -M i) (.leaf [sample x]) = .ok (.leaf [[-a]]) := by
  obtain ⟨a, ha, hae⟩ := call_extreme ev hev c (.inl rfl) hw hk hn s M0 M x
  refine ⟨a, ha, call_value hev (.inr rfl) hw' hk' hn ?_⟩
  have hh : ∀ A : Mat n n, herm (-A) = -herm A := fun A => by
    unfold herm
    rw [Matrix.conjTranspose_neg, ← neg_add, smul_neg]
  have hmod : modelMatrix (-s) (some (-M0)) (fun i => -M i) x = ((-1 : ℝ) : ℂ) • modelMatrix s (some M0) M x := by
    have hc : commutators (fun i : Fin (p + 1) => herm ((Fin.cons (-M0) fun i => -M i : Fin (p + 1) → Mat n n) i)) =
        commutators (fun i : Fin (p + 1) => herm ((Fin.cons M0 M : Fin (p + 1) → Mat n n) i)) := by
      have : (fun i : Fin (p + 1) => herm ((Fin.cons (-M0) fun i => -M i : Fin (p + 1) → Mat n n) i)) =
          fun i => -herm ((Fin.cons M0 M : Fin (p + 1) → Mat n n) i) := by
        funext i
        refine Fin.cases ?_ (fun j => ?_) i
        · simp only [Fin.cons_zero, hh]
        · simp only [Fin.cons_succ, hh]
      rw [this]
      unfold commutators
      simp only [neg_mul_neg]
    rw [modelMatrix_some, modelMatrix_some, hc]
    simp only [hh, smul_neg, Finset.sum_neg_distrib]
    push_cast
    rw [neg_smul, neg_smul, one_smul]
    abel
  rw [hmod]
  obtain ⟨h1, v, hv, hve⟩ := hae
  refine ⟨fun u => ?_, v, hv, ?_⟩
  · rw [if_neg (by decide), energy_smul]
    have := h1 u
    rw [if_pos rfl] at this
    linarith
  · rw [energy_smul, hve]
    ring

/-- Two models of different sizes to which the theorems apply, with smoothing. -/
example : parseWhich "SA".toList = .ok (.smallest, .algebraic) ∧ parseWhich "LA".toList = .ok (.largest, .algebraic) ∧
    (∃ ev : Mat 2 2 → List ℝ, IsEigvalsh ev) ∧ (∃ ev : Mat 3 3 → List ℝ, IsEigvalsh ev) ∧ (∃ ev : Mat (2 * 3) (2 * 3) → List ℝ, IsEigvalsh ev) :=
  ⟨by decide, by decide, ⟨_, exists_eigvalsh⟩, ⟨_, exists_eigvalsh⟩, ⟨_, exists_eigvalsh⟩⟩

end Verif.Props
