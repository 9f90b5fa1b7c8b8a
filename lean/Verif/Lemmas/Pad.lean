import Verif.Props.Rescale
import Mathlib.Data.Matrix.Block

/-! # Matrices with additional diagonal entries -/

namespace Verif.Pad
open Matrix PmmSpec Verif.Props Verif.Hermitian

variable {n m p : Nat}

/-- The matrix with `m` further rows and columns with `c` on the diagonal. -/
noncomputable def pad (m : Nat) (c : ℂ) (A : Matrix (Fin n) (Fin n) ℂ) : Matrix (Fin (n + m)) (Fin (n + m)) ℂ :=
  reindex finSumFinEquiv finSumFinEquiv (fromBlocks A 0 0 (diagonal fun _ => c))

theorem pad_add (c d : ℂ) (A B : Matrix (Fin n) (Fin n) ℂ) : pad m (c + d) (A + B) = pad m c A + pad m d B := by
  unfold pad
  rw [reindex_apply, reindex_apply, reindex_apply]
  have h : fromBlocks (A + B) 0 0 (diagonal fun _ : Fin m => c + d) = fromBlocks A 0 0 (diagonal fun _ => c) + fromBlocks B 0 0 (diagonal fun _ => d) := by
    rw [fromBlocks_add, add_zero, add_zero, diagonal_add]
  rw [h]
  rfl

theorem pad_mul (c d : ℂ) (A B : Matrix (Fin n) (Fin n) ℂ) : pad m (c * d) (A * B) = pad m c A * pad m d B := by
  unfold pad
  rw [reindex_apply, reindex_apply, reindex_apply, submatrix_mul_equiv]
  congr 1
  rw [fromBlocks_multiply]
  simp

theorem pad_smul (t c : ℂ) (A : Matrix (Fin n) (Fin n) ℂ) : pad m (t * c) (t • A) = t • pad m c A := by
  unfold pad
  rw [reindex_apply, reindex_apply]
  have h : fromBlocks (t • A) 0 0 (diagonal fun _ : Fin m => t * c) = t • fromBlocks A 0 0 (diagonal fun _ => c) := by
    rw [fromBlocks_smul, smul_zero, smul_zero, ← diagonal_smul]
    rfl
  rw [h]
  rfl

theorem pad_zero : pad m 0 (0 : Matrix (Fin n) (Fin n) ℂ) = 0 := by
  have h := pad_smul (m := m) 0 0 (0 : Matrix (Fin n) (Fin n) ℂ)
  simpa using h

theorem pad_sub (c d : ℂ) (A B : Matrix (Fin n) (Fin n) ℂ) : pad m (c - d) (A - B) = pad m c A - pad m d B := by
  rw [eq_sub_iff_add_eq, ← pad_add, sub_add_cancel, sub_add_cancel]

theorem pad_sum {ι : Type} (s : Finset ι) (c : ι → ℂ) (A : ι → Matrix (Fin n) (Fin n) ℂ) :
    ∑ i ∈ s, pad m (c i) (A i) = pad m (∑ i ∈ s, c i) (∑ i ∈ s, A i) := by
  classical
  induction s using Finset.induction_on with
  | empty => simp [pad_zero]
  | insert a s ha ih => rw [Finset.sum_insert ha, Finset.sum_insert ha, Finset.sum_insert ha, ih, pad_add]

theorem herm_pad (c : ℝ) (A : Matrix (Fin n) (Fin n) ℂ) : herm (pad m c A) = pad m c (herm A) := by
  have h : (pad m (c : ℂ) A)ᴴ = pad m (c : ℂ) Aᴴ := by
    unfold pad
    rw [conjTranspose_reindex, fromBlocks_conjTranspose, diagonal_conjTranspose]
    congr 3
    · simp
    · simp
    · funext i
      simp
  unfold herm
  rw [h, ← pad_add, ← pad_smul]
  congr 1
  ring

theorem commutators_pad {k : Nat} (c : Fin k → ℂ) (N : Fin k → Matrix (Fin n) (Fin n) ℂ) :
    commutators (fun i => pad m (c i) (N i)) = pad m 0 (commutators N) := by
  unfold commutators
  have h1 : ∀ i j : Fin k, (if j < i then pad m (c i) (N i) * pad m (c j) (N j) - pad m (c j) (N j) * pad m (c i) (N i) else 0) =
      pad m 0 (if j < i then N i * N j - N j * N i else 0) := fun i j => by
    split_ifs
    · rw [← pad_mul, ← pad_mul, ← pad_sub, mul_comm (c i), sub_self]
    · exact pad_zero.symm
  simp only [h1]
  simp only [pad_sum, Finset.sum_const_zero]
  rw [← pad_smul, mul_zero]

/-- Models whose matrices are padded have the padded matrix. -/
theorem model_pad (s : ℝ) (c0 : ℝ) (c : Fin p → ℝ) (M0 : Matrix (Fin n) (Fin n) ℂ) (M : Fin p → Matrix (Fin n) (Fin n) ℂ) (x : Fin p → ℝ) :
    modelMatrix s (some (pad m c0 M0)) (fun i => pad m (c i) (M i)) x =
      pad m ((c0 + ∑ i, x i * c i : ℝ) : ℂ) (modelMatrix s (some M0) M x) := by
  have hc : (fun i : Fin (p + 1) => herm ((Fin.cons (pad m c0 M0) fun i => pad m (c i) (M i) : Fin (p + 1) → _) i)) =
      fun i => pad m (((Fin.cons c0 c : Fin (p + 1) → ℝ) i : ℝ) : ℂ) (herm ((Fin.cons M0 M : Fin (p + 1) → _) i)) := by
    funext i
    refine Fin.cases ?_ (fun j => ?_) i
    · simp only [Fin.cons_zero, herm_pad]
    · simp only [Fin.cons_succ, herm_pad]
  rw [modelMatrix_some, modelMatrix_some, hc, commutators_pad]
  simp only [herm_pad, ← pad_smul, pad_sum, ← pad_add]
  congr 1
  push_cast
  ring

theorem roots_pad (c : ℂ) (A : Matrix (Fin n) (Fin n) ℂ) : (pad m c A).charpoly.roots = A.charpoly.roots + Multiset.replicate m c := by
  unfold pad
  rw [charpoly_reindex, charpoly_fromBlocks_zero₁₂, charpoly_diagonal, Finset.prod_const, Finset.card_univ, Fintype.card_fin,
    Polynomial.roots_mul, Polynomial.roots_pow, Polynomial.roots_X_sub_C, Multiset.nsmul_singleton]
  exact mul_ne_zero (charpoly_monic A).ne_zero (pow_ne_zero _ (Polynomial.X_sub_C_ne_zero c))

theorem isHermitian_pad (c : ℝ) {A : Matrix (Fin n) (Fin n) ℂ} (hA : A.IsHermitian) : (pad m (c : ℂ) A).IsHermitian := by
  have h : herm A = A := by
    unfold herm
    rw [hA.eq, ← two_smul ℂ A, smul_smul]
    norm_num
  rw [← h, ← herm_pad]
  unfold herm IsHermitian
  rw [conjTranspose_smul, conjTranspose_add, conjTranspose_conjTranspose, add_comm (pad m (c : ℂ) A)]
  congr 1
  simp

theorem ev_pad {ev : Matrix (Fin n) (Fin n) ℂ → List ℝ} (hev : IsEigvalsh ev) {ev' : Matrix (Fin (n + m)) (Fin (n + m)) ℂ → List ℝ}
    (hev' : IsEigvalsh ev') {A : Matrix (Fin n) (Fin n) ℂ} (hA : A.IsHermitian) (c : ℝ) :
    (ev' (pad m (c : ℂ) A)).Perm (ev A ++ List.replicate m c) := by
  rw [← Multiset.coe_eq_coe]
  have h1 := (hev' _ (isHermitian_pad (m := m) c hA)).2
  have h2 := (hev _ hA).2
  rw [roots_pad, ← h2] at h1
  apply Multiset.map_injective Complex.ofReal_injective
  rw [Multiset.map_coe, h1, Multiset.map_coe, List.map_append, List.map_replicate, ← Multiset.coe_add, Multiset.coe_replicate]

end Verif.Pad
