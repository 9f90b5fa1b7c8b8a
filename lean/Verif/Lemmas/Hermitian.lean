import Verif.Model.Hermitian
import Mathlib.LinearAlgebra.Matrix.Hermitian
import Mathlib.LinearAlgebra.Matrix.Rank
import Mathlib.Data.Complex.BigOperators
import Mathlib.Tactic.Ring
import Mathlib.Tactic.FieldSimp
import Mathlib.Tactic.NoncommRing

namespace Verif.Hermitian
open scoped ComplexConjugate Matrix

variable {n r : Nat}

theorem dot_eq (A B : Mat n n) : dot A B = A * B := by
  funext i k
  simp [dot, Matrix.mul_apply]

theorem commutator_eq (A B : Mat n n) : commutator A B = A * B - B * A := by
  unfold commutator
  rw [dot_eq, dot_eq]

theorem hermPart_eq (M : Mat n n) : hermPart M = (1 / 2 : ℂ) • (M + Mᴴ) := by
  funext i j
  simp only [hermPart, Matrix.of_apply, Matrix.smul_apply, Matrix.add_apply, Matrix.conjTranspose_apply, smul_eq_mul]
  rw [show star (M j i) = conj (M j i) from rfl]
  ring

theorem hermPart_isHermitian (M : Mat n n) : (hermPart M).IsHermitian := by
  rw [hermPart_eq]
  unfold Matrix.IsHermitian
  rw [Matrix.conjTranspose_smul, Matrix.conjTranspose_add, Matrix.conjTranspose_conjTranspose, add_comm]
  congr 1
  simp

theorem hermPart_self {M : Mat n n} (h : M.IsHermitian) : hermPart M = M := by
  rw [hermPart_eq, h.eq, ← two_smul ℂ M, smul_smul]
  norm_num

theorem cumsum_append (acc : Mat n n) (Ms : List (Mat n n)) (M : Mat n n) :
    cumsum acc (Ms ++ [M]) = cumsum acc Ms ++ [acc + Ms.sum + M] := by
  induction Ms generalizing acc with
  | nil => simp [cumsum]
  | cons A Ms ih =>
    simp only [List.cons_append, cumsum, ih, List.sum_cons]
    rw [add_assoc acc A]

theorem length_cumsum (acc : Mat n n) (Ms : List (Mat n n)) : (cumsum acc Ms).length = Ms.length := by
  induction Ms generalizing acc with
  | nil => rfl
  | cons A Ms ih => simp [cumsum, ih]

theorem cumsum_last (Ms : List (Mat n n)) (h : Ms ≠ []) : cumsum 0 Ms = cumsum 0 Ms.dropLast ++ [Ms.sum] := by
  obtain ⟨l, a, rfl⟩ := List.eq_nil_or_concat Ms |>.resolve_left h
  rw [List.concat_eq_append, List.dropLast_concat, cumsum_append, List.sum_append, List.sum_singleton, zero_add]

/-- The running sum of commutators. -/
noncomputable def commSum (Ms : List (Mat n n)) : Mat n n := (Ms.tail.zip (cumsum 0 Ms.dropLast)).foldl scanComms 0

theorem commSum_append (Ms : List (Mat n n)) (M : Mat n n) (h : Ms ≠ []) :
    commSum (Ms ++ [M]) = commSum Ms + (M * Ms.sum - Ms.sum * M) := by
  unfold commSum
  rw [List.dropLast_concat, cumsum_last Ms h]
  have e : (Ms ++ [M]).tail = Ms.tail ++ [M] := by
    cases Ms with
    | nil => exact absurd rfl h
    | cons a l => rfl
  rw [e, List.zip_append, List.foldl_append]
  · simp only [List.zip_cons_cons, List.zip_nil_right, List.foldl_cons, List.foldl_nil]
    rw [← commutator_eq]
    rfl
  · rw [length_cumsum, List.length_tail, List.length_dropLast]

theorem commSum_ofFn : ∀ (p : Nat) (M : Fin p → Mat n n),
    commSum (List.ofFn M) = ∑ i, ∑ j, if j < i then M i * M j - M j * M i else 0
  | 0, M => by simp [commSum]
  | p + 1, M => by
    rw [List.ofFn_succ', List.concat_eq_append]
    by_cases hp : p = 0
    · subst hp
      simp [commSum]
    · rw [commSum_append _ _ (by simp [hp]), commSum_ofFn p, Fin.sum_univ_castSucc]
      congr 1
      · refine Finset.sum_congr rfl fun i _ => ?_
        rw [Fin.sum_univ_castSucc]
        have : ¬ (Fin.last p < i.castSucc) := not_lt.2 (Fin.le_last _)
        rw [if_neg this, add_zero]
        simp only [Fin.castSucc_lt_castSucc_iff]
      · rw [Fin.sum_univ_castSucc, if_neg (lt_irrefl _), add_zero]
        simp only [Fin.castSucc_lt_last, if_true]
        rw [Finset.sum_sub_distrib, ← Finset.mul_sum, ← Finset.sum_mul, List.sum_ofFn]

theorem smoothing_eq (Ms : List (Mat n n)) : smoothingMatrix Ms = Complex.I • commSum Ms := rfl

theorem contract_ofFn {p : Nat} (x : Fin p → ℂ) (M : Fin p → Mat n n) : contract (List.ofFn x) (List.ofFn M) = ∑ i, x i • M i := by
  funext j k
  rw [Matrix.sum_apply]
  unfold contract
  rw [Matrix.of_apply]
  have : List.zipWith (fun c (M : Mat n n) => c * M j k) (List.ofFn x) (List.ofFn M) = List.ofFn fun i => x i * M i j k := by
    apply List.ext_getElem
    · simp
    · intro i h1 h2
      simp
  rw [this, List.sum_ofFn]
  rfl

theorem affine_bias {p : Nat} (s : ℝ) (M : Fin (p + 1) → Mat n n) (x : Fin p → ℂ) :
    affine true s (List.ofFn M) (List.ofFn x) = .ok (M 0 + ∑ i, x i • M i.succ +
      (s : ℂ) • Complex.I • ∑ i, ∑ j, if j < i then M i * M j - M j * M i else 0) := by
  rw [← commSum_ofFn, ← smoothing_eq]
  unfold affine
  rw [if_pos rfl, List.ofFn_succ]
  simp only [List.length_ofFn, if_true]
  split
  · rename_i h
    rw [h]
    simp only [Complex.ofReal_zero, zero_smul, add_zero, contract_ofFn]
  · rw [contract_ofFn]

theorem affine_plain {p : Nat} (s : ℝ) (M : Fin p → Mat n n) (x : Fin p → ℂ) :
    affine false s (List.ofFn M) (List.ofFn x) = .ok (∑ i, x i • M i +
      (s : ℂ) • Complex.I • ∑ i, ∑ j, if j < i then M i * M j - M j * M i else 0) := by
  rw [← commSum_ofFn, ← smoothing_eq]
  unfold affine
  rw [if_neg (by decide)]
  simp only [List.length_ofFn, if_true]
  split
  · rename_i h
    rw [h]
    simp only [Complex.ofReal_zero, zero_smul, add_zero, contract_ofFn]
  · rw [contract_ofFn]

end Verif.Hermitian
