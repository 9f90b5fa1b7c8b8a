import Verif.Model.HermTrain
import Mathlib.Analysis.Calculus.Deriv.Basic

/-! # Gradients of losses that see an array through Hermitian matrices -/

namespace Verif.HermTrain
open Train
open scoped ComplexConjugate

/-- Entry `i` of the array is changed by `z`. -/
noncomputable def bump {V : Type} [Add V] (M : List Nat → V) (i : List Nat) (z : V) : List Nat → V :=
  fun k => if k = i then M k + z else M k

/-- The gradient that JAX gives for a complex array: in every entry the derivative with respect to the real part minus `i` times
the derivative with respect to the imaginary part. -/
noncomputable def gradC (L : (List Nat → ℂ) → ℝ) (M : List Nat → ℂ) : List Nat → ℂ := fun i =>
  ((deriv (fun t : ℝ => L (bump M i t)) 0 : ℝ) : ℂ) - Complex.I * ((deriv (fun t : ℝ => L (bump M i (t * Complex.I))) 0 : ℝ) : ℂ)

/-- The gradient of a real array: the partial derivatives. -/
noncomputable def gradR (L : (List Nat → ℝ) → ℝ) (M : List Nat → ℝ) : List Nat → ℝ := fun i =>
  deriv (fun t : ℝ => L (bump M i t)) 0

/-- All matrices of the array are Hermitian: row and column exchanged gives the complex conjugate. -/
def AllHermitian (M : List Nat → ℂ) : Prop := ∀ (k : List Nat) (a b : Nat), M (k ++ [b, a]) = conj (M (k ++ [a, b]))

/-- All matrices of the array are symmetric. -/
def AllSymmetric (M : List Nat → ℝ) : Prop := ∀ (k : List Nat) (a b : Nat), M (k ++ [b, a]) = M (k ++ [a, b])

/-- Two arrays of matrices have the same Hermitian parts. -/
def SameHermitian (M M' : List Nat → ℂ) : Prop :=
  ∀ (k : List Nat) (a b : Nat), M (k ++ [a, b]) + conj (M (k ++ [b, a])) = M' (k ++ [a, b]) + conj (M' (k ++ [b, a]))

/-- A loss sees the array only through the Hermitian parts of its matrices: as in the modules, which make the matrices Hermitian
before they use them. -/
def SeesHermitian (L : (List Nat → ℂ) → ℝ) : Prop := ∀ M M', SameHermitian M M' → L M = L M'

/-- The same for a real array. -/
def SeesSymmetric (L : (List Nat → ℝ) → ℝ) : Prop :=
  ∀ M M' : List Nat → ℝ,
    (∀ (k : List Nat) (a b : Nat), M (k ++ [a, b]) + M (k ++ [b, a]) = M' (k ++ [a, b]) + M' (k ++ [b, a])) → L M = L M'

/-- What is not Hermitian in two arrays of matrices agrees. -/
def SameRest (M M' : List Nat → ℂ) : Prop :=
  ∀ (k : List Nat) (a b : Nat), M (k ++ [a, b]) - conj (M (k ++ [b, a])) = M' (k ++ [a, b]) - conj (M' (k ++ [b, a]))

/-- Moments as a training leaves them: both arrays consist of Hermitian matrices, the second moments are nonnegative real numbers. -/
def GoodMoments (m v : List Nat → ℂ) : Prop :=
  AllHermitian m ∧ AllHermitian v ∧ ∀ i, ∃ w : ℝ, 0 ≤ w ∧ v i = w

end Verif.HermTrain
