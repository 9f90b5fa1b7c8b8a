import Verif.Spec.Scalers

/-! # Specification vocabulary: the same samples in other units and in another order -/

namespace Verif.UnitsSpec
open NdSpec

/-- `σ` is a rearrangement of the numbers below `n`. -/
structure Rearranges (n : Nat) (σ : Nat → Nat) : Prop where
  below : ∀ r < n, σ r < n
  once : ∀ r < n, ∀ t < n, σ r = σ t → r = t

/-- The array `y` tells the same as `x`: row `r` of `y` is row `σ r` of `x`, and feature `j` is given in other units, `a j * v + b j`
instead of `v`. What is not a number stays so. -/
structure Restates (a b : List Nat → ℝ) (σ : Nat → Nat) (x y : NArr (Option ℝ)) : Prop where
  shape : y.shape = x.shape
  vals : ∀ r j, InB x.shape (r :: j) → y.val (r :: j) = (x.val (σ r :: j)).map fun v => a j * v + b j

/-- The array `y` holds the rows of `x` in another order, in the same units. -/
structure SameRows (σ : Nat → Nat) (x y : NArr (Option ℝ)) : Prop where
  shape : y.shape = x.shape
  vals : ∀ r j, InB x.shape (r :: j) → y.val (r :: j) = x.val (σ r :: j)

end Verif.UnitsSpec
