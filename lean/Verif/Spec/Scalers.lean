import Verif.Spec.NdArr
import Verif.Spec.Forward
import Verif.Spec.TreeMap
import Mathlib.Data.Real.Basic

/-! # Specification vocabulary for the scalers -/

namespace Verif.ScalerSpec
open NdSpec ForwardSpec

/-- The values of feature `j` of an array with `n` rows: all are numbers and row `r` has the value `c r`. -/
structure Feature (x : NArr (Option ℝ)) (j : List Nat) (n : Nat) (c : Nat → ℝ) : Prop where
  rows : x.shape.head? = some n
  mem : InB x.shape.tail j
  vals : ∀ r < n, x.val (r :: j) = some (c r)

/-- The number `v` that the array `b` contributes at the index `i` of an array it is stretched to. -/
def Contributes (b : NArr (Option ℝ)) (i : List Nat) (v : ℝ) : Prop := ∃ k, Reads b.shape i k ∧ b.val k = some v

/-- The setting `v` that a user's setting `b` gives for the array at place `p`: a single number applies everywhere, anything else is a
tree with the structure of the data. -/
def BoundAt (b : Tree (NArr (Option ℝ))) (p : List Step) (v : Tree (NArr (Option ℝ))) : Prop :=
  (∃ a, b = .leaf a ∧ a.shape = [] ∧ v = b) ∨ ((∀ a, b = .leaf a → a.shape ≠ []) ∧ Sub b p v)

end Verif.ScalerSpec
