import Verif.Spec.Units
import Verif.Model.Conformal

/-! # What a conformal interval is, written out for one output -/

namespace Verif.ConfUnits
open Verif.Tree Verif.Conformal Verif.ForwardSpec

/-- Targets `Y`, predictions `Yp` and heuristic `u` of `n` calibration samples, predictions `Z` and heuristic `v` of `m` new samples
that fit together: the same structure, and at every place the same shape but for the number of samples. -/
structure Together (n m : Nat) (Y Yp u Z v : Arrs) : Prop where
  keys : KeysOk Y ∧ KeysOk Yp ∧ KeysOk u ∧ KeysOk Z ∧ KeysOk v
  struct : ∀ t ∈ [Yp, u, Z, v], map (fun _ => ()) t.norm = map (fun _ => ()) Y.norm
  some : ∃ p y, At Y p y
  shapes : ∀ p y, At Y p y → ∃ s, y.shape = n :: s ∧ (∀ t ∈ [Yp, u], ∀ x, At t p x → x.shape = n :: s) ∧
    ∀ t ∈ [Z, v], ∀ x, At t p x → x.shape = m :: s

/-- Sums, differences and products of numbers of which some may not be finite. -/
def op2 (f : ℝ → ℝ → ℝ) (x y : Option ℝ) : Option ℝ := x.bind fun x => y.map fun y => f x y

open scoped Classical in
/-- The correction of output `i`: the median of the residuals of the calibration samples, or nothing. -/
noncomputable def shift (bias : Bool) (n : Nat) (y z : List Nat → Option ℝ) (i : List Nat) : Option ℝ :=
  if bias then quantO ((List.range n).map fun k => op2 (· - ·) (y (k :: i)) (z (k :: i))) (1 / 2) else some 0

/-- The score of calibration sample `k`: the size of the corrected residual divided by the heuristic. -/
noncomputable def score (bias : Bool) (n : Nat) (y z w : List Nat → Option ℝ) (i : List Nat) (k : Nat) : Option ℝ :=
  Loss.fdiv ((op2 (· - ·) (y (k :: i)) (op2 (· + ·) (z (k :: i)) (shift bias n y z i))).map fun x => |x|) (w (k :: i))

/-- The half-width of the interval in units of the heuristic: the `⌈(n+1)(1-α)⌉/n`-quantile of the scores. -/
noncomputable def width (bias : Bool) (n : Nat) (y z w : List Nat → Option ℝ) (α : ℝ) (i : List Nat) : Option ℝ :=
  quantO ((List.range n).map (score bias n y z w i)) (⌈((n : ℝ) + 1) * (1 - α)⌉ / n)

/-- An end of the interval of a new sample with prediction `c` and heuristic `d`; `f` is the difference or the sum. -/
noncomputable def bound (f : ℝ → ℝ → ℝ) (bias : Bool) (n : Nat) (y z w : List Nat → Option ℝ) (α : ℝ) (i : List Nat) (c d : Option ℝ) : Option ℝ :=
  op2 f (op2 (· + ·) c (shift bias n y z i)) (op2 (· * ·) (width bias n y z w α i) d)

end Verif.ConfUnits
