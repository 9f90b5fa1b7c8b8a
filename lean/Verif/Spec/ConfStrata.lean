import Verif.Spec.ConfUnits

/-! # What a conformal interval with stratified corrections is, written out for one output

Functions of the sample number give the entries of the arrays; `R c k` says that calibration sample `c` has the features of sample `k`. -/

namespace Verif.ConfUnits
open Verif.Conformal

open scoped Classical in
/-- The correction of a sample: the median of the residuals of the selected calibration samples, nothing if there is none. -/
noncomputable def shiftS (n : Nat) (sel : Nat → Prop) (y z : Nat → Option ℝ) : Option ℝ :=
  if ∃ c < n, sel c then quantO (((List.range n).filter fun c => decide (sel c)).map fun c => op2 (· - ·) (y c) (z c)) (1 / 2) else some 0

/-- The score of calibration sample `k`. -/
noncomputable def scoreS (n : Nat) (R : Nat → Nat → Prop) (y z w : Nat → Option ℝ) (k : Nat) : Option ℝ :=
  Loss.fdiv ((op2 (· - ·) (y k) (op2 (· + ·) (z k) (shiftS n (fun c => R c k) y z))).map fun x => |x|) (w k)

/-- The half-width of the interval in units of the heuristic. -/
noncomputable def widthS (n : Nat) (R : Nat → Nat → Prop) (y z w : Nat → Option ℝ) (α : ℝ) : Option ℝ :=
  quantO ((List.range n).map (scoreS n R y z w)) (⌈((n : ℝ) + 1) * (1 - α)⌉ / n)

/-- An end of the interval of a new sample with prediction `c` and heuristic `d` that has the features of the selected calibration samples. -/
noncomputable def boundS (f : ℝ → ℝ → ℝ) (n : Nat) (R : Nat → Nat → Prop) (sel : Nat → Prop) (y z w : Nat → Option ℝ) (α : ℝ) (c d : Option ℝ) : Option ℝ :=
  op2 f (op2 (· + ·) c (shiftS n sel y z)) (op2 (· * ·) (widthS n R y z w α) d)

end Verif.ConfUnits
