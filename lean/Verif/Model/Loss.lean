import Verif.Model.Batch
import Mathlib.Analysis.RCLike.Basic
import Mathlib.Analysis.SpecialFunctions.Sqrt

/-!
# Model of the built-in loss functions

Mirrors `/repo/parametricmatrixmodels/training.py` lines 1741-1971 and the tree arithmetic they use
(`/repo/parametricmatrixmodels/tree_util.py` lines 579-870). A tree is the list of its leaves, a leaf the list of its
entries. An entry is a number (ℝ or ℂ, `𝕜`) or `none` for "not a finite number" (division by zero); arithmetic passes `none`
on. Simplification: shape broadcasting and the run-time type checks of jaxtyping are not modelled.
-/

namespace Verif
namespace Loss
open Batch

open scoped Classical in
/-- `x / y` elementwise: not a finite number for `y = 0` (tree_util.py:671-689). -/
noncomputable def fdiv {𝕜 : Type} [RCLike 𝕜] (x y : Option 𝕜) : Option 𝕜 :=
  x.bind fun x => y.bind fun y => if y = 0 then none else some (x / y)

/-- Elementwise binary operation on two arrays of the same shape (tree_util.py:603-689). -/
def lift2 {A B C : Type} (f : A → B → C) (x : Option A) (y : Option B) : Option C := x.bind fun x => y.map fun y => f x y

/-- `jax.tree.map(f, t1, t2)` with an elementwise `f` (tree_util.py:602-710): the structures and shapes must agree. -/
def map2 {A B C : Type} (f : A → B → C) (X : Leaves A) (Y : Leaves B) : Except PyErr (Leaves C) :=
  if X.length ≠ Y.length then .error .valueError
  else if (List.zipWith (fun x y => decide (x.length = y.length)) X Y).all id then
    .ok (List.zipWith (List.zipWith f) X Y)
  else .error .typeError

/-- `jax.tree.map(f, t)` with an elementwise `f` (tree_util.py:714-775). -/
def map1 {A B : Type} (f : A → B) (X : Leaves A) : Leaves B := X.map (·.map f)

/-- The sum of an array, not a number if an entry is not (tree_util.py:580-599). -/
noncomputable def fsum (x : List (Option ℝ)) : Option ℝ := x.foldr (lift2 (· + ·)) (some 0)

/-- `mean` (tree_util.py:579-599). -/
noncomputable def mean (X : Leaves (Option ℝ)) : Option ℝ :=
  let total := (X.map fsum).foldr (lift2 (· + ·)) (some 0)
  let n := (X.map List.length).sum
  fdiv total (some (n : ℝ))

variable {𝕜 : Type} [RCLike 𝕜]

/-- `abs` (tree_util.py:732). -/
noncomputable def fabs (X : Leaves (Option 𝕜)) : Leaves (Option ℝ) := map1 (Option.map fun x => ‖x‖) X

/-- `abs_sqr` (tree_util.py:754). -/
noncomputable def fabsSqr (X : Leaves (Option 𝕜)) : Leaves (Option ℝ) := map1 (Option.map fun x => ‖x‖ ^ 2) X

/-- `sub` (tree_util.py:644). -/
def fsub (X Y : Leaves (Option 𝕜)) : Except PyErr (Leaves (Option 𝕜)) := map2 (lift2 (· - ·)) X Y

/-- `add` (tree_util.py:621). -/
def fadd (X Y : Leaves (Option 𝕜)) : Except PyErr (Leaves (Option 𝕜)) := map2 (lift2 (· + ·)) X Y

/-- `mul` (tree_util.py:667). -/
def fmul (X Y : Leaves (Option 𝕜)) : Except PyErr (Leaves (Option 𝕜)) := map2 (lift2 (· * ·)) X Y

/-- `div` (tree_util.py:689). -/
noncomputable def fdivT (X Y : Leaves (Option 𝕜)) : Except PyErr (Leaves (Option 𝕜)) := map2 fdiv X Y

/-- `scalar_add` (tree_util.py:845). -/
def scalarAdd (X : Leaves (Option 𝕜)) (a : 𝕜) : Leaves (Option 𝕜) := map1 (Option.map (· + a)) X

/-- `scalar_mul` (tree_util.py:869). -/
def scalarMul (X : Leaves (Option 𝕜)) (a : 𝕜) : Leaves (Option 𝕜) := map1 (Option.map (· * a)) X

/-- The built-in losses by name (training.py:1751-1966). -/
inductive Kind where
  | mse | mae | huber (delta : ℝ) | mseUnc | maeUnc | mre | mreUnc | mrd | mrdUnc

/-- The constant `1e-4` (training.py:1842, 1860, 1884, 1908, 1961). -/
noncomputable def tiny : 𝕜 := ((1e-4 : ℝ) : 𝕜)

/-- The loss of predictions `P` for targets `Y` with uncertainties `U` (ignored by the losses without `_unc`). The
unsupervised losses (training.py:1918-1966) are the supervised ones with `Y = X`. `pseudo_huber` is defined for a single
array (training.py:1790-1798 adds a number to the tree). -/
noncomputable def loss (k : Kind) (P Y U : Leaves (Option 𝕜)) : Except PyErr (Option ℝ) := do
  let e ← fsub P Y
  match k with
  | .mse => return mean (fabsSqr e)                                              -- 1751-1761
  | .mae => return mean (fabs e)                                                 -- 1763-1773
  | .huber δ =>                                                                  -- 1775-1801
    if e.length ≠ 1 then throw .typeError
    let a := fabsSqr (map1 (fun x => fdiv x (some ((δ : ℝ) : 𝕜))) e)
    return mean (map1 (Option.map fun x => δ ^ 2 * (Real.sqrt (1 + x) - 1)) a)
  | .mseUnc => return mean (fabsSqr (← fdivT e U))                               -- 1803-1816
  | .maeUnc => return mean (fabs (← fdivT e U))                                  -- 1818-1831
  | .mre => return mean (fabs (← fdivT e (scalarAdd Y tiny)))                    -- 1833-1848
  | .mreUnc => return mean (fabs (← fdivT e (← fmul (scalarAdd Y tiny) U)))      -- 1850-1868
  | .mrd => return mean (fabs (← fdivT e (scalarAdd (scalarMul (← fadd Y P) 2) tiny)))   -- 1870-1890
  | .mrdUnc =>                                                                   -- 1892-1916
    return mean (fabs (← fdivT e (← fmul (scalarAdd (scalarMul (← fadd Y P) 2) tiny) U)))

/-- `make_loss_fn(fn_name, ...)` (training.py:1741-1971): which loss a name selects; `parse` is Python's `float`. The
second component tells whether the loss compares with the features (unsupervised). -/
def kindOf (parse : Str → Except PyErr ℝ) (name : Str) : Except PyErr (Kind × Bool) :=
  if name = "mse".toList then .ok (.mse, false)
  else if name = "mae".toList then .ok (.mae, false)
  else if "pseudo_huber".toList.isPrefixOf name then
    if ':' ∈ name then
      match splitOn ':' name with
      | [_, d] => match parse d with
        | .ok δ => .ok (.huber δ, false)
        | .error e => .error e
      | _ => .error .valueError
    else .ok (.huber 1, false)
  else if name = "mse_unc".toList then .ok (.mseUnc, false)
  else if name = "mae_unc".toList then .ok (.maeUnc, false)
  else if name = "mre".toList then .ok (.mre, false)
  else if name = "mre_unc".toList then .ok (.mreUnc, false)
  else if name = "mrd".toList then .ok (.mrd, false)
  else if name = "mrd_unc".toList then .ok (.mrdUnc, false)
  else if name = "mse_unsupervised".toList then .ok (.mse, true)
  else if name = "mae_unsupervised".toList then .ok (.mae, true)
  else if name = "mre_unsupervised".toList then .ok (.mre, true)
  else .error .valueError

end Loss
end Verif
