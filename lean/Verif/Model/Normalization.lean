import Verif.Model.Conformal

/-!
# Model of the normalisation of the sensitivities

Mirrors `/repo/parametricmatrixmodels/conformal/conformalizedmodel.py` lines 1789-1890: `weighted_quantile`, `mad`, `robust_normalization` and
`pytree_robust_normalization`. The data are real numbers (the sensitivities are sums of squares of finite numbers); warnings are not modelled. `np.interp` is modelled
for increasing nodes, i.e. positive weights.
-/

namespace Verif
namespace Norm
open Tree Quantile Conformal

/-- A number of the results: finite, infinite or NaN (conformalizedmodel.py:1779-1870). -/
inductive Ext where
  | fin (x : ℝ)
  | inf
  | nan

/-- NaN for the missing result of an operation on no samples (conformalizedmodel.py:1817-1870). -/
def Ext.ofOption : Option ℝ → Ext
  | some x => .fin x
  | Option.none => .nan

/-- `x / y` of a finite number by a normalisation (890, 985): IEEE division. (`0 / 0` and overflow are both `none`, not finite.) -/
noncomputable def Ext.divide (x : ℝ) : Ext → Option ℝ
  | .fin y => if y = 0 then Option.none else some (x / y)
  | .inf => some 0
  | .nan => Option.none

/-- `np.median` (conformalizedmodel.py:1808, 1809). -/
noncomputable def median (l : List ℝ) : Option ℝ := quant l (1 / 2)

/-- `mad` without weights (conformalizedmodel.py:1806-1809). -/
noncomputable def mad (l : List ℝ) : Option ℝ := (median l).bind fun m => median (l.map fun x => |x - m|)

/-- The distance of two quantiles (conformalizedmodel.py:1826-1841, 1843-1858). -/
noncomputable def spread (lo hi : ℝ) (l : List ℝ) : Option ℝ := (quant l lo).bind fun a => (quant l hi).map fun b => b - a

/-- `np.ptp` (conformalizedmodel.py:1864). -/
noncomputable def ptp : List ℝ → Option ℝ
  | [] => Option.none
  | x :: xs => some (xs.foldl max x - xs.foldl min x)

/-- `np.any(norm < eps)` (conformalizedmodel.py:1825, 1842, 1860, 1866): comparisons with NaN are false. -/
noncomputable def anySmall (eps : ℝ) (x : NArr (Option ℝ)) : Bool :=
  open scoped Classical in x.entries.any fun o => o.any fun v => decide (v < eps)

/-- The fallbacks of `robust_normalization` (conformalizedmodel.py:1823-1870). -/
noncomputable def chain (eps : ℝ) (a b c d : NArr (Option ℝ)) : NArr Ext :=
  let n := if anySmall eps a then b else a
  let n := if anySmall eps n then c else n
  let n := if anySmall eps n then d else n
  if anySmall eps n then ⟨n.shape, fun _ => .inf⟩ else ⟨n.shape, fun i => .ofOption (n.val i)⟩

/-- A statistic of every component, over the samples (conformalizedmodel.py:1817-1870). -/
def along (f : List ℝ → Option ℝ) (x : NArr ℝ) : NArr (Option ℝ) := ⟨x.shape.tail, fun i => f (column x i)⟩

/-- `robust_normalization` without weights (conformalizedmodel.py:1817-1870). -/
noncomputable def robust (eps : ℝ) (x : NArr ℝ) : NArr Ext :=
  chain eps (along mad x) (along (spread (1 / 4) (3 / 4)) x) (along (spread (1 / 20) (19 / 20)) x) (along ptp x)

/-- `pytree_robust_normalization` without weights (conformalizedmodel.py:1873-1890). -/
noncomputable def robustTree (eps : ℝ) (t : Tree (NArr ℝ)) : Tree (NArr Ext) := map (robust eps) t.norm

/-! ### With weights -/

/-- `np.interp` at one point (conformalizedmodel.py:1797), with increasing nodes. -/
noncomputable def interpAt (x : ℝ) : List (ℝ × ℝ) → ℝ
  | [] => 0
  | [p] => p.2
  | p :: p' :: l =>
    if x < p.1 then p.2
    else if x < p'.1 then p.2 + (x - p.1) / (p'.1 - p.1) * (p'.2 - p.2)
    else interpAt x (p' :: l)

/-- `np.cumsum` (conformalizedmodel.py:1796). -/
def cumsum (acc : ℝ) : List ℝ → List ℝ
  | [] => []
  | w :: ws => (acc + w) :: cumsum (acc + w) ws

/-- `weighted_quantile` (conformalizedmodel.py:1789-1798) of one-dimensional data. -/
noncomputable def weightedList (data weights : List ℝ) (q : ℝ) : Option ℝ :=
  let idx := (List.range weights.length).insertionSort fun i j => weights.getD i 0 ≤ weights.getD j 0
  let cum := cumsum 0 (idx.map fun i => weights.getD i 0)
  if weights = [] then Option.none
  else some (interpAt (q * cum.getLastD 0) (cum.zip (idx.map fun i => data.getD i 0)))

/-- `mad` with weights (conformalizedmodel.py:1811-1814). -/
noncomputable def weightedMad (weights data : List ℝ) : Option ℝ :=
  (weightedList data weights (1 / 2)).bind fun m => weightedList (data.map fun x => |x - m|) weights (1 / 2)

/-- The distance of two weighted quantiles (conformalizedmodel.py:1833-1841, 1850-1858). -/
noncomputable def weightedSpread (lo hi : ℝ) (weights data : List ℝ) : Option ℝ :=
  (weightedList data weights lo).bind fun a => (weightedList data weights hi).map fun b => b - a

/-- `robust_normalization` with weights of the shape of the data (conformalizedmodel.py:1817-1870): `np.interp` refuses nodes that are not one-dimensional, and `weights[idxs]` has more than
one axis exactly if the weights have. -/
noncomputable def robustW (eps : ℝ) (x w : NArr ℝ) : Except PyErr (NArr Ext) :=
  match x.shape with
  | [_] => .ok (chain eps (along (weightedMad (column w [])) x) (along (weightedSpread (1 / 4) (3 / 4) (column w [])) x)
      (along (weightedSpread (1 / 20) (19 / 20) (column w [])) x) (along ptp x))
  | _ => .error .valueError

end Norm
end Verif
