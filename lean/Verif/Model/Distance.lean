import Verif.Model.OneHot
import Verif.Model.Normalization

/-!
# Model of the distance sensitivity

Mirrors `/repo/parametricmatrixmodels/conformal/conformalizedmodel.py` lines 602-711 (what calibration stores for the distances) and
998-1123. Entries of the data are finite. SciPy's `KDTree` is not part of the repository; modelled is its documented behaviour: it
refuses numbers that are not finite, `query` returns the smallest distances (infinity where there are fewer points) and
`query_ball_point` all points whose distance is at most the radius. Simplifications: the encoder `MixedScaler` has the structure of the
data, so that it acts leaf by leaf; dtypes and display are not modelled.
-/

namespace Verif
namespace Dist
open Tree

/-- What calibration stores for one feature: the ranges, the encoder (or `None`) and whether the feature is selected (conformalizedmodel.py:624-677). -/
structure Fitted where
  range : NArr ℝ
  enc : Option (OneHot.Fitted ℝ)
  dist : Bool

/-- `compute_range` (conformalizedmodel.py:640-650). (`np.ptp` raises for features without samples.) -/
noncomputable def range (x : NArr ℝ) (cont : Bool) : NArr ℝ :=
  if cont then ⟨x.shape.tail, fun i => (Norm.ptp (Conformal.column x i)).getD 0⟩ else ⟨x.shape.tail, fun _ => 2⟩

/-- The encoder of one feature, fitted (conformalizedmodel.py:667-677; the checks of `OneHot.fit` on a single array). -/
noncomputable def encoder (x : NArr ℝ) (cont dist : Bool) : Except PyErr (Option (OneHot.Fitted ℝ)) :=
  if cont || !dist then .ok Option.none
  else match OneHot.fit (.leaf x) with
    | .ok (.leaf u) => .ok (some u)
    | .ok _ => .error .typeError
    | .error e => .error e

/-- What calibration computes for one feature (conformalizedmodel.py:659-677). -/
noncomputable def fitLeaf (x : NArr ℝ) (vs : List (Tree Bool)) : Except PyErr (Tree Fitted) :=
  match vs with
  | [.leaf cont, .leaf dist] => (encoder x cont dist).map fun e => .leaf ⟨range x cont, e, dist⟩
  | _ => .error .typeError

/-- Calibration (conformalizedmodel.py:659-677). -/
noncomputable def fit (train : Tree (NArr ℝ)) (cont dist : Tree Bool) : Except PyErr (Tree Fitted) := jaxMap fitLeaf train [cont, dist]

/-- The encoding of one feature (conformalizedmodel.py:1102). -/
noncomputable def encodeLeaf (x : NArr ℝ) (e : Option (OneHot.Fitted ℝ)) : Except PyErr (NArr ℝ) :=
  match e with
  | Option.none => .ok x
  | some u => match OneHot.transform (some (.leaf u)) (.leaf x) with
    | .ok (.leaf y) => .ok y
    | .ok _ => .error .typeError
    | .error e => .error e

/-- Division by the range; by zero it is not finite (conformalizedmodel.py:1103). -/
noncomputable def scale (a b : ℝ) : Option ℝ := if b = 0 then Option.none else some (a / b)

/-- Encode and scale one feature, and drop it if it is not selected (conformalizedmodel.py:1101-1120). -/
noncomputable def scaleLeaf (x : NArr ℝ) (vs : List (Tree Fitted)) : Except PyErr (Tree (NArr (Option ℝ))) :=
  match vs with
  | [.leaf f] => do
    let y ← encodeLeaf x f.enc
    let z ← NArr.bop scale y f.range
    .ok (.leaf (if f.dist then z else ⟨[z.shape.headD 0, 0], fun _ => Option.none⟩))
  | _ => .error .typeError

/-- Sample `r` of one array as a row of numbers: `x.reshape((x.shape[0], -1))` (conformalizedmodel.py:1112). -/
def flatRow (r : Nat) (x : NArr (Option ℝ)) : List (Option ℝ) := (NArr.indices x.shape.tail).map fun j => x.val (r :: j)

/-- The check of the `KDTree` that all numbers are finite (conformalizedmodel.py:685, 1050, 1072). -/
def finiteRow (l : List (Option ℝ)) : Except PyErr (List ℝ) :=
  match l.mapM id with
  | some l => .ok l
  | Option.none => .error .valueError

/-- `_prepare_data_for_kdtree` (conformalizedmodel.py:1091-1123): the arrays are concatenated, for which all need the same number of
samples; numbers that are not finite are refused by the `KDTree` (lines 685, 1049 and 1072). -/
noncomputable def prepare (F : Tree Fitted) (X : Tree (NArr ℝ)) : Except PyErr (List (List ℝ)) := do
  let Z ← jaxMap scaleLeaf X [F]
  match jaxLeaves Z with
  | [] => .error .valueError
  | z :: zs =>
    if zs.all fun y => decide (y.shape.head? = z.shape.head?) then
      (List.range (z.shape.headD 0)).mapM fun r => finiteRow ((z :: zs).flatMap (flatRow r))
    else .error .valueError

/-- The Manhattan distance `p=1.0` (conformalizedmodel.py:690, 1050, 1072). -/
noncomputable def l1 (a b : List ℝ) : ℝ := (List.zipWith (fun x y => |x - y|) a b).sum

/-- The distance to the nearest point, `query(k=1)` (conformalizedmodel.py:1072); without points infinite. -/
noncomputable def nearest (U : List (List ℝ)) (x : List ℝ) : Option ℝ :=
  match U with
  | [] => Option.none
  | u :: us => some (us.foldl (fun a v => min a (l1 x v)) (l1 x u))

/-- The points within the radius, `query_ball_point` (conformalizedmodel.py:1049-1055). -/
noncomputable def ball (U : List (List ℝ)) (cutoff : ℝ) (x : List ℝ) : List (List ℝ) := U.filter fun u => decide (l1 x u ≤ cutoff)

/-- The mean distance to the points within the radius, 0 if there are none (conformalizedmodel.py:1057-1067). -/
noncomputable def meanDistance (U : List (List ℝ)) (cutoff : ℝ) (x : List ℝ) : ℝ :=
  if (ball U cutoff x).length = 0 then 0 else ((ball U cutoff x).map (l1 x)).sum / (ball U cutoff x).length

/-- The distance sensitivity of one sample with `normalize=False` (conformalizedmodel.py:1072-1078). -/
noncomputable def distance (U : List (List ℝ)) (cutoff : ℝ) (num : Nat) (x : List ℝ) : Option ℝ :=
  (nearest U x).map fun d => max (meanDistance U cutoff x) d / num

/-- The count of selected components of one feature (conformalizedmodel.py:612-616). -/
def countLeaf (x : NArr ℝ) (vs : List (Tree Bool)) : Except PyErr (Tree Nat) :=
  match vs with
  | [.leaf cont, .leaf dist] => .ok (.leaf (if cont && dist then x.shape.tail.foldr (· * ·) 1 else if dist then 1 else 0))
  | _ => .error .typeError

/-- The number of selected components (conformalizedmodel.py:609-622). -/
def number (cal : Tree (NArr ℝ)) (cont dist : Tree Bool) : Except PyErr Nat := (jaxMap countLeaf cal [cont, dist]).map fun N => (jaxLeaves N).sum

/-- The nearest other training point (conformalizedmodel.py:689-699): the second of the two smallest distances if the first, to the point
itself, is zero; infinite if there is only one point. -/
noncomputable def nearestOther (U : List (List ℝ)) (u : List ℝ) : Option ℝ :=
  match (U.map (l1 u)).insertionSort (· ≤ ·) with
  | d0 :: d1 :: _ => if d0 = 0 then some d1 else some d0
  | [d0] => if d0 = 0 then Option.none else some d0
  | [] => Option.none

/-- The cutoff (conformalizedmodel.py:689-702): a quantile of the distances to the nearest other points; not a number if there is only one
point. -/
noncomputable def cutoff (U : List (List ℝ)) (q : ℝ) : Option ℝ := (U.mapM (nearestOther U)).bind fun l => Quantile.quant l q

/-- The cutoff that calibration computes from the training data (conformalizedmodel.py:659-702). -/
noncomputable def fitCutoff (train : Tree (NArr ℝ)) (cont dist : Tree Bool) (q : ℝ) : Except PyErr (Option ℝ) := do
  let F ← fit train cont dist
  let T ← prepare F train
  .ok (cutoff (OneHot.uniq T) q)

/-- The whole distance sensitivity with `normalize=False` for training data, calibration data and queries (conformalizedmodel.py:609-622,
659-685, 998-1089) and a given cutoff: one number per sample. -/
noncomputable def distances (train cal : Tree (NArr ℝ)) (cont dist : Tree Bool) (cutoff : ℝ) (X : Tree (NArr ℝ)) : Except PyErr (List (Option ℝ)) := do
  let num ← number cal cont dist
  let F ← fit train cont dist
  let T ← prepare F train
  let Q ← prepare F X
  .ok (Q.map (distance (OneHot.uniq T) cutoff num))

end Dist
end Verif
