import Verif.Model.TreeArith
import Verif.Model.Quantile

/-!
# Model of the scalers

Mirrors `/repo/parametricmatrixmodels/preprocessing/standard_scaler.py`, `minmax_scaler.py` and `robust_scaler.py`. Data is a tree of
arrays; an entry is a number or `none` (NaN; infinities are not modelled). A number given by the user is an array without axes.
All methods are decorated with `jaxtyped` (scaler.py:16-31): the data must consist of arrays with a common first axis and at least one
more (`RealDataFixed`, typing.py:114-116), and a returned tree must have the same shapes as the data. Simplification: dtypes are not
modelled.
-/

namespace Verif
namespace Scalers
open Tree Loss

/-- An array of real numbers (typing.py:114-116). -/
abbrev RArr := NArr (Option ℝ)

/-- The annotation `RealDataFixed`: every array has the same first axis and at least one more (scaler.py:27-29; typing.py:114-116). -/
def dataOk (X : Tree RArr) : Bool := match jaxLeaves X with
  | [] => true
  | x :: xs => (x :: xs).all fun y => decide (2 ≤ y.shape.length) && decide (y.shape.head? = x.shape.head?)

/-- The column of an array below the index `i`: its entries along the first axis (standard_scaler.py:44-45). -/
def column (x : RArr) (i : List Nat) : List (Option ℝ) := (List.range (x.shape.headD 0)).map fun r => x.val (r :: i)

/-- All entries as numbers, or `none` if one of them is none (standard_scaler.py:44-45). -/
def allSome {A : Type} : List (Option A) → Option (List A)
  | [] => some []
  | Option.none :: _ => Option.none
  | some a :: l => (allSome l).map (a :: ·)

/-- A statistic along the first axis; not a number if an entry is not (standard_scaler.py:44-45; minmax_scaler.py:86-87; robust_scaler.py:163). -/
def stat0 (f : List ℝ → Option ℝ) (x : RArr) : RArr := ⟨x.shape.tail, fun i => (allSome (column x i)).bind f⟩

/-- The mean of a list (standard_scaler.py:44). -/
noncomputable def meanL (l : List ℝ) : Option ℝ := if l = [] then none else some (l.sum / l.length)

/-- `np.std`: the root of the mean squared deviation (standard_scaler.py:45). -/
noncomputable def stdL (l : List ℝ) : Option ℝ :=
  (meanL l).bind fun m => (meanL (l.map fun x => (x - m) ^ 2)).map Real.sqrt

/-- `np.min` of a list. (Without data `np.min` raises; here not a number.) (minmax_scaler.py:86). -/
noncomputable def minL : List ℝ → Option ℝ
  | [] => none
  | a :: l => some (l.foldl min a)

/-- `np.max` of a list (minmax_scaler.py:87). -/
noncomputable def maxL : List ℝ → Option ℝ
  | [] => none
  | a :: l => some (l.foldl max a)

/-- The check of the returned tree: the array has the shape of the one it was computed from (scaler.py:27-29; typing.py:114-116). -/
def checked (x z : RArr) : Except PyErr (Tree RArr) := if z.shape = x.shape then .ok (.leaf z) else .error .typeError

/-- `x + y`, `x - y`, `x * y`, `x / y` of arrays (minmax_scaler.py:124-125; standard_scaler.py:72). -/
noncomputable def aadd : RArr → RArr → Except PyErr RArr := NArr.bop (lift2 (· + ·))
/-- Subtraction (minmax_scaler.py:124; standard_scaler.py:72). -/
noncomputable def asub : RArr → RArr → Except PyErr RArr := NArr.bop (lift2 (· - ·))
/-- Multiplication (minmax_scaler.py:124; robust_scaler.py:228). -/
noncomputable def amul : RArr → RArr → Except PyErr RArr := NArr.bop (lift2 (· * ·))
/-- Division (minmax_scaler.py:124; standard_scaler.py:72). -/
noncomputable def adiv : RArr → RArr → Except PyErr RArr := NArr.bop fdiv

/-! ## Standard scaler -/

/-- The attributes of a `StandardScaler` (standard_scaler.py:16-23). -/
structure Std where
  mean : Option (Tree RArr)
  scale : Option (Tree RArr)

/-- `StandardScaler.fit` (standard_scaler.py:26-47). -/
noncomputable def Std.fit (X : Tree RArr) : Except PyErr Std :=
  if dataOk X then .ok ⟨some (map (stat0 meanL) X.norm), some (map (stat0 stdL) X.norm)⟩ else .error .typeError

/-- `(x - mean) / scale` (standard_scaler.py:71-76). -/
noncomputable def stdFwd (x : RArr) : List (Tree RArr) → Except PyErr (Tree RArr)
  | [.leaf m, .leaf s] => do checked x (← adiv (← asub x m) s)
  | _ => .error .typeError

/-- `x_scaled * scale + mean` (standard_scaler.py:101-106). -/
noncomputable def stdBwd (x : RArr) : List (Tree RArr) → Except PyErr (Tree RArr)
  | [.leaf m, .leaf s] => do checked x (← aadd (← amul x s) m)
  | _ => .error .typeError

/-- `StandardScaler.transform` (standard_scaler.py:49-76). -/
noncomputable def Std.transform (s : Std) (X : Tree RArr) : Except PyErr (Tree RArr) :=
  if dataOk X then
    match s.mean, s.scale with
    | some m, some sc => jaxMap stdFwd X [m, sc]
    | _, _ => .error .runtimeError
  else .error .typeError

/-- `StandardScaler.inverse_transform` (standard_scaler.py:78-106). -/
noncomputable def Std.inverse (s : Std) (X : Tree RArr) : Except PyErr (Tree RArr) :=
  if dataOk X then
    match s.mean, s.scale with
    | some m, some sc => jaxMap stdBwd X [m, sc]
    | _, _ => .error .runtimeError
  else .error .typeError

/-! ## Min-max scaler -/

/-- The attributes of a `MinMaxScaler` (minmax_scaler.py:64-66). A bound is a tree; `None` is the empty tree. -/
structure MinMax where
  minVal : Tree RArr
  maxVal : Tree RArr
  dmin : Option (Tree RArr)
  dmax : Option (Tree RArr)

/-- `np.isscalar`: a number or an array without axes (minmax_scaler.py:112, 116). -/
def isScalar : Tree RArr → Bool
  | .leaf x => x.shape.isEmpty
  | _ => false

/-- `MinMaxScaler.fit` (minmax_scaler.py:68-88). -/
noncomputable def MinMax.fit (s : MinMax) (X : Tree RArr) : Except PyErr MinMax :=
  if dataOk X then .ok { s with dmin := some (map (stat0 minL) X.norm), dmax := some (map (stat0 maxL) X.norm) }
  else .error .typeError

/-- A bound for every leaf of the data: a single number is repeated (minmax_scaler.py:112-119, 160-167). -/
def spread (b like : Tree RArr) : Tree RArr := match b with
  | .leaf v => if isScalar b then map (fun _ => v) like.norm else b
  | b => b

/-- The scaling of one array (minmax_scaler.py:121-129); with a bound `None` it is left alone. -/
noncomputable def mmFwd (x : RArr) : List (Tree RArr) → Except PyErr (Tree RArr)
  | [_, _, .none, _] => .ok (.leaf x)
  | [_, _, _, .none] => .ok (.leaf x)
  | [.leaf dn, .leaf dx, .leaf mn, .leaf mx] => do
    checked x (← aadd (← amul (← adiv (← asub x dn) (← asub dx dn)) (← asub mx mn)) mn)
  | _ => .error .typeError

/-- The inverse scaling of one array (minmax_scaler.py:169-179). -/
noncomputable def mmBwd (x : RArr) : List (Tree RArr) → Except PyErr (Tree RArr)
  | [_, _, .none, _] => .ok (.leaf x)
  | [_, _, _, .none] => .ok (.leaf x)
  | [.leaf dn, .leaf dx, .leaf mn, .leaf mx] => do
    checked x (← aadd (← amul (← adiv (← asub x mn) (← asub mx mn)) (← asub dx dn)) dn)
  | _ => .error .typeError

/-- `MinMaxScaler.transform` (minmax_scaler.py:90-135). -/
noncomputable def MinMax.transform (s : MinMax) (X : Tree RArr) : Except PyErr (Tree RArr) :=
  if dataOk X then
    match s.dmin, s.dmax with
    | some dn, some dx => jaxMap mmFwd X [dn, dx, spread s.minVal dn, spread s.maxVal dx]
    | _, _ => .error .runtimeError
  else .error .typeError

/-- `MinMaxScaler.inverse_transform` (minmax_scaler.py:137-185). -/
noncomputable def MinMax.inverse (s : MinMax) (X : Tree RArr) : Except PyErr (Tree RArr) :=
  if dataOk X then
    match s.dmin, s.dmax with
    | some dn, some dx => jaxMap mmBwd X [dn, dx, spread s.minVal dn, spread s.maxVal dx]
    | _, _ => .error .runtimeError
  else .error .typeError

/-! ## Robust scaler -/

/-- A leaf of the settings of a `RobustScaler`: a quantile level (a number, or an array of numbers) or a switch (robust_scaler.py:103-105). -/
inductive Opt where
  | level (q : RArr)
  | flag (b : Bool)

/-- The attributes of a `RobustScaler` (robust_scaler.py:103-108). -/
structure Robust where
  qlow : Tree Opt
  qhigh : Tree Opt
  centering : Tree Opt
  scaling : Tree Opt
  eps : ℝ
  scale : Option (Tree RArr)
  median : Option (Tree RArr)

/-- A Python number as an array without axes (robust_scaler.py:154, 163). -/
def num (c : ℝ) : RArr := ⟨[], fun _ => some c⟩

/-- `np.quantile(x, q, axis=0)`: the axes of the level come first; more than one axis is refused (robust_scaler.py:130, 141). -/
noncomputable def quantile0 (x q : RArr) : Except PyErr RArr :=
  if q.shape.length ≤ 1 then
    .ok ⟨q.shape ++ x.shape.tail, fun i => (allSome (column x (i.drop q.shape.length))).bind fun l =>
      (q.val (i.take q.shape.length)).bind fun q => Quantile.quant l q⟩
  else .error .valueError

open scoped Classical in
/-- The truth value of a setting (robust_scaler.py:131, 142, 153, 163). -/
noncomputable def truthy : Tree Opt → Except PyErr Bool
  | .leaf (.flag b) => .ok b
  | .leaf (.level q) => if q.shape = [] then .ok (!decide (q.val [] = some 0)) else .error .valueError
  | .none => .ok false
  | .list ts => .ok (!ts.isEmpty)
  | .tuple ts => .ok (!ts.isEmpty)
  | .dict ts => .ok (!ts.isEmpty)

/-- A quantile of one array, or `None` (robust_scaler.py:128-149). -/
noncomputable def quantLeaf (x : RArr) : List (Tree Opt) → Except PyErr (Tree RArr)
  | [q, scale] => match q with
    | .none => .ok .none
    | .leaf (.level q) => do if ← truthy scale then return .leaf (← quantile0 x q) else return .none
    | _ => .error .typeError
  | _ => .error .typeError

/-- The spread of one array, `1.0` where it is not scaled (robust_scaler.py:150-160). The three arguments are the two quantiles (each
possibly `None`) and the switch. -/
noncomputable def scaleLeaf (hi lo : Tree RArr) (scale : Tree Opt) : Except PyErr (Tree RArr) :=
  match hi, lo with
  | .leaf h, .leaf l => do if ← truthy scale then return .leaf (← asub h l) else return .leaf (num 1)
  | _, _ => .ok (.leaf (num 1))

/-- The spread of one array, from the two levels and the switch (robust_scaler.py:128-160). -/
noncomputable def fitScale (x : RArr) : List (Tree Opt) → Except PyErr (Tree RArr)
  | [ql, qh, sc] => do scaleLeaf (← quantLeaf x [qh, sc]) (← quantLeaf x [ql, sc]) sc
  | _ => .error .typeError

/-- The median of one array, `0.0` where it is not centred (robust_scaler.py:162-166). -/
noncomputable def fitMedian (x : RArr) : List (Tree Opt) → Except PyErr (Tree RArr)
  | [c] => do if ← truthy c then return .leaf (← quantile0 x (num (1 / 2))) else return .leaf (num 0)
  | _ => .error .typeError

/-- `RobustScaler.fit` (robust_scaler.py:110-168). Simplification: the three maps over the same structure that compute the two
quantiles and their difference are done leaf by leaf in one map. Data containing `None` is not modelled. -/
noncomputable def Robust.fit (s : Robust) (X : Tree RArr) : Except PyErr Robust :=
  if dataOk X then do
    let scale ← jaxMap fitScale X [s.qlow, s.qhigh, s.scaling]
    let median ← jaxMap fitMedian X [s.centering]
    return { s with scale := some scale, median := some median }
  else .error .typeError

open scoped Classical in
/-- `np.abs(scale) > eps` used as a condition: defined for arrays with exactly one entry; false for NaN (robust_scaler.py:195, 229). -/
noncomputable def bigger (scale : RArr) (eps : ℝ) : Except PyErr Bool :=
  match scale.entries with
  | [v] => .ok (match v with
    | some v => decide (|v| > eps)
    | Option.none => false)
  | _ => .error .valueError

/-- The scaling of one array (robust_scaler.py:192-197). -/
noncomputable def robFwd (eps : ℝ) (x : RArr) : List (Tree RArr) → Except PyErr (Tree RArr)
  | [.leaf m, .leaf s] => do
    if ← bigger s eps then checked x (← adiv (← asub x m) s) else checked x (← asub x m)
  | _ => .error .typeError

/-- The inverse scaling of one array (robust_scaler.py:226-231). -/
noncomputable def robBwd (eps : ℝ) (x : RArr) : List (Tree RArr) → Except PyErr (Tree RArr)
  | [.leaf m, .leaf s] => do
    if ← bigger s eps then checked x (← aadd (← amul x s) m) else checked x (← aadd x m)
  | _ => .error .typeError

/-- `RobustScaler.transform` (robust_scaler.py:170-201). -/
noncomputable def Robust.transform (s : Robust) (X : Tree RArr) : Except PyErr (Tree RArr) :=
  if dataOk X then
    match s.scale, s.median with
    | some sc, some m => jaxMap (robFwd s.eps) X [m, sc]
    | _, _ => .error .runtimeError
  else .error .typeError

/-- `RobustScaler.inverse_transform` (robust_scaler.py:203-235). -/
noncomputable def Robust.inverse (s : Robust) (X : Tree RArr) : Except PyErr (Tree RArr) :=
  if dataOk X then
    match s.scale, s.median with
    | some sc, some m => jaxMap (robBwd s.eps) X [m, sc]
    | _, _ => .error .runtimeError
  else .error .typeError

end Scalers
end Verif
