import Verif.Model.TreeArith
import Verif.Model.Conformal

/-!
# Model of the parameter and input sensitivities

Mirrors `/repo/parametricmatrixmodels/conformal/conformalizedmodel.py` lines 816-996 and 1778-1786, 1892-1929, and the counting of
lines 577-600 and the interquartile ranges of lines 626-637 and 652-657. The gradients are given: they have, below each output, a tree like the parameters (or inputs), with leaves of shape
`(samples, *output, *parameter)` (`none` entries are not finite). Simplifications: dtypes, batching options and messages are not modelled;
the counts taken at calibration are recomputed from the same parameters.
-/

namespace Verif
namespace Sens
open Tree

variable {𝕜 : Type} [RCLike 𝕜] {V W : Type}

/-- `handle_naninf` on one array (conformalizedmodel.py:1779-1786). -/
def clean (x : NArr (Option 𝕜)) : NArr 𝕜 := NArr.uop (·.getD 0) x

/-- `np.sum(np.abs(df) ** 2, axis=tuple(range(-k, 0)))` (conformalizedmodel.py:1922-1924). -/
noncomputable def sumLast (k : Nat) (z : NArr 𝕜) : Except PyErr (NArr ℝ) :=
  if k ≤ z.shape.length then
    .ok ⟨z.shape.take (z.shape.length - k), fun i =>
      ((NArr.indices (z.shape.drop (z.shape.length - k))).map fun j => ‖z.val (i ++ j)‖ ^ 2).sum⟩
  else .error .valueError

/-- One leaf of the scaled gradients (conformalizedmodel.py:1922-1924). -/
noncomputable def sumLeaf (z : NArr 𝕜) (vs : List (Tree (NArr 𝕜))) : Except PyErr (Tree (NArr ℝ)) :=
  match vs with
  | [.leaf x] => (sumLast x.shape.length z).map .leaf
  | _ => .error .typeError

/-- `jax.tree.reduce(operator.add, ·)` on the leaves (conformalizedmodel.py:1919): no leaves raise a `TypeError`. -/
noncomputable def addAll : List (NArr ℝ) → Except PyErr (NArr ℝ)
  | [] => .error .typeError
  | x :: xs => xs.foldlM (fun a b => NArr.bop (· + ·) a b) x

/-- `accumulate_sum_sq_over_output_leaves` for one sample (conformalizedmodel.py:1892-1928). -/
noncomputable def sumSq (df scale : Tree (NArr 𝕜)) : Except PyErr (NArr ℝ) := do
  let m ← TreeArith.bin (· * ·) df scale
  let s ← jaxMap sumLeaf m [scale]
  addAll (jaxLeaves s)

/-- Sample `k` of an array (conformalizedmodel.py:1892-1928). -/
def row (k : Nat) (x : NArr V) : NArr V := ⟨x.shape.tail, fun i => x.val (k :: i)⟩

/-- The number of samples `jax.vmap` maps over: the common first extent of the leaves (conformalizedmodel.py:1892). -/
def batch (df : Tree (NArr V)) : Except PyErr Nat :=
  match jaxLeaves df with
  | [] => .error .valueError
  | x :: xs => match x.shape with
    | [] => .error .valueError
    | n :: _ => if xs.all fun y => decide (y.shape.head? = some n) then .ok n else .error .valueError

/-- `partial(jax.vmap, in_axes=(None, 0, None))` of a function of the gradients (conformalizedmodel.py:1892): the scales are not mapped. -/
def vmap (f : Tree (NArr V) → Except PyErr (NArr W)) (df : Tree (NArr V)) : Except PyErr (NArr W) := do
  let n ← batch df
  let z ← f (map (row 0) df)
  let rs ← (List.range n).mapM fun k => f (map (row k) df)
  .ok ⟨n :: z.shape, fun i => match i with
    | [] => z.val []
    | k :: o => match rs[k]? with
      | some r => r.val o
      | Option.none => z.val o⟩

/-- The gradients below one output (conformalizedmodel.py:884-891, 954-961). -/
noncomputable def perOutput (scale : Tree (NArr 𝕜)) (_ : List Nat) (vs : List (Tree (NArr 𝕜))) : Except PyErr (Tree (NArr ℝ)) :=
  match vs with
  | [df] => (vmap (sumSq · scale) df).map .leaf
  | _ => .error .typeError

/-- The common part of both sensitivities (conformalizedmodel.py:881-893, 951-963): `num` is a Python integer, so that `1.0 / 0`
raises; `scalar_mul` raises a type error unless all leaves have the same shape. -/
noncomputable def sensitivity (shapes : Tree (List Nat)) (grads scale : Tree (NArr (Option 𝕜))) (num : Nat) : Except PyErr (Tree (NArr ℝ)) := do
  let r ← jaxMap (perOutput (map clean scale.norm)) shapes [map clean grads.norm]
  if num = 0 then .error .zeroDivision
  else if TreeArith.equalShapes r then .ok (map (NArr.uop (· * (1 / (num : ℝ)))) r.norm)
  else .error .typeError

/-- Keep a parameter or replace it by zeros (conformalizedmodel.py:870-874). -/
def selectLeaf (p : NArr (Option 𝕜)) (vs : List (Tree Bool)) : Except PyErr (Tree (NArr (Option 𝕜))) :=
  match vs with
  | [.leaf s] => .ok (.leaf (if s then p else NArr.uop (fun _ => some 0) p))
  | _ => .error .typeError

/-- The size of a selected parameter (conformalizedmodel.py:595). -/
def sizeLeaf (p : NArr (Option 𝕜)) (vs : List (Tree Bool)) : Except PyErr (Tree Nat) :=
  match vs with
  | [.leaf s] => .ok (.leaf (if s then p.size else 0))
  | _ => .error .typeError

/-- `parameter_sensitivity` with `normalize=False` (conformalizedmodel.py:816-898) and the count of lines 592-600. -/
noncomputable def parameterSensitivity (shapes : Tree (List Nat)) (grads params : Tree (NArr (Option 𝕜))) (sel : Tree Bool) :
    Except PyErr (Tree (NArr ℝ)) := do
  let scale ← jaxMap selectLeaf params [sel]
  let sizes ← jaxMap sizeLeaf params [sel]
  sensitivity shapes grads scale (jaxLeaves sizes).sum

/-- `compute_iqr` for one component (conformalizedmodel.py:636-637); no samples give NaN. -/
noncomputable def iqr (l : List ℝ) : Option 𝕜 :=
  match Quantile.quant l (3 / 4), Quantile.quant l (1 / 4) with
  | some q75, some q25 => some ((q75 - q25 : ℝ) : 𝕜)
  | _, _ => Option.none

/-- `compute_iqr` (conformalizedmodel.py:626-637): zeros for features that are categorical or not selected. -/
noncomputable def iqrLeaf (x : NArr ℝ) (vs : List (Tree Bool)) : Except PyErr (Tree (NArr (Option 𝕜))) :=
  match vs with
  | [.leaf cont, .leaf s] => .ok (.leaf ⟨x.shape.tail, fun i => if cont && s then iqr (Conformal.column x i) else some 0⟩)
  | _ => .error .typeError

/-- The number of components of a selected feature (conformalizedmodel.py:580-582). -/
def countLeaf (x : NArr ℝ) (vs : List (Tree Bool)) : Except PyErr (Tree Nat) :=
  match vs with
  | [.leaf cont, .leaf s] => .ok (.leaf (if cont && s then x.shape.tail.foldr (· * ·) 1 else 0))
  | _ => .error .typeError

/-- The uncertainty of a selected feature (conformalizedmodel.py:970). -/
def uncLeaf (u : NArr (Option 𝕜)) (vs : List (Tree Bool)) : Except PyErr (Tree (NArr (Option 𝕜))) :=
  match vs with
  | [.leaf cont, .leaf s] => .ok (.leaf (if cont && s then u else NArr.uop (fun _ => some 0) u))
  | _ => .error .typeError

/-- `input_sensitivity` with `normalize=False` (conformalizedmodel.py:900-996) for given training data, calibration data (only its shapes
matter), flags and uncertainties. -/
noncomputable def inputSensitivity (shapes : Tree (List Nat)) (grads : Tree (NArr (Option 𝕜))) (train cal : Tree (NArr ℝ)) (cont sel : Tree Bool)
    (unc : Option (Tree (NArr (Option 𝕜)))) : Except PyErr (Tree (NArr ℝ)) := do
  let scale ← jaxMap iqrLeaf train [cont, sel]
  let counts ← jaxMap countLeaf cal [cont, sel]
  let dy ← sensitivity shapes grads scale (jaxLeaves counts).sum
  match unc with
  | Option.none => .ok dy
  | some u => do
    let u ← jaxMap uncLeaf u [cont, sel]
    let dyu ← sensitivity shapes grads u (jaxLeaves counts).sum
    TreeArith.bin (· + ·) dy dyu

end Sens
end Verif
