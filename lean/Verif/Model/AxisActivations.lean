import Verif.Model.Elementwise
import Mathlib.Analysis.SpecialFunctions.Log.Basic
import Mathlib.Analysis.SpecialFunctions.Pow.Real

/-!
# Activation functions that combine several entries of an array

Mirrors the classes of `/repo/parametricmatrixmodels/modules/_autogenerated_activationfuncs.py` whose JAX function is not elementwise, constructed without arguments (so
that JAX's defaults apply): the last axis for `GLU`, `Softmax`, `LogSoftmax` and `Standardize`, all axes for `LogSumExp`, `AMax` and `AMin`. The functions of JAX are written down as JAX computes
them, over the reals. Arrays without axes cannot occur, the data of a module has a batch axis.
-/

namespace Verif
namespace AxisActivations
open NArr Elementwise

/-- The entries that differ from the entry `i` in the last index only (_autogenerated_activationfuncs.py:460-461, `axis=-1`). -/
def lane {V : Type} (x : NArr V) (i : List Nat) : List V := (List.range (x.shape.getLastD 0)).map fun j => x.val (i.dropLast ++ [j])

/-- A function of the entries along the last axis that gives as many (_autogenerated_activationfuncs.py:460-461, `axis=-1`). -/
noncomputable def alongLast (f : List ℝ → List ℝ) (x : NArr ℝ) : NArr ℝ := ⟨x.shape, fun i => (f (lane x i)).getD (i.getLastD 0) 0⟩

/-- The largest entry (`x.max(axis, keepdims=True)` of _autogenerated_activationfuncs.py:460-461). -/
noncomputable def top (xs : List ℝ) : ℝ := xs.tail.foldl max (xs.headD 0)

/-- `jax.nn.softmax` along one axis (`Softmax.func`, _autogenerated_activationfuncs.py:460-461): the maximum is subtracted before taking exponentials. -/
noncomputable def softmaxLane (xs : List ℝ) : List ℝ := xs.map fun v => Real.exp (v - top xs) / (xs.map fun w => Real.exp (w - top xs)).sum

/-- `jax.nn.log_softmax` along one axis (`LogSoftmax.func`, _autogenerated_activationfuncs.py:479-480). -/
noncomputable def logSoftmaxLane (xs : List ℝ) : List ℝ := xs.map fun v => (v - top xs) - Real.log (xs.map fun w => Real.exp (w - top xs)).sum

/-- `jax.nn.standardize` along one axis (`Standardize.func`, _autogenerated_activationfuncs.py:517-518): the variance is the mean square minus the squared mean, `epsilon` is 1e-5. -/
noncomputable def standardizeLane (xs : List ℝ) : List ℝ :=
  let mean := xs.sum / xs.length
  let variance := (xs.map fun v => v ^ 2).sum / xs.length - mean ^ 2
  xs.map fun v => (v - mean) * (Real.sqrt (variance + 1 / 100000))⁻¹

/-- `Softmax.func` (_autogenerated_activationfuncs.py:460-461). -/
noncomputable def softmax : NArr ℝ → NArr ℝ := alongLast softmaxLane

/-- `LogSoftmax.func` (_autogenerated_activationfuncs.py:479-480). -/
noncomputable def logSoftmax : NArr ℝ → NArr ℝ := alongLast logSoftmaxLane

/-- `Standardize.func` (_autogenerated_activationfuncs.py:517-518). -/
noncomputable def standardize : NArr ℝ → NArr ℝ := alongLast standardizeLane

/-- `LogSumExp.func` (_autogenerated_activationfuncs.py:498-499): one number for the whole array. -/
noncomputable def logSumExp (x : NArr ℝ) : NArr ℝ := ⟨[], fun _ => Real.log (x.entries.map fun w => Real.exp (w - top x.entries)).sum + top x.entries⟩

/-- `jax.nn.sigmoid` (`Sigmoid.func`, _autogenerated_activationfuncs.py:61-62). -/
noncomputable def sigmoid (v : ℝ) : ℝ := 1 / (1 + Real.exp (-v))

/-- `GLU.func` (_autogenerated_activationfuncs.py:384-385): the first half of the last axis times the sigmoid of the second half; JAX asserts that there are two halves. -/
noncomputable def gluLeaf (x : NArr ℝ) : Except PyErr (NArr ℝ) :=
  let n := x.shape.getLastD 0
  if n % 2 = 0 then
    .ok ⟨x.shape.dropLast ++ [n / 2], fun i => x.val i * sigmoid (x.val (i.dropLast ++ [i.getLastD 0 + n / 2]))⟩
  else .error .assertionError

/-- The callable of a `GLU` (activationbase.py:100-120; _autogenerated_activationfuncs.py:370-385). -/
noncomputable def gluCall (data : Tree (NArr ℝ)) : Except PyErr (Tree (NArr ℝ)) :=
  Tree.jaxMap (fun x _ => match gluLeaf x with
    | .ok y => .ok (.leaf y)
    | .error e => .error e) data ([] : List (Tree (NArr ℝ)))

/-- The smallest entry (`jax.numpy.amin`, _autogenerated_activationfuncs.py:650-651). -/
noncomputable def bottom (xs : List ℝ) : ℝ := xs.tail.foldl min (xs.headD 0)

/-- `AMax.func` and `AMin.func` without arguments (_autogenerated_activationfuncs.py:631-632, 650-651): one number for the whole array; NumPy and JAX refuse arrays without entries. -/
noncomputable def extreme (pick : List ℝ → ℝ) (x : NArr ℝ) : Except PyErr (NArr ℝ) :=
  if x.entries.isEmpty then .error .valueError else .ok ⟨[], fun _ => pick x.entries⟩

/-- The callable of an `AMax` or `AMin` (activationbase.py:100-120; _autogenerated_activationfuncs.py:616-651). -/
noncomputable def extremeCall (pick : List ℝ → ℝ) (data : Tree (NArr ℝ)) : Except PyErr (Tree (NArr ℝ)) :=
  Tree.jaxMap (fun x _ => match extreme pick x with
    | .ok y => .ok (.leaf y)
    | .error e => .error e) data ([] : List (Tree (NArr ℝ)))

/-- `OneHot.func` (_autogenerated_activationfuncs.py:536-537), which needs `num_classes`: a new last axis. -/
noncomputable def oneHot (classes : Nat) (x : NArr ℝ) : NArr ℝ := ⟨x.shape ++ [classes], fun i => if x.val i.dropLast = i.getLastD 0 then 1 else 0⟩

end AxisActivations
end Verif
