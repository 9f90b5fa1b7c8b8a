import Mathlib.Analysis.SpecialFunctions.Log.Basic
import Mathlib.Analysis.SpecialFunctions.Sqrt
import Mathlib.Analysis.SpecialFunctions.Trigonometric.Basic
import Mathlib.Analysis.SpecialFunctions.Trigonometric.Arctan
import Verif.Model.AxisActivations
import Verif.Model.Prebuilt
import Verif.Lemmas.TreeDec

/-!
# Networks of linear layers

Mirrors sequential models (`/repo/parametricmatrixmodels/sequentialmodel.py`) whose modules are `LinearNN`s (`modules/linearnn.py`), and the elementwise activations of
`modules/_autogenerated_activationfuncs.py` on real numbers, by the formulas that JAX documents. (Simplification: exact real numbers.)
-/

namespace Verif.Network
open Prebuilt AxisActivations

/-- Elementwise activation modules with the arguments they are constructed with (_autogenerated_activationfuncs.py:9-443, 541-560, 750-769, 845-864, 921-940, 978-997, 1054-1073, 1662-1681, 1738-1757, 1776-1795; activationbase.py:30-44). Missing arguments have
the defaults of JAX: a slope of 0.01, `alpha = 1`, `b = 4`. -/
inductive Act where
  | relu | relu6 | sigmoid | softplus | softSign | silu | logSigmoid | leakyRelu (slope : ℝ) | hardSigmoid | hardSilu | hardTanh | elu (alpha : ℝ) | squarePlus (b : ℝ) | identity
  | abs | clip (lo hi : ℝ) | sin | cos | sparsePlus | sparseSigmoid | celu (alpha : ℝ) | selu | mish | exp | square | tanh | arctan | gelu

/-- `func` of the modules on one entry (_autogenerated_activationfuncs.py: ReLU 23-24, ReLU6 42-43, Sigmoid 61-62, Softplus 80-81, SoftSign 137-138, SiLU and Swish 156-157 and 175-176, LogSigmoid 194-195,
LeakyReLU 213-214, HardSigmoid 232-233, HardSiLU and HardSwish 251-252 and 270-271, HardTanh 289-290, ELU 308-309, SquarePlus 403-404, Identity 441-442, Abs 555-556, Clip 935-936, Cos 992-993, Sin 1676-1677, SparsePlus 99-100, SparseSigmoid 118-119, CELU 327-328, SELU 346-347,
Mish 422-423, Exp 1068-1069, Square 1752-1753, Tanh 1790-1791, ArcTan 764-765 and ATan 859-860, GELU 365-366 with JAX's default approximation). -/
noncomputable def Act.fn : Act → ℝ → ℝ
  | .relu, x => max x 0
  | .relu6, x => min (max x 0) 6
  | .sigmoid, x => AxisActivations.sigmoid x
  | .softplus, x => Real.log (1 + Real.exp x)
  | .softSign, x => x / (|x| + 1)
  | .silu, x => x * AxisActivations.sigmoid x
  | .logSigmoid, x => -Real.log (1 + Real.exp (-x))
  | .leakyRelu a, x => if 0 ≤ x then x else a * x
  | .hardSigmoid, x => min (max (x + 3) 0) 6 / 6
  | .hardSilu, x => x * (min (max (x + 3) 0) 6 / 6)
  | .hardTanh, x => if 1 < x then 1 else if x < -1 then -1 else x
  | .elu a, x => if 0 < x then x else a * (Real.exp x - 1)
  | .squarePlus b, x => (x + Real.sqrt (x ^ 2 + b)) / 2
  | .identity, x => x
  | .abs, x => |x|
  | .clip lo hi, x => min (max x lo) hi
  | .sin, x => Real.sin x
  | .cos, x => Real.cos x
  | .sparsePlus, x => if x ≤ -1 then 0 else if 1 ≤ x then x else (x + 1) ^ 2 / 4
  | .sparseSigmoid, x => if x ≤ -1 then 0 else if 1 ≤ x then 1 else (x + 1) / 2
  | .celu a, x => if 0 < x then x else a * (Real.exp (x / a) - 1)
  | .selu, x => 1.0507009873554804934193349852946 * if 0 < x then x else 1.6732632423543772848170429916717 * (Real.exp x - 1)
  | .mish, x => x * Real.tanh (Real.log (1 + Real.exp x))
  | .exp, x => Real.exp x
  | .square, x => x ^ 2
  | .tanh, x => Real.tanh x
  | .arctan, x => Real.arctan x
  | .gelu, x => x * ((1 + Real.tanh (Real.sqrt (2 / Real.pi) * (x + 0.044715 * x ^ 3))) / 2)

variable {K : Type}

/-- Compiling a sequential model of `LinearNN`s: each for the shape the one before it declares (sequentialmodel.py:134-147; linearnn.py:58-140). An error of a module is raised as a `RuntimeError`. -/
def netCompile (draw : Nat → List Nat → K) (drawB : List Nat → List Nat → K) : List (Mdl (LinHyper K) (Layers K) (Tree (List Nat))) → Tree (List Nat) →
    Except PyErr (List (Mdl (LinHyper K) (Layers K) (Tree (List Nat))) × Tree (List Nat))
  | [], s => .ok ([], s)
  | m :: ms, s => match Prebuilt.compile (linOps draw drawB) m s with
    | (_, .error _) => .error .runtimeError
    | (m', .ok _) => match linShape m.hyper s with
      | .error e => .error e
      | .ok s' => match netCompile draw drawB ms s' with
        | .error e => .error e
        | .ok r => .ok (m' :: r.1, r.2)

/-- The forward pass: the data goes through the modules in turn (sequentialmodel.py:265-334). (Simplification: `LinearNN` has no state and uses no random numbers in calls.) -/
def netCall [CommSemiring K] : List (Layers K) → Tree (NArr K) → Except PyErr (Tree (NArr K))
  | [], d => .ok d
  | ly :: lys, d => match linCall ly d with
    | .error e => .error e
    | .ok d' => netCall lys d'

end Verif.Network
