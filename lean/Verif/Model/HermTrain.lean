import Verif.Model.Adam
import Verif.Model.Observables
import Verif.Model.NdArr

/-!
# Training of arrays of Hermitian matrices

Models what the training does with the parameters of `AffineHermitianMatrix`, `ExpectationValueSum` and
`TransitionAmplitudeSum` (`/repo/parametricmatrixmodels/modules/affinehermitianmatrix.py`, `expectationvaluesum.py`,
`transitionamplitudesum.py`; `training.py`, lines 128-299): arrays whose last two axes are matrices, their random initial
values, the check of `set_params`, and the update of real and complex arrays in one run. Numbers are exact.
-/

namespace Verif
namespace HermTrain
open Train
open scoped ComplexConjugate

/-- A parameter array, real or complex; an entry is given by its multi-index (training.py:34-63, `ParamArray`). -/
inductive PArr where
  | real (a : List Nat → ℝ)
  | cplx (a : List Nat → ℂ)

/-- Exchanging the last two entries of a multi-index: what `.transpose((0, 2, 1))` (affinehermitianmatrix.py:197, 253, 308)
and `.transpose((0, 1, 3, 2))` (expectationvaluesum.py:197, 273, 334; transitionamplitudesum.py:198, 274, 335) do. -/
def swapLast : List Nat → List Nat
  | [a, b] => [b, a]
  | a :: l => a :: swapLast l
  | [] => []

/-- `(Ms + Ms.conj().transpose(...)) / 2.0` of an array (affinehermitianmatrix.py:197, 253; expectationvaluesum.py:197, 273;
transitionamplitudesum.py:198, 274). -/
noncomputable def hermPart (M : List Nat → ℂ) : List Nat → ℂ := fun i => (M i + conj (M (swapLast i))) / 2

/-- The random initial matrices: real and imaginary part are drawn with different keys, scaled and made Hermitian
(affinehermitianmatrix.py:237-253; expectationvaluesum.py:246-273; transitionamplitudesum.py:247-274). `re` and `im` stand for
the drawn (complex) numbers. -/
noncomputable def fresh (mag : ℝ) (re im : List Nat → ℂ) : List Nat → ℂ := hermPart fun i => mag * (re i + Complex.I * im i)

/-- `np.allclose` for one entry, with its default tolerances (affinehermitianmatrix.py:109, 308; expectationvaluesum.py:124, 334;
transitionamplitudesum.py:124, 335). -/
def close (a b : ℂ) : Prop := ‖a - b‖ ≤ 1e-8 + 1e-5 * ‖b‖

open Classical in
/-- The check for Hermitian matrices in `set_params` of an array of shape `shape` (affinehermitianmatrix.py:307-311;
expectationvaluesum.py:333-337; transitionamplitudesum.py:334-338); the check of the shape is in `Model/SerializeLib.lean`.
Saved models are loaded through it. -/
noncomputable def setParams (shape : List Nat) (M : List Nat → ℂ) : Except PyErr (List Nat → ℂ) :=
  if ∀ i ∈ NArr.indices shape, close (M i) (conj (M (swapLast i))) then .ok M else .error .valueError

/-- The matrices of an array of shape `(p, n, n)` (affinehermitianmatrix.py:142-163). -/
def mats (p n : Nat) (M : List Nat → ℂ) : List (Hermitian.Mat n n) :=
  (List.range p).map fun k => .of fun i j => M [k, i, j]

/-- The matrices of an array of shape `(q, l, n, n)` (expectationvaluesum.py:170-173; transitionamplitudesum.py:170-173). -/
def families (q l n : Nat) (M : List Nat → ℂ) : Fin q → Fin l → Hermitian.Mat n n := fun k m => .of fun i j => M [k, m, i, j]

/-- `update` of `adam` (`cplx = false`, used if no array of the model is complex) and of `complex_adam`: the formula is chosen by
the dtype of the array (training.py:156-175, 238-268; model.py:1238). Arrays of one optimiser state have one dtype;
`adam` is not used with complex arrays. -/
noncomputable def update (cplx : Bool) (lr : Nat → ℝ) (b1 b2 eps clip : ℝ) (g : PArr) (s : OptState PArr) : OptState PArr :=
  match g, s with
  | .cplx g, ⟨.cplx x, .cplx m, .cplx v, e⟩ =>
    let r := Adam.updateC lr b1 b2 eps clip g ⟨x, m, v, e⟩
    ⟨.cplx r.params, .cplx r.m, .cplx r.v, r.epoch⟩
  | .real g, ⟨.real x, .real m, .real v, e⟩ =>
    let r := if cplx then Adam.updateRinC lr b1 b2 eps clip g ⟨x, m, v, e⟩ else Adam.update lr b1 b2 eps clip g ⟨x, m, v, e⟩
    ⟨.real r.params, .real r.m, .real r.v, r.epoch⟩
  | _, s => s

end HermTrain
end Verif
