import Verif.Model.ModelLib
import Verif.Spec.ModelFile
import Verif.Spec.Serialize

/-!
# Library modules and files of models
-/

namespace Verif
namespace ModelSpec
open Tree Ser ModelSer SerSpec
open ForwardSpec (KeysOk)

/-- The parameters of a compiled `PReLU`: one number, or one per feature. -/
def PreluFits (a : Attrs Attr) : Prop :=
  a .a = .none ∨ a .inputShape = .none ∨ (a .singleParameter = vBool true ∧ ∃ x, a .a = .tuple [vArr x] ∧ x.shape = [1]) ∨
    (a .singleParameter = vBool false ∧ fitsShape (a .a).norm (a .inputShape).norm = true)

/-- The objects of a class that come back as part of a model: the attributes of the class with values that can be written; `AffineHermitianMatrix`, `AffineTensor`, `ExpectationValueSum`
and `TransitionAmplitudeSum` have to be compiled, a `Bias` too unless it is real and not scalar; `ConcatenateLeaves` and `MatMul` have the default separator. -/
def Held (l : Lib) (m : MObj Attr) : Prop :=
  match l with
  | .activation _ => Only [.args, .kwargs] m.attrs ∧ SerSpec.Writable [.args, .kwargs] m.attrs
  | .comment => Only [.comment] m.attrs ∧ SerSpec.Writable [.comment] m.attrs
  | .concat => Only [.axis, .separator] m.attrs ∧ SerSpec.Writable [.axis] m.attrs ∧ m.attrs .separator = vStr "."
  | .eigenvalues => Only [.numEig, .which] m.attrs ∧ SerSpec.Writable [.numEig, .which] m.attrs
  | .eigenvectors => Only [.numEig, .which] m.attrs ∧ SerSpec.Writable [.numEig, .which] m.attrs
  | .eigensystem => Only [.numEig, .which] m.attrs ∧ SerSpec.Writable [.numEig, .which] m.attrs
  | .reshape => Only [.shape] m.attrs ∧ SerSpec.Writable [.shape] m.attrs
  | .flatten => Only [.shape] m.attrs ∧ SerSpec.Writable [.shape] m.attrs
  | .treeFlatten => Only [] m.attrs
  | .treeKey => Only [.keypaths, .separator] m.attrs ∧ SerSpec.Writable [.keypaths, .separator] m.attrs
  | .affHerm => Reach Ser.affHerm affHermNew affHermComp m.attrs ∧ m.attrs .Ms ≠ .none
  | .affTensor => Reach Ser.affTensor affTensorNew affTensorComp m.attrs ∧ m.attrs .Ms ≠ .none
  | .expVal => Reach (Ser.expVal "ExpectationValueSum") expValNew expValComp m.attrs ∧ m.attrs .Ds ≠ .none
  | .transAmp => Reach (Ser.expVal "TransitionAmplitudeSum") expValNew expValComp m.attrs ∧ m.attrs .Ds ≠ .none
  | .bias => BiasLegal m.attrs ∧ (m.attrs .bias = .none → m.attrs .real = vBool true ∧ m.attrs .scalar = vBool false)
  | .constant => Only [.constant, .shape, .initMagnitude, .real, .name] m.attrs ∧ SerSpec.Writable [.shape, .initMagnitude, .real, .name] m.attrs
  | .einsum => Only [.params, .einsumStr, .dimMap, .initMagnitude, .real, .inputShape] m.attrs ∧
      SerSpec.Writable [.einsumStr, .dimMap, .initMagnitude, .real, .inputShape] m.attrs
  | .matmul => Only [.params, .einsumStr, .dimMap, .initMagnitude, .real, .inputShape, .outputShape, .pathOrder, .separator] m.attrs ∧
      SerSpec.Writable [.einsumStr, .dimMap, .initMagnitude, .real, .inputShape] m.attrs ∧ SerSpec.Writable [.outputShape, .pathOrder, .separator] m.attrs ∧
      m.attrs .separator = vStr "."
  | .prelu => Only [.a, .singleParameter, .initMagnitude, .inputShape, .real] m.attrs ∧ SerSpec.Writable [.singleParameter, .initMagnitude, .inputShape, .real] m.attrs ∧
      PreluFits m.attrs

variable {α : Type}

/-- The value is a rectangular arrangement of objects with this shape; a dictionary is one object. -/
inductive HasShape : Tree α → List Nat → Prop
  | leaf (a : α) : HasShape (.leaf a) []
  | none : HasShape .none []
  | dict (kvs : List (Str × Tree α)) : HasShape (.dict kvs) []
  | list (ts : List (Tree α)) (s : List Nat) : (∀ t ∈ ts, HasShape t s) → (ts = [] → s = []) → HasShape (.list ts) (ts.length :: s)
  | tuple (ts : List (Tree α)) (s : List Nat) : (∀ t ∈ ts, HasShape t s) → (ts = [] → s = []) → HasShape (.tuple ts) (ts.length :: s)

/-- No tuple outside dictionaries. -/
inductive NoTuple : Tree α → Prop
  | leaf (a : α) : NoTuple (.leaf a)
  | none : NoTuple .none
  | dict (kvs : List (Str × Tree α)) : NoTuple (.dict kvs)
  | list (ts : List (Tree α)) : (∀ t ∈ ts, NoTuple t) → NoTuple (.list ts)

end ModelSpec
end Verif
