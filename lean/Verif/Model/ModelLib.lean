import Verif.Model.ModelFile
import Verif.Model.SerializeLib

/-!
# The library's modules in a saved model, and the file

The classes of `Verif/Model/SerializeLib.lean` as modules of a model, and what `Model.save` and `Model.load` (`/repo/parametricmatrixmodels/model.py` lines 1743-1825) do to the data of a
model. The file itself is not modelled, only what NumPy makes of the values: lists and tuples become arrays, which have to be rectangular, and `tolist` makes lists of them.
-/

namespace Verif
namespace ModelSer
open Tree Ser

/-- The classes of modules of the library whose objects can come back (`LowRankAffineHermitianMatrix` cannot, `C40_low_rank_refuted`), and the activations by name (modules/__init__.py:1-177). -/
inductive Lib where
  | activation (nm : Str) | comment | concat | eigenvalues | eigenvectors | eigensystem | reshape | flatten | treeFlatten | treeKey
  | affHerm | affTensor | expVal | transAmp | bias | constant | einsum | matmul | prelu
  deriving DecidableEq

/-- The accessors of the class (`Verif/Model/SerializeLib.lean`) (model.py:1682-1688). -/
def Lib.cls : Lib → Cls Attr
  | .activation _ => Ser.activation
  | .comment => commentCls
  | .concat => concatLeaves
  | .eigenvalues => eigenCls "Eigenvalues"
  | .eigenvectors => eigenCls "Eigenvectors"
  | .eigensystem => eigenCls "Eigensystem"
  | .reshape => reshapeCls
  | .flatten => reshapeCls
  | .treeFlatten => Ser.treeFlatten
  | .treeKey => Ser.treeKey
  | .affHerm => Ser.affHerm
  | .affTensor => Ser.affTensor
  | .expVal => Ser.expVal "ExpectationValueSum"
  | .transAmp => Ser.expVal "TransitionAmplitudeSum"
  | .bias => biasCls
  | .constant => constantCls
  | .einsum => einsumCls
  | .matmul => matmulCls
  | .prelu => preluCls

/-- The Python module of the activations (_autogenerated_activationfuncs.py:1-1832). -/
def activationModule : Str := "parametricmatrixmodels.modules._autogenerated_activationfuncs".toList

/-- Name of the class and of its file (model.py:1594-1597). -/
def Lib.names : Lib → String × String
  | .activation _ => ("", "")
  | .comment => ("Comment", "parametricmatrixmodels.modules.comment")
  | .concat => ("ConcatenateLeaves", "parametricmatrixmodels.modules.concatenateleaves")
  | .eigenvalues => ("Eigenvalues", "parametricmatrixmodels.modules.eigenvalues")
  | .eigenvectors => ("Eigenvectors", "parametricmatrixmodels.modules.eigenvectors")
  | .eigensystem => ("Eigensystem", "parametricmatrixmodels.modules.eigensystem")
  | .reshape => ("Reshape", "parametricmatrixmodels.modules.reshape")
  | .flatten => ("Flatten", "parametricmatrixmodels.modules.flatten")
  | .treeFlatten => ("TreeFlatten", "parametricmatrixmodels.modules.treeflatten")
  | .treeKey => ("TreeKey", "parametricmatrixmodels.modules.treekey")
  | .affHerm => ("AffineHermitianMatrix", "parametricmatrixmodels.modules.affinehermitianmatrix")
  | .affTensor => ("AffineTensor", "parametricmatrixmodels.modules.affinetensor")
  | .expVal => ("ExpectationValueSum", "parametricmatrixmodels.modules.expectationvaluesum")
  | .transAmp => ("TransitionAmplitudeSum", "parametricmatrixmodels.modules.transitionamplitudesum")
  | .bias => ("Bias", "parametricmatrixmodels.modules.bias")
  | .constant => ("Constant", "parametricmatrixmodels.modules.constant")
  | .einsum => ("Einsum", "parametricmatrixmodels.modules.einsum")
  | .matmul => ("MatMul", "parametricmatrixmodels.modules.matmul")
  | .prelu => ("PReLU", "parametricmatrixmodels.modules.prelu")

/-- `m.__class__.__name__` and `m.__module__` (model.py:1594-1597). -/
def Lib.key : Lib → Str × Str
  | .activation nm => (nm, activationModule)
  | l => (l.names.1.toList, l.names.2.toList)

/-- All classes but the activations (modules/__init__.py:1-177). -/
def Lib.others : List Lib :=
  [.comment, .concat, .eigenvalues, .eigenvectors, .eigensystem, .reshape, .flatten, .treeFlatten, .treeKey, .affHerm, .affTensor, .expVal, .transAmp, .bias, .constant, .einsum,
    .matmul, .prelu]

/-- `getattr(sys.modules[module_module], module_typename)` (model.py:1681-1688). (Every name is taken for an activation in the file of the activations.) -/
def Lib.find (n : Str × Str) : Option Lib :=
  if n.2 = activationModule then some (.activation n.1) else Lib.others.find? fun l => l.key = n

/-- `is_ready` of the classes (e.g. affinehermitianmatrix.py:126-127, bias.py:105-106, constant.py:123-124, einsum.py:623-624, prelu.py:87-88; the others are always ready). -/
def Lib.ready (l : Lib) (a : Attrs Attr) : Bool :=
  match l with
  | .affHerm => !(a .Ms).isNone
  | .affTensor => !(a .Ms).isNone
  | .expVal => !(a .Ds).isNone
  | .transAmp => !(a .Ds).isNone
  | .bias => !(a .bias).isNone
  | .constant => !(a .constant).isNone
  | .einsum => !(a .inputShape).isNone
  | .matmul => !(a .inputShape).isNone
  | .prelu => !(a .a).isNone && !(a .inputShape).isNone
  | _ => true

/-- An object with these attributes (basemodule.py:876-892). -/
def withAttrs {K : Type} (m : MObj K) (a : Attrs K) : MObj K := { m with attrs := a }

/-- The library's modules, written by version `w` and read by version `r` of the package (basemodule.py:736-892). -/
def libOps (w r : Str) : Ops (Lib × MObj Attr) (Data Attr) where
  cls := fun x => x.1.key
  create := fun n => match Lib.find n with
    | some l => .ok (l, l.cls.new)
    | Option.none => .error .keyError
  ser := fun x => .ok (Ser.serialize w x.1.cls x.2)
  deser := fun strict x d => (Ser.deserialize r strict x.1.cls x.2 d).map (Prod.mk x.1)
  getParams := fun x => x.1.cls.getParams x.2.attrs
  setParams := fun x v => (x.1.cls.setParams x.2.attrs v).map fun a => (x.1, withAttrs x.2 a)
  getState := fun x => .ok (x.1.cls.getState x.2.attrs)
  setState := fun x v => (x.1.cls.setState x.2.attrs v).map fun a => (x.1, withAttrs x.2 a)
  ready := fun x => x.1.ready x.2.attrs

/-! ## The file -/

variable {α σ D A : Type}

mutual
/-- The shape of the array `np.asanyarray` makes of a value whose leaves are texts or dictionaries (model.py:1760, 1801). -/
def axes : Tree α → Except PyErr (List Nat)
  | .leaf _ => .ok []
  | .none => .ok []
  | .dict _ => .ok []
  | .list ts => match axesL ts with
    | .error e => .error e
    | .ok s => .ok (ts.length :: s)
  | .tuple ts => match axesL ts with
    | .error e => .error e
    | .ok s => .ok (ts.length :: s)
/-- The common shape of the members (model.py:1760, 1801). -/
def axesL : List (Tree α) → Except PyErr (List Nat)
  | [] => .ok []
  | t :: ts => match axes t with
    | .error e => .error e
    | .ok s => match ts with
      | [] => .ok s
      | _ :: _ => match axesL ts with
        | .error e => .error e
        | .ok s' => if s = s' then .ok s else .error .valueError
end

mutual
/-- `ndarray.tolist`: lists instead of tuples, objects as they are (model.py:1808-1812). -/
def untuple : Tree α → Tree α
  | .list ts => .list (untupleL ts)
  | .tuple ts => .list (untupleL ts)
  | t => t
/-- `untuple` of the members (model.py:1808-1812). -/
def untupleL : List (Tree α) → List (Tree α)
  | [] => []
  | t :: ts => untuple t :: untupleL ts
end

/-- Writing a value with `np.savez` and reading it with `np.load` and `tolist` (model.py:1760, 1799-1812). -/
def fileTree (t : Tree α) : Except PyErr (Tree α) :=
  match axes t with
  | .error e => .error e
  | .ok _ => .ok (untuple t)

/-- The data of a model after `save` and the conversions of `load` (model.py:1743-1825): the structures, the model's own data and the name are kept as objects, the optimiser states as a list of
dictionaries. -/
def fileData (d : MData D A) : Except PyErr (MData D A) :=
  match fileTree d.typenames, fileTree d.modnames, fileTree d.parts with
  | .ok tn, .ok mn, .ok ps => .ok { d with typenames := tn, modnames := mn, parts := ps }
  | .error e, _, _ => .error e
  | _, .error e, _ => .error e
  | _, _, .error e => .error e

/-- `M.save(file)` (model.py:1743-1760): what is in the file. -/
def save (ops : Ops σ D) (pkg : Str) (M : Mdl σ A) : Except PyErr (MData D A) :=
  match ModelSer.serialize ops pkg M with
  | .error e => .error e
  | .ok d => fileData d

/-- `M₀.load(file)` (model.py:1782-1825). -/
def load (ops : Ops σ D) (pkg : Str) (strict : Bool) (M₀ : Mdl σ A) (d : MData D A) : Except PyErr (Mdl σ A) := ModelSer.deserialize ops pkg strict M₀ d

end ModelSer
end Verif
