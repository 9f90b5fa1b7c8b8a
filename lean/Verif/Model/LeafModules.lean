import Verif.Model.Elementwise
import Verif.Lemmas.TreeDec

/-!
# Model of the modules `PReLU` and `Constant` as objects

Mirrors the classes of `/repo/parametricmatrixmodels/modules/prelu.py` and `constant.py`: what `compile`, `set_params` and `get_output_shape` do with the attributes. What the callables compute is
`Verif/Model/Elementwise.lean`. A tree of shapes has the shapes as leaves (an empty tuple is the shape `()`). The random numbers are a parameter `draw` (in the code every leaf has its own key); whether an
array is complex is a parameter as well. A missing attribute of a value (`AttributeError`) appears as `TypeError`.
-/

namespace Verif
namespace LeafModules
open Tree Reshape Elementwise

variable {V : Type}

/-- The index into the array before `squeeze` (prelu.py:110). -/
def unsqueeze : List Nat → List Nat → List Nat
  | [], _ => []
  | 1 :: s, i => 0 :: unsqueeze s i
  | _ :: s, i => i.headD 0 :: unsqueeze s i.tail

/-- `a.squeeze()`: axes of length 1 are dropped (prelu.py:110). -/
def squeeze (a : NArr V) : NArr V := ⟨a.shape.filter (· ≠ 1), fun i => a.val (unsqueeze a.shape i)⟩

/-- The attributes of a `PReLU` (prelu.py:48-81). -/
structure PReLU (V : Type) where
  single : Bool
  a : Option (Tree (NArr V))
  inShape : Option (Tree (List Nat))

/-- `PReLU(single_parameter=single)` (prelu.py:72-81). -/
def PReLU.new (single : Bool) : PReLU V := ⟨single, Option.none, Option.none⟩

/-- `is_ready` (prelu.py:87-88). -/
def PReLU.ready (m : PReLU V) : Bool := m.a.isSome && m.inShape.isSome

/-- `params[0]` (prelu.py:110). -/
def firstItem : Tree (NArr V) → Except PyErr (NArr V)
  | .tuple (.leaf a :: _) => .ok a
  | .list (.leaf a :: _) => .ok a
  | .tuple [] => .error .indexError
  | .list [] => .error .indexError
  | .dict _ => .error .keyError
  | .leaf a => match a.shape with
    | [] => .error .indexError
    | _ :: s => .ok ⟨s, fun i => a.val (0 :: i)⟩
  | _ => .error .typeError

/-- `len(params)` (prelu.py:220). -/
def length : Tree (NArr V) → Except PyErr Nat
  | .tuple ts => .ok ts.length
  | .list ts => .ok ts.length
  | .dict ts => .ok ts.length
  | .leaf a => match a.shape with
    | [] => .error .typeError
    | n :: _ => .ok n
  | .none => .error .typeError

/-- The callable applied to the parameters of the module (prelu.py:90-134). -/
def PReLU.call [Zero V] [Mul V] [LE V] [DecidableLE V] (m : PReLU V) (data : Tree (NArr V)) : Except PyErr (Tree (NArr V)) :=
  match m.a with
  | Option.none => .error .typeError
  | some p =>
    if m.single then match firstItem p with
      | .error e => .error e
      | .ok a => Tree.jaxMap (fun x _ => preluLeaf x (squeeze a)) data ([] : List (Tree (NArr V)))
    else preluCall (.tree p) data

/-- `compile` (prelu.py:136-191). -/
def PReLU.compile (draw : List Nat → List Nat → V) (m : PReLU V) (s : Tree (List Nat)) : PReLU V × Option PyErr :=
  match m.a, m.inShape with
  | some _, some t => (m, if t.norm = s.norm then Option.none else some .valueError)
  | _, _ => ({ m with
      inShape := some s
      a := some (if m.single then .tuple [.leaf ⟨[1], draw [1]⟩] else map (fun sh => ⟨sh, draw sh⟩) s.norm) }, Option.none)

/-- The check of `set_params` (prelu.py:217-250). -/
def PReLU.check (single : Bool) (s : Tree (List Nat)) (p : Tree (NArr V)) : Except PyErr Unit :=
  if single then match length p with
    | .error e => .error e
    | .ok n => if n ≠ 1 then .error .valueError else match firstItem p with
      | .error e => .error e
      | .ok a => if a.shape = [1] then .ok () else .error .valueError
  else if !sameStruct p.norm s.norm then .error .valueError
  else if (jaxLeaves p).map (·.shape) = jaxLeaves s then .ok () else .error .valueError

/-- `set_params` (prelu.py:215-252): checked only if the module is ready. -/
def PReLU.setParams (m : PReLU V) (p : Tree (NArr V)) : PReLU V × Option PyErr :=
  match m.a, m.inShape with
  | some _, some s => match PReLU.check m.single s p with
    | .ok _ => ({ m with a := some p }, Option.none)
    | .error e => (m, some e)
  | _, _ => ({ m with a := some p }, Option.none)

/-- `get_output_shape` (prelu.py:193-194). -/
def PReLU.outputShape (_ : PReLU V) (s : Tree (List Nat)) : Tree (List Nat) := s

/-- What a user does with a `PReLU` (prelu.py:136-191, 215-252). -/
inductive PReLU.Op (V : Type) where
  | compile (draw : List Nat → List Nat → V) (s : Tree (List Nat))
  | setParams (p : Tree (NArr V))

/-- One operation; exceptions are caught by the user (prelu.py:136-191, 215-252). -/
def PReLU.step (m : PReLU V) : PReLU.Op V → PReLU V
  | .compile draw s => (m.compile draw s).1
  | .setParams p => (m.setParams p).1

/-- A sequence of operations (prelu.py:136-191, 215-252). -/
def PReLU.run (m : PReLU V) (ops : List (PReLU.Op V)) : PReLU V := ops.foldl PReLU.step m

/-- Whether Python takes a value for true; the leaves are booleans (constant.py:99-107, 175-187). -/
def truthy : Tree Bool → Bool
  | .leaf b => b
  | .none => false
  | .list ts => !ts.isEmpty
  | .tuple ts => !ts.isEmpty
  | .dict ts => !ts.isEmpty

/-- The attributes of a `Constant` that are looked at later (constant.py:109-114). -/
structure Const (V : Type) where
  value : Option (Tree (NArr V))
  trainable : Bool
  shape : Option (Tree (List Nat))
  real : Option (Tree Bool)

/-- `check_real` on the whole tree (constant.py:99-107). -/
def checkReal (isReal : NArr V → Bool) (c : Tree (NArr V)) (real : Tree Bool) : Except PyErr Unit :=
  match Tree.jaxMap (γ := Unit) (fun k us => match us with
    | [u] => if truthy u && !isReal k then .error .valueError else .ok (.leaf ())
    | _ => .error .typeError) c [real] with
  | .ok _ => .ok ()
  | .error e => .error e

/-- `real` after the constructor for a given constant (constant.py:94-97). -/
def realOf (isReal : NArr V → Bool) (c : Tree (NArr V)) : Option (Tree Bool) → Tree Bool
  | Option.none => map isReal c.norm
  | some (.leaf b) => map (fun _ => b) c.norm
  | some t => t

/-- `Constant.__init__` (constant.py:30-114). A number is an array of shape `()`. -/
def Const.init (isReal : NArr V → Bool) (constant : Option (Tree (NArr V))) (trainable : Bool) (shape : Option (Tree (List Nat))) (real : Option (Tree Bool)) : Except PyErr (Const V) :=
  match constant with
  | Option.none =>
    match trainable, shape with
    | true, Option.none => .error .valueError
    | true, some s => .ok ⟨Option.none, true, some s, some (real.getD (map (fun _ => true) s.norm))⟩
    | false, s => .ok ⟨Option.none, false, s, real⟩
  | some c =>
    let expected := map (·.shape) c.norm
    let sh : Except PyErr (Tree (List Nat)) := match shape with
      | some s => if expected = s.norm then .ok s else .error .valueError
      | Option.none => .ok expected
    match sh with
    | .error e => .error e
    | .ok s => match checkReal isReal c (realOf isReal c real) with
      | .error e => .error e
      | .ok _ => .ok ⟨some c, trainable, some s, some (realOf isReal c real)⟩

/-- `is_ready` (constant.py:123-124). -/
def Const.ready (m : Const V) : Bool := m.value.isSome

/-- `init_constant` (constant.py:175-187). -/
def drawLeaf (draw : Bool → List Nat → List Nat → V) (sh : List Nat) (us : List (Tree Bool)) : Except PyErr (Tree (NArr V)) := match us with
  | [u] => .ok (.leaf ⟨sh, draw (truthy u) sh⟩)
  | _ => .error .typeError

/-- The random constant (constant.py:170-224): a boolean `real` is copied to all places (170-173), otherwise it must have a value at each place. -/
def freshConst (draw : Bool → List Nat → List Nat → V) (s : Tree (List Nat)) (real : Tree Bool) : Except PyErr (Tree (NArr V) × Tree Bool) :=
  let real' := match real with
    | .leaf b => map (fun _ => b) s.norm
    | t => t
  match Tree.jaxMap (drawLeaf draw) s [real'] with
  | .error e => .error e
  | .ok c => .ok (c, real')

/-- `compile` (constant.py:155-224). If `real` fits no shape, the exception comes after a boolean `real` was replaced, which changes nothing then. Without a shape nothing is made. -/
def Const.compile (draw : Bool → List Nat → List Nat → V) (m : Const V) : Const V × Option PyErr :=
  match m.value with
  | some _ => (m, Option.none)
  | Option.none =>
    if !m.trainable then (m, some .valueError)
    else match m.real with
      | Option.none => (m, some .valueError)
      | some real => match m.shape with
        | Option.none => match real with
          | .leaf _ => ({ m with real := Option.none }, Option.none)
          | .none => (m, Option.none)
          | _ => (m, some .valueError)
        | some s => match freshConst draw s real with
          | .error e => (m, some e)
          | .ok (c, r) => ({ m with value := some c, real := some r }, Option.none)

/-- `set_params` (constant.py:243-244). -/
def Const.setParams (m : Const V) (c : Tree (NArr V)) : Const V := { m with value := some c }

/-- `set_hyperparameters({"constant": c})`, the way to set the constant that the documentation gives (constant.py:48-52, 155-161, 237-238; basemodule.py:507-512). -/
def Const.setConstant (m : Const V) (c : Tree (NArr V)) : Const V := { m with value := some c }

/-- The attribute `trainable`, which a user may change (basemodule.py:60-78; model.py:92-95). -/
def Const.setTrainable (m : Const V) (b : Bool) : Const V := { m with trainable := b }

/-- `get_output_shape` (constant.py:226-227); `None` before the shape is known. -/
def Const.outputShape (m : Const V) : Option (Tree (List Nat)) := m.shape

/-- The callable applied to the parameters of the module (constant.py:126-153). -/
def Const.call {W : Type} (m : Const V) (data : Tree (NArr W)) : Except PyErr (Tree (NArr V)) := match m.value with
  | Option.none => .error .indexError
  | some c => constantCall c data

end LeafModules
end Verif
