import Verif.Model.Compare
import Verif.Model.TrainArgs
import Verif.Lemmas.TreeDec

/-!
# The checks of the arguments of `calibrate`

Mirrors `/repo/parametricmatrixmodels/conformal/conformalizedmodel.py` lines 217-471: the comparison of the data with the model and the flags that calibration goes on with.

Data is represented by the tree of the shapes of its arrays. The model is represented by its input and output shape (`None` before `compile`) and the containers of its parameters. The warnings of the sanity
check (361-420) are left out; it takes the first axes of the data, which fails for arrays with less than two axes. The annotations are not checked at run time
(see `Verif/Model/ConfFile.lean`).
-/

namespace Verif
namespace CalArgs
open Tree Compare TrainArgs

/-- The wrapped model (conformalizedmodel.py:262-305). -/
structure Mdl where
  inShape : Tree (List Nat)
  outShape : Tree (List Nat)
  params : Tree Unit

/-- A flag, or a tree of flags (conformalizedmodel.py:308-359, 419-471). -/
abbrev Flags := Bool ⊕ Tree Bool

/-- The arguments of `calibrate` that are checked (conformalizedmodel.py:217-252). -/
structure Args where
  X : Tree (List Nat)
  Y : Option (Tree (List Nat))
  Xunc : Option (Tree (List Nat))
  Yunc : Option (Tree (List Nat))
  Xtrain : Option (Tree (List Nat))
  params : Flags
  input : Flags
  dist : Flags
  cont : Option (Tree Bool)
  strat : Option Flags
  skip : Bool

/-- What calibration goes on with: `_continuous_features`, `_stratified_bias_corrections` and the three selections (conformalizedmodel.py:308-471). -/
structure Plan where
  cont : Tree Bool
  strat : Flags
  params : Tree Bool
  input : Tree Bool
  dist : Tree Bool

/-- A tree by structure and shapes (tree_util.py:1049-1063, 1097-1115). -/
def shaped (t : Tree (List Nat)) : Shaped (Tree Unit) := ⟨map (fun _ => ()) t.norm, jaxLeaves t⟩

/-- `get_shapes(t, slice(1, None))` (tree_util.py:77-99; conformalizedmodel.py:273, 282, 291, 300). -/
def rest (t : Tree (List Nat)) : Tree (List Nat) := map (List.drop 1) t.norm

/-- `if not cond: raise ValueError` (conformalizedmodel.py:254-307). -/
def need (b : Bool) : Except PyErr Unit := if b then .ok () else .error .valueError

/-- The same for a condition that may raise (conformalizedmodel.py:272-307). -/
def needE (b : Except PyErr Bool) : Except PyErr Unit := match b with
  | .error e => .error e
  | .ok b => need b

/-- A check of an argument that may be left out (conformalizedmodel.py:254-307). -/
def ifGiven {A : Type} (o : Option A) (f : A → Except PyErr Unit) : Except PyErr Unit := match o with
  | some x => f x
  | Option.none => .ok ()

/-- The targets, or the features (conformalizedmodel.py:289-307). -/
def checkOutput (m : Mdl) (a : Args) : Except PyErr Unit := match a.Y with
  | some Y => needE (Compare.shapesEqual m.outShape (rest Y))
  | Option.none => needE (Compare.shapesEqual m.outShape (rest a.X))

/-- The checks of the data (conformalizedmodel.py:254-307). -/
def checkData (m : Mdl) (a : Args) : Except PyErr Unit := do
  ifGiven a.Y fun Y => needE (uniformEqual0 (shaped a.X) (shaped Y))
  ifGiven a.Yunc fun u => ifGiven a.Y fun Y => need (TrainArgs.shapesEqual 0 (shaped Y) (shaped u))
  ifGiven a.Xunc fun u => need (TrainArgs.shapesEqual 0 (shaped a.X) (shaped u))
  needE (Compare.shapesEqual m.inShape (rest a.X))
  ifGiven a.Xtrain fun T => needE (Compare.shapesEqual m.inShape (rest T))
  checkOutput m a

/-- `continuous_features` (conformalizedmodel.py:308-322): all features are continuous unless told otherwise. -/
def contOf (a : Args) : Except PyErr (Tree Bool) :=
  match a.cont with
  | some c => if sameStruct c.norm a.X.norm then .ok c else .error .valueError
  | Option.none => .ok (map (fun _ => true) a.X.norm)

/-- `check_stratified_bias_correction_validity` (conformalizedmodel.py:341-348). -/
def stratLeaf (s : Bool) (us : List (Tree Bool)) : Except PyErr (Tree Unit) := match us with
  | [.leaf c] => if s && c then .error .valueError else .ok (.leaf ())
  | _ => .error .typeError

/-- `stratified_bias_corrections` (conformalizedmodel.py:324-359). -/
def stratOf (a : Args) (cont : Tree Bool) : Except PyErr Flags :=
  match a.strat with
  | Option.none => .ok (.inl false)
  | some (.inl b) => .ok (.inl b)
  | some (.inr s) =>
    if !sameStruct s.norm a.X.norm then .error .valueError
    else match jaxMap stratLeaf s [cont] with
      | .error e => .error e
      | .ok _ => .ok (.inr s)

/-- The sanity check (conformalizedmodel.py:361-417): `x[:MAX_N, :MAX_K]` needs two axes. -/
def sanity (a : Args) : Except PyErr Unit :=
  if a.skip then .ok ()
  else if (jaxLeaves (a.Xtrain.getD a.X)).all fun s => decide (2 ≤ s.length) then .ok () else .error .indexError

mutual
/-- A tree of shapes taken apart with `is_leaf=is_shape_leaf` (tree_util.py:948-969): `None` and `()` are shapes, too. -/
def mark : Tree (List Nat) → Tree Unit
  | .leaf _ => .leaf ()
  | .none => .leaf ()
  | .tuple [] => .leaf ()
  | .tuple (t :: ts) => .tuple (markL (t :: ts))
  | .list ts => .list (markL ts)
  | .dict kvs => .dict (markD kvs)
/-- For the members of a container (tree_util.py:948-969). -/
def markL : List (Tree (List Nat)) → List (Tree Unit)
  | [] => []
  | t :: ts => mark t :: markL ts
/-- For the entries of a dictionary (tree_util.py:948-969). -/
def markD : List (Str × Tree (List Nat)) → List (Str × Tree Unit)
  | [] => []
  | (k, t) :: ts => (k, mark t) :: markD ts
end

/-- A selection (conformalizedmodel.py:419-471): a flag is copied to all places, a tree must fit. -/
def flagsOf (places : Tree Unit) : Flags → Except PyErr (Tree Bool)
  | .inl b => .ok (map (fun _ => b) places)
  | .inr t => if sameStruct t.norm places then .ok t else .error .valueError

/-- The part of `calibrate` before the first prediction (conformalizedmodel.py:217-471). -/
def plan (m : Mdl) (a : Args) : Except PyErr Plan := do
  checkData m a
  let cont ← contOf a
  let strat ← stratOf a cont
  sanity a
  let params ← flagsOf (norm m.params) a.params
  let input ← flagsOf (mark m.inShape.norm) a.input
  let dist ← flagsOf (mark m.inShape.norm) a.dist
  return ⟨cont, strat, params, input, dist⟩

end CalArgs
end Verif
