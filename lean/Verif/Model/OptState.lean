import Verif.Model.JaxTree

/-!
# Model of saving the optimiser state

Mirrors `OptimizerState` (`/repo/parametricmatrixmodels/training.py` lines 33-63) and its use in `Model.serialize` and
`Model.deserialize` (`/repo/parametricmatrixmodels/model.py` lines 1609-1622 and 1713-1724). Arrays are values of an arbitrary type.
-/

namespace Verif
namespace OptState
open Tree

/-- `OptimizerState` (training.py:34-39): parameters, both moments (or `None`) and the counter. -/
structure St (A : Type) where
  params : A
  m : Option A
  v : Option A
  epoch : Int
deriving DecidableEq

/-- What the dictionary of a packed state holds (training.py:44-63). -/
inductive Field (A : Type) where
  | arr (a : A)
  | none
  | int (n : Int)
deriving DecidableEq

variable {A P : Type}

/-- The value of a moment (training.py:49-50). -/
def Field.ofOpt : Option A → Field A
  | some a => .arr a
  | Option.none => .none

/-- `OptimizerState.serialize` (training.py:44-52). -/
def serialize (s : St A) : List (Str × Field A) :=
  [("params".toList, .arr s.params), ("m".toList, .ofOpt s.m), ("v".toList, .ofOpt s.v), ("epoch".toList, .int s.epoch)]

/-- Reading a field that is an array or `None`. The code does not check the types of the fields; other types are errors here (training.py:60-61). -/
def Field.toOpt : Field A → Except PyErr (Option A)
  | .arr a => .ok (some a)
  | .none => .ok Option.none
  | .int _ => .error .typeError

/-- `data[k]` (training.py:59-62). -/
def get (d : List (Str × Field A)) (k : String) : Except PyErr (Field A) := match d.lookup k.toList with
  | some f => .ok f
  | Option.none => .error .keyError

/-- `OptimizerState.deserialize` (training.py:54-63). -/
def deserialize (d : List (Str × Field A)) : Except PyErr (St A) := do
  let p ← get d "params"
  let m ← get d "m"
  let v ← get d "v"
  let e ← get d "epoch"
  let m' ← m.toOpt
  let v' ← v.toOpt
  match p, e with
  | .arr a, .int n => .ok ⟨a, m', v', n⟩
  | _, _ => .error .typeError

/-- Python's truth value of the stored tree: `None` and empty containers are false (model.py:1619). -/
def truthy : Option (Tree (St A)) → Bool
  | Option.none => false
  | some .none => false
  | some (.list ts) => !ts.isEmpty
  | some (.tuple ts) => !ts.isEmpty
  | some (.dict ts) => !ts.isEmpty
  | some (.leaf _) => true

/-- What `Model.serialize` stores (model.py:1611-1622); the structure stored is that of the parameters. -/
def pack (s : Option (Tree (St A))) : Option (List (List (Str × Field A))) := match s with
  | Option.none => Option.none
  | some t => if truthy s then some (t.jaxLeaves.map serialize) else Option.none

/-- What `Model.deserialize` restores (model.py:1713-1724), after `reset` made the state `None`. `params` stands for the stored
structure. -/
def unpack (params : Tree P) (d : Option (List (List (Str × Field A)))) : Except PyErr (Option (Tree (St A))) := match d with
  | Option.none => .ok Option.none
  | some l => match l.mapM deserialize with
    | .error e => .error e
    | .ok l' => match unflatten params l' with
      | .error e => .error e
      | .ok t => .ok (some t)

end OptState
end Verif
