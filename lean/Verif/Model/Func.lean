import Verif.Model.Reshape

/-!
# Function modules

Mirrors `/repo/parametricmatrixmodels/modules/funcbase.py` lines 94-185: a module whose subclass gives a function `f` of the whole batch. Arrays are `NArr`; dtypes and runtime annotations are not
modelled. `f` is a parameter and may raise.
-/

namespace Verif
namespace Func

variable {V S : Type}

/-- `np.zeros(s)` (funcbase.py:153-157). -/
def zeros [Zero V] (s : List Nat) : NArr V := ⟨s, fun _ => 0⟩

mutual
/-- The dummy input (funcbase.py:150-158) of a normalised tree of shapes: one sample of zeros for every shape. `None` and `()` count as shapes (`is_shape_leaf`, tree_util.py:948-969): the first makes
`(1,) + None` raise, the second is the shape of a number. -/
def dummy [Zero V] : Tree (List Nat) → Except PyErr (Tree (NArr V))
  | .leaf s => .ok (.leaf (zeros (1 :: s)))
  | .none => .error .typeError
  | .list ts => match dummyL ts with
    | .error e => .error e
    | .ok r => .ok (.list r)
  | .tuple [] => .ok (.leaf (zeros [1]))
  | .tuple (t :: ts) => match dummyL (t :: ts) with
    | .error e => .error e
    | .ok r => .ok (.tuple r)
  | .dict kvs => match dummyD kvs with
    | .error e => .error e
    | .ok r => .ok (.dict r)
/-- For the members of a container (funcbase.py:150-160). -/
def dummyL [Zero V] : List (Tree (List Nat)) → Except PyErr (List (Tree (NArr V)))
  | [] => .ok []
  | t :: ts => match dummy t with
    | .error e => .error e
    | .ok r => match dummyL ts with
      | .error e => .error e
      | .ok rs => .ok (r :: rs)
/-- For the entries of a dictionary (funcbase.py:150-160). -/
def dummyD [Zero V] : List (Str × Tree (List Nat)) → Except PyErr (List (Str × Tree (NArr V)))
  | [] => .ok []
  | (k, t) :: ts => match dummy t with
    | .error e => .error e
    | .ok r => match dummyD ts with
      | .error e => .error e
      | .ok rs => .ok ((k, r) :: rs)
end

/-- `get_shapes(pytree, axis=slice(1, None))` (tree_util.py:77-99): the shapes without the first axis. -/
def sampleShapes (t : Tree (NArr V)) : Tree (List Nat) := Tree.map (fun x => x.shape.tail) t.norm

/-- `get_output_shape` (funcbase.py:132-170). -/
def outShape [Zero V] (f : Tree (NArr V) → Except PyErr (Tree (NArr V))) (s : Tree (List Nat)) : Except PyErr (Tree (List Nat)) :=
  match dummy s.norm with
  | .error e => .error e
  | .ok x => match f x with
    | .error _ => .error .runtimeError
    | .ok y => .ok (sampleShapes y)

/-- The callable (funcbase.py:94-115). -/
def call (f : Tree (NArr V) → Except PyErr (Tree (NArr V))) (data : Tree (NArr V)) (state : S) : Except PyErr (Tree (NArr V) × S) :=
  match f data with
  | .error e => .error e
  | .ok y => .ok (y, state)

/-- `compile` (funcbase.py:117-130): the module itself does not change. -/
def compile [Zero V] (f : Tree (NArr V) → Except PyErr (Tree (NArr V))) (s : Tree (List Nat)) : Except PyErr Unit :=
  match outShape f s with
  | .error e => .error e
  | .ok _ => .ok ()

end Func
end Verif
