import Verif.Model.Edit

/-!
# `+` on models, with the sharing of list objects

Models `Model.__add__` (`/repo/parametricmatrixmodels/model.py` lines 1503-1519) on a heap of list objects: `modules` of a model
is a reference to a Python list, or a tuple (a value). Simplification: the entries of a container are modules (references), not
nested containers. The dictionary case raises in `insert_module` (see `insertT`) and is omitted.
-/

namespace Verif.Edit

/-- The attribute `modules` (model.py:124-134). -/
inductive Cont where
  | listRef (r : Nat)
  | tupleVal (xs : List Nat)
  deriving DecidableEq

/-- A model object: its container, whether it holds compiled shapes and caches (model.py:126-134, 192-207). -/
structure HMdl where
  modules : Cont
  compiled : Bool
  deriving DecidableEq

/-- List objects and model objects (model.py:124-134, 1340-1501). -/
structure Heap where
  lists : Nat → List Nat
  models : Nat → HMdl

/-- The entries of a container (model.py:1340-1501). -/
def entries (h : Heap) : Cont → List Nat
  | .listRef r => h.lists r
  | .tupleVal xs => xs

/-- `model.modules`, as the user sees it (model.py:265-279). -/
def modulesOf (h : Heap) (a : Nat) : List Nat := entries h (h.models a).modules

/-- `append_module` on model `c` (model.py:1383-1406, 1362-1381): `reset`, then `list.insert` on the shared list object or a new
tuple. -/
def hAppend (h : Heap) (c m : Nat) : Heap :=
  match (h.models c).modules with
  | .listRef r =>
    { lists := upd h.lists r (pyInsert (h.lists r) ((h.lists r).length : Int) m)
      models := upd h.models c ⟨.listRef r, false⟩ }
  | .tupleVal xs =>
    { lists := h.lists
      models := upd h.models c
        ⟨.tupleVal (slice xs none (some (xs.length : Int)) ++ m :: slice xs (some (xs.length : Int)) none), false⟩ }

/-- `a + m` (model.py:1517-1519): the new model object `c` is built from the container of `a` (model.py:127 stores it as is),
then appended to. -/
def hAdd (h : Heap) (a m c : Nat) : Heap :=
  hAppend { h with models := upd h.models c ⟨(h.models a).modules, false⟩ } c m

end Verif.Edit
