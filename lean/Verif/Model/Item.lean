import Verif.Model.Edit

/-! # `model[key]` (model.py) -/

namespace Verif.Edit

/-- The keys of `model[key]` (model.py:1269). Simplification: slices have no step. -/
inductive ItemKey where
  | all
  | path (ks : List Key)
  | key (k : Key)
  | cut (a b : Option Int)

/-- `__getitem__` (model.py:1267-1299): `None` gives all modules, a tuple is a path into them, a name needs a dictionary and an index or slice a list or tuple. -/
def getItemT (t : Tree Nat) : ItemKey → Except PyErr (Tree Nat)
  | .all => .ok t
  | .path ks => getKeys t ks
  | .key (.str s) => match t with
    | .dict _ => getKey t (.str s)
    | _ => .error .keyError
  | .key (.int i) => match t with
    | .list _ | .tuple _ => getKey t (.int i)
    | _ => .error .keyError
  | .cut a b => match t with
    | .list ts => .ok (.list (slice ts a b))
    | .tuple ts => .ok (.tuple (slice ts a b))
    | _ => .error .keyError

end Verif.Edit
