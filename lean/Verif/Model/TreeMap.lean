import Verif.Model.JaxTree

/-!
# `jax.tree.map` with several trees

Models `jax.tree.map(f, t, u₁, …, uₙ)` as used in `/repo/parametricmatrixmodels/tree_util.py` lines 600-870 and in
`/repo/parametricmatrixmodels/preprocessing/*.py`. JAX itself is not part of the repository; this is its documented behaviour:
`t` is flattened, every other tree is flattened up to the structure of `t` (which must be a prefix of it, else `ValueError`), then
`f` is applied to corresponding parts and the result has the structure of `t`, with sorted dictionaries.
-/

namespace Verif
namespace Tree

variable {α β γ : Type}

mutual
/-- `jax.tree.structure(t).flatten_up_to(u)` for a normalised `t`, each part next to the leaf of `t` it belongs to (model.py:329). -/
def zipPre : Tree α → Tree β → Except PyErr (Tree (α × Tree β))
  | .leaf a, u => .ok (.leaf (a, u))
  | .none, .none => .ok .none
  | .list ts, .list us => match zipPreL ts us with
    | .ok r => .ok (.list r)
    | .error e => .error e
  | .tuple ts, .tuple us => match zipPreL ts us with
    | .ok r => .ok (.tuple r)
    | .error e => .error e
  | .dict ts, .dict us =>
    if ts.length ≠ us.length then .error .valueError
    else match zipPreD ts us with
      | .ok r => .ok (.dict r)
      | .error e => .error e
  | _, _ => .error .valueError
/-- `zipPre` on lists: the lengths must agree (model.py:329). -/
def zipPreL : List (Tree α) → List (Tree β) → Except PyErr (List (Tree (α × Tree β)))
  | [], [] => .ok []
  | t :: ts, u :: us => match zipPre t u with
    | .error e => .error e
    | .ok r => match zipPreL ts us with
      | .error e => .error e
      | .ok rs => .ok (r :: rs)
  | _, _ => .error .valueError
/-- `zipPre` on dictionaries: the parts are found by key (model.py:329). -/
def zipPreD : List (Str × Tree α) → List (Str × Tree β) → Except PyErr (List (Str × Tree (α × Tree β)))
  | [], _ => .ok []
  | (k, t) :: ts, us => match us.lookup k with
    | Option.none => .error .valueError
    | some u => match zipPre t u with
      | .error e => .error e
      | .ok r => match zipPreD ts us with
        | .error e => .error e
        | .ok rs => .ok ((k, r) :: rs)
end

/-- Flattening several trees up to the structure of the first (model.py:329). -/
def zipAll : List (Tree β) → Tree (α × List (Tree β)) → Except PyErr (Tree (α × List (Tree β)))
  | [], r => .ok r
  | u :: us, r => match zipPre r u with
    | .error e => .error e
    | .ok r' => zipAll us (map (fun x => (x.1.1, x.1.2 ++ [x.2])) r')

/-- `jax.tree.map(f, t, *us)` (model.py:329; minmax_scaler.py:121-135). -/
def jaxMap (f : α → List (Tree β) → Except PyErr (Tree γ)) (t : Tree α) (us : List (Tree β)) : Except PyErr (Tree γ) :=
  match zipAll us (map (fun a => (a, [])) (norm t)) with
  | .error e => .error e
  | .ok r => mapM (fun x => f x.1 x.2) r

end Tree
end Verif
