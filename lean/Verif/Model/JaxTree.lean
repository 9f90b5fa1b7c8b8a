import Verif.Model.Tree

/-!
# Flattening of PyTrees as JAX does it

Models `jax.tree.flatten`, `jax.tree.unflatten`, `jax.tree.map` and `jax.tree.structure` as used in
`/repo/parametricmatrixmodels/sequentialmodel.py` lines 134, 180, 263-288, 302-330, `model.py` lines 147-165, 1251-1264 and
`nonsequentialmodel.py` lines 644-654, 861-871, 911-922. JAX itself is not part of the repository; this is its documented
behaviour: `None` is an empty tree, dictionaries are traversed in the order of their sorted keys and rebuilt in that order.
-/

namespace Verif
namespace Tree

variable {α β γ : Type}

mutual
/-- `jax.tree.map(f, t)` (dictionary order kept; see `norm` for the order JAX rebuilds them in) (sequentialmodel.py:260-262, 311-317). -/
def map (f : α → β) : Tree α → Tree β
  | .leaf a => .leaf (f a)
  | .none => .none
  | .list ts => .list (mapL f ts)
  | .tuple ts => .tuple (mapL f ts)
  | .dict kvs => .dict (mapD f kvs)
/-- `map` on a list (sequentialmodel.py:260-262, 311-317). -/
def mapL (f : α → β) : List (Tree α) → List (Tree β)
  | [] => []
  | t :: ts => map f t :: mapL f ts
/-- `map` on a dictionary (sequentialmodel.py:260-262, 311-317). -/
def mapD (f : α → β) : List (Str × Tree α) → List (Str × Tree β)
  | [] => []
  | (k, t) :: ts => (k, map f t) :: mapD f ts
end

mutual
/-- `jax.tree.map(f, t)` for a function that may raise (sequentialmodel.py:260-262, 311-317). -/
def mapM (f : α → Except PyErr (Tree β)) : Tree α → Except PyErr (Tree β)
  | .leaf a => f a
  | .none => .ok .none
  | .list ts => match mapML f ts with
    | .ok r => .ok (.list r)
    | .error e => .error e
  | .tuple ts => match mapML f ts with
    | .ok r => .ok (.tuple r)
    | .error e => .error e
  | .dict kvs => match mapMD f kvs with
    | .ok r => .ok (.dict r)
    | .error e => .error e
/-- `mapM` on a list (sequentialmodel.py:260-262, 311-317). -/
def mapML (f : α → Except PyErr (Tree β)) : List (Tree α) → Except PyErr (List (Tree β))
  | [] => .ok []
  | t :: ts => match mapM f t with
    | .error e => .error e
    | .ok u => match mapML f ts with
      | .error e => .error e
      | .ok us => .ok (u :: us)
/-- `mapM` on a dictionary (sequentialmodel.py:260-262, 311-317). -/
def mapMD (f : α → Except PyErr (Tree β)) : List (Str × Tree α) → Except PyErr (List (Str × Tree β))
  | [] => .ok []
  | (k, t) :: ts => match mapM f t with
    | .error e => .error e
    | .ok u => match mapMD f ts with
      | .error e => .error e
      | .ok us => .ok ((k, u) :: us)
end

/-- Insertion into a list sorted by key (sequentialmodel.py:134). -/
def insKv (k : Str) (v : γ) : List (Str × γ) → List (Str × γ)
  | [] => [(k, v)]
  | (k', v') :: r => if k' < k then (k', v') :: insKv k v r else (k, v) :: (k', v') :: r

/-- `sorted(d.items())` by key (sequentialmodel.py:134). -/
def sortKvs (kvs : List (Str × γ)) : List (Str × γ) := kvs.foldr (fun p acc => insKv p.1 p.2 acc) []

mutual
/-- The tree with all dictionaries in the order of their sorted keys (sequentialmodel.py:134). -/
def norm : Tree α → Tree α
  | .leaf a => .leaf a
  | .none => .none
  | .list ts => .list (normL ts)
  | .tuple ts => .tuple (normL ts)
  | .dict kvs => .dict (sortKvs (normD kvs))
/-- `norm` on a list (sequentialmodel.py:134). -/
def normL : List (Tree α) → List (Tree α)
  | [] => []
  | t :: ts => norm t :: normL ts
/-- `norm` on a dictionary (sequentialmodel.py:134). -/
def normD : List (Str × Tree α) → List (Str × Tree α)
  | [] => []
  | (k, t) :: ts => (k, norm t) :: normD ts
end

mutual
/-- Leaves in stored order (sequentialmodel.py:134). -/
def flat : Tree α → List α
  | .leaf a => [a]
  | .none => []
  | .list ts => flatL ts
  | .tuple ts => flatL ts
  | .dict kvs => flatD kvs
/-- `flat` on a list (sequentialmodel.py:134). -/
def flatL : List (Tree α) → List α
  | [] => []
  | t :: ts => flat t ++ flatL ts
/-- `flat` on a dictionary (sequentialmodel.py:134). -/
def flatD : List (Str × Tree α) → List α
  | [] => []
  | (_, t) :: ts => flat t ++ flatD ts
end

/-- `jax.tree.leaves(t)` (sequentialmodel.py:134, 180). -/
def jaxLeaves (t : Tree α) : List α := flat (norm t)

mutual
/-- `jax.tree.unflatten(structure, xs)` for a normalised tree: the leaves are replaced from left to right. Returns the
unused values; `none` if there are too few (sequentialmodel.py:304, 330). -/
def unflat : Tree α → List β → Option (Tree β × List β)
  | .leaf _, [] => Option.none
  | .leaf _, x :: xs => some (.leaf x, xs)
  | .none, xs => some (.none, xs)
  | .list ts, xs => match unflatL ts xs with
    | some (r, ys) => some (.list r, ys)
    | Option.none => Option.none
  | .tuple ts, xs => match unflatL ts xs with
    | some (r, ys) => some (.tuple r, ys)
    | Option.none => Option.none
  | .dict kvs, xs => match unflatD kvs xs with
    | some (r, ys) => some (.dict r, ys)
    | Option.none => Option.none
/-- `unflat` on a list (sequentialmodel.py:304, 330). -/
def unflatL : List (Tree α) → List β → Option (List (Tree β) × List β)
  | [], xs => some ([], xs)
  | t :: ts, xs => match unflat t xs with
    | Option.none => Option.none
    | some (u, ys) => match unflatL ts ys with
      | Option.none => Option.none
      | some (us, zs) => some (u :: us, zs)
/-- `unflat` on a dictionary (sequentialmodel.py:304, 330). -/
def unflatD : List (Str × Tree α) → List β → Option (List (Str × Tree β) × List β)
  | [], xs => some ([], xs)
  | (k, t) :: ts, xs => match unflat t xs with
    | Option.none => Option.none
    | some (u, ys) => match unflatD ts ys with
      | Option.none => Option.none
      | some (us, zs) => some ((k, u) :: us, zs)
end

/-- `jax.tree.unflatten`; a wrong number of values raises (sequentialmodel.py:304, 330). -/
def unflatten (t : Tree α) (xs : List β) : Except PyErr (Tree β) :=
  match unflat (norm t) xs with
  | some (r, []) => .ok r
  | _ => .error .valueError

mutual
/-- `jax.tree.structure(a) == jax.tree.structure(b)` for normalised trees (tree_util.py:36-39). -/
def sameStruct : Tree α → Tree β → Bool
  | .leaf _, .leaf _ => true
  | .none, .none => true
  | .list ts, .list us => sameStructL ts us
  | .tuple ts, .tuple us => sameStructL ts us
  | .dict ts, .dict us => sameStructD ts us
  | _, _ => false
/-- `sameStruct` on lists (tree_util.py:36-39). -/
def sameStructL : List (Tree α) → List (Tree β) → Bool
  | [], [] => true
  | t :: ts, u :: us => sameStruct t u && sameStructL ts us
  | _, _ => false
/-- `sameStruct` on dictionaries (tree_util.py:36-39). -/
def sameStructD : List (Str × Tree α) → List (Str × Tree β) → Bool
  | [], [] => true
  | (k, t) :: ts, (k', u) :: us => decide (k = k') && (sameStruct t u && sameStructD ts us)
  | _, _ => false
end

end Tree
end Verif
