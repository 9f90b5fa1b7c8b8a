import Verif.Model.Str

/-!
# PyTrees and string-path access

Mirrors `/repo/parametricmatrixmodels/tree_util.py` lines 154-576.

A PyTree is a leaf, `None`, a list, a tuple or a dictionary with string keys (association list in insertion order).
In-place mutation returns the new tree; sharing of sub-objects between different places of a tree is not modelled.
A string path is represented by its components `path.split(sep)` (so `""` is `[""]`); `Model/Str.lean` has the string
level. Recursing on `rest[0] if rest else ""` (tree_util.py:284) is recursing on the tail of the component list.
-/

namespace Verif

/-- PyTrees with leaves in `β` (tree_util.py:182-363). -/
inductive Tree (β : Type) where
  | leaf (b : β)
  | none
  | list (ts : List (Tree β))
  | tuple (ts : List (Tree β))
  | dict (kvs : List (Str × Tree β))

variable {β γ : Type}

/-- `d[k] = v` on a dictionary: replace in place or append at the end (tree_util.py:292-363). -/
def dictSet (kvs : List (Str × γ)) (k : Str) (v : γ) : List (Str × γ) :=
  match kvs with
  | [] => [(k, v)]
  | (k', v') :: r => if k' = k then (k, v) :: r else (k', v') :: dictSet r k v

namespace Tree

/-- `getitem_by_strpath` (tree_util.py:182-289) on the components of the path. Returns the node and the remainder
(`[]` for `""`). `early` is `allow_early_return`; `isLeaf` is the optional predicate (`fun _ => false` for `None`). -/
def getPath (isLeaf : Tree β → Bool) (early : Bool) : Tree β → List Str → Except PyErr (Tree β × List Str)
  | t, [] => .ok (t, [])
  | t, k :: ks =>
    if k = [] ∧ ks = [] then .ok (t, [])                                    -- 248-252: `if not strpath`
    else if isLeaf t then                                                   -- 253-263
      if early then .ok (t, k :: ks) else .error .typeError
    else match t with
      | .dict kvs =>                                                        -- 266-267
        match kvs.lookup k with
        | some c => getPath isLeaf early c ks
        | .none => .error .keyError
      | .list ts | .tuple ts =>                                             -- 268-274
        if !isDigit k then .error .keyError
        else match ts[toInt k]? with
          | some c => getPath isLeaf early c ks
          | .none => .error .indexError
      | t => if early then .ok (t, k :: ks) else .error .typeError          -- 275-281

/-- Plain reading: `getitem_by_strpath(pytree, strpath)` with the default arguments (tree_util.py:182-289). -/
def get (t : Tree β) (p : List Str) : Except PyErr (Tree β) :=
  match getPath (fun _ => false) false t p with
  | .ok r => .ok r.1
  | .error e => .error e

/-- `setitem_by_strpath` (tree_util.py:292-363) on the components of the path. -/
def setPath (isLeaf : Tree β → Bool) (v : Tree β) : Tree β → List Str → Except PyErr (Tree β)
  | _, [] => .error .valueError                                             -- 321-322
  | t, k :: ks =>
    if k = [] ∧ ks = [] then .error .valueError                             -- 321-322
    else if isLeaf t then .error .typeError                                 -- 323-327
    else match t with
      | .dict kvs =>                                                        -- 330-340
        if ks = [] then .ok (.dict (dictSet kvs k v))
        else match kvs.lookup k with
          | .none => .error .keyError
          | some c => match setPath isLeaf v c ks with
            | .ok c' => .ok (.dict (dictSet kvs k c'))
            | .error e => .error e
      | .list ts =>                                                         -- 341-361
        if !isDigit k then .error .keyError
        else match ts[toInt k]? with
          | .none => .error .indexError
          | some c =>
            if ks = [] then .ok (.list (ts.set (toInt k) v))
            else match setPath isLeaf v c ks with
              | .ok c' => .ok (.list (ts.set (toInt k) c'))
              | .error e => .error e
      | .tuple ts =>                                                        -- 341-361
        if !isDigit k then .error .keyError
        else if ks = [] then .error .typeError
        else match ts[toInt k]? with
          | .none => .error .indexError
          | some c => match setPath isLeaf v c ks with
            | .ok c' => .ok (.tuple (ts.set (toInt k) c'))
            | .error e => .error e
      | _ => .error .typeError                                              -- 362-363

/-- `setitem_by_strpath(pytree, strpath, value)` with the default arguments (tree_util.py:292-363). -/
def set (t : Tree β) (p : List Str) (v : Tree β) : Except PyErr (Tree β) := setPath (fun _ => false) v t p

/-! ### `make_mutable` (tree_util.py:154-179) -/

mutual
/-- One `jax.tree.map(lambda x: list(x) if _is_tuple(x) else x, pytree, is_leaf=_is_tuple)` (tree_util.py:174-178):
outermost tuples become lists. Simplification: JAX rebuilds dictionaries with sorted keys; the key order is kept here. -/
def mutPass : Tree β → Tree β
  | .leaf b => .leaf b
  | .none => .none
  | .list ts => .list (mutPassL ts)
  | .tuple ts => .list ts
  | .dict kvs => .dict (mutPassD kvs)
/-- `mutPass` on children of a list (tree_util.py:154-179). -/
def mutPassL : List (Tree β) → List (Tree β)
  | [] => []
  | t :: ts => mutPass t :: mutPassL ts
/-- `mutPass` on children of a dictionary (tree_util.py:154-179). -/
def mutPassD : List (Str × Tree β) → List (Str × Tree β)
  | [] => []
  | (k, t) :: ts => (k, mutPass t) :: mutPassD ts
end

mutual
/-- The loop condition (tree_util.py:171-173): does a traversal that stops at tuples meet one? -/
def meetsTuple : Tree β → Bool
  | .leaf _ => false
  | .none => false
  | .list ts => meetsTupleL ts
  | .tuple _ => true
  | .dict kvs => meetsTupleD kvs
/-- `meetsTuple` on children of a list (tree_util.py:154-179). -/
def meetsTupleL : List (Tree β) → Bool
  | [] => false
  | t :: ts => meetsTuple t || meetsTupleL ts
/-- `meetsTuple` on children of a dictionary (tree_util.py:154-179). -/
def meetsTupleD : List (Str × Tree β) → Bool
  | [] => false
  | (_, t) :: ts => meetsTuple t || meetsTupleD ts
end

mutual
/-- Number of tuple nodes (bound for the loop; not part of the code) (tree_util.py:154-179). -/
def tupleCount : Tree β → Nat
  | .leaf _ => 0
  | .none => 0
  | .list ts => tupleCountL ts
  | .tuple ts => tupleCountL ts + 1
  | .dict kvs => tupleCountD kvs
/-- `tupleCount` summed over a list (tree_util.py:154-179). -/
def tupleCountL : List (Tree β) → Nat
  | [] => 0
  | t :: ts => tupleCount t + tupleCountL ts
/-- `tupleCount` summed over a dictionary (tree_util.py:154-179). -/
def tupleCountD : List (Str × Tree β) → Nat
  | [] => 0
  | (_, t) :: ts => tupleCount t + tupleCountD ts
end

/-- The `while` loop of `make_mutable` (tree_util.py:171-179) with fuel; `none` would be a loop that does not end. -/
def makeMutableLoop : Nat → Tree β → Option (Tree β)
  | 0, _ => .none
  | f + 1, t => if meetsTuple t then makeMutableLoop f (mutPass t) else some t

/-- `make_mutable` (tree_util.py:154-179). -/
def makeMutable (t : Tree β) : Option (Tree β) := makeMutableLoop (tupleCount t + 1) t

/-! ### `extend_structure_from_strpaths` (tree_util.py:366-576) -/

/-- The empty container created for the next path component (tree_util.py:515-519, 537-541). -/
def freshNode (next : Str) : Tree β := if isDigit next then .list [] else .dict []

/-- `while len(current_node) <= key: current_node.append(None)` (tree_util.py:508-509). -/
def padTo (ts : List (Tree β)) (i : Nat) : List (Tree β) := ts ++ List.replicate (i + 1 - ts.length) .none

/-- Is the tree `None`? (tree_util.py:513-551). -/
def isNone : Tree β → Bool
  | .none => true
  | _ => false

/-- The loop over the components of one path (tree_util.py:473-552). `eqv` is Python's `==`; `pre` is the path walked
so far. Returns the tree and the paths of the tuples that were turned into lists, in the order they were met. -/
def extendOne (eqv : Tree β → Tree β → Bool) (fill : Tree β) :
    Tree β → List Str → List Str → Except PyErr (Tree β × List (List Str))
  | t, _, [] => .ok (t, [])
  | t, pre, k :: ks =>
    -- 478-487: a tuple becomes a list and is recorded (writing it back needs a nonempty path)
    let conv : Tree β × List (List Str) := match t with
      | .tuple ts => (.list ts, [pre])
      | t => (t, [])
    if conv.2 ≠ [] ∧ (pre = [] ∨ pre.getLast? = some []) then .error .valueError
    else match conv.1 with
    | .list ts =>
      if !isDigit k then .error .keyError                                   -- 494-497
      else
        let i := toInt k
        let ts' := padTo ts i                                               -- 508-509
        let cur := ts'.getD i .none
        if isNone cur then
          let new := if ks = [] then fill else freshNode (ks.headD [])      -- 510-519
          if ks = [] then .ok (.list (ts'.set i new), conv.2)
          else match extendOne eqv fill new (pre ++ [k]) ks with
            | .ok (c, rec) => .ok (.list (ts'.set i c), conv.2 ++ rec)
            | .error e => .error e
        else if ks = [] then
          if !eqv cur fill && !isNone fill then .error .valueError          -- 520-529
          else .ok (.list ts', conv.2)
        else match extendOne eqv fill cur (pre ++ [k]) ks with              -- 530
          | .ok (c, rec) => .ok (.list (ts'.set i c), conv.2 ++ rec)
          | .error e => .error e
    | .dict kvs =>
      match kvs.lookup k with
      | .none =>                                                            -- 532-541
        if ks = [] then .ok (.dict (dictSet kvs k fill), conv.2)
        else match extendOne eqv fill (freshNode (ks.headD [])) (pre ++ [k]) ks with
          | .ok (c, rec) => .ok (.dict (dictSet kvs k c), conv.2 ++ rec)
          | .error e => .error e
      | some cur =>
        if ks = [] then
          if !eqv cur fill && !isNone fill then .error .valueError          -- 542-551
          else .ok (.dict kvs, conv.2)
        else match extendOne eqv fill cur (pre ++ [k]) ks with              -- 552
          | .ok (c, rec) => .ok (.dict (dictSet kvs k c), conv.2 ++ rec)
          | .error e => .error e
    | _ => .error .typeError                                                -- 500-503

/-- The loop over all paths (tree_util.py:469-552). -/
def extendAll (eqv : Tree β → Tree β → Bool) :
    Tree β → List (List Str × Tree β) → Except PyErr (Tree β × List (List Str))
  | t, [] => .ok (t, [])
  | t, (p, fill) :: rest =>
    match extendOne eqv fill t [] p with
    | .error e => .error e
    | .ok (t', r1) =>
      match extendAll eqv t' rest with
      | .error e => .error e
      | .ok (t'', r2) => .ok (t'', r1 ++ r2)

/-- Turning the recorded lists back into tuples (tree_util.py:556-572), in recording order. -/
def restoreTuples : Tree β → List (List Str) → Except PyErr (Tree β)
  | t, [] => .ok t
  | t, p :: ps =>
    match get t p with
    | .error e => .error e
    | .ok (.list ts) =>
      match set t p (.tuple ts) with
      | .error e => .error e
      | .ok t' => restoreTuples t' ps
    | .ok _ => .error .runtimeError

/-- `extend_structure_from_strpaths` (tree_util.py:366-576). `base = none` is `base_pytree=None`. The fill values are
already a list of the same length as the paths (the normalisation at 432-446 is `List.zip` here). -/
def extend (eqv : Tree β → Tree β → Bool) (base : Tree β) (pfs : List (List Str × Tree β)) :
    Except PyErr (Tree β) :=
  let base' : Tree β := match base with
    | .none =>                                                              -- 449-456; `if path` skips the path ""
      if ((pfs.map Prod.fst).filter (fun p => p ≠ [[]])).all (fun p => isDigit (p.headD [])) then .list [] else .dict []
    | t => t
  match base' with
  | .tuple ts =>                                                            -- 460-462, 574-575
    match extendAll eqv (.list ts) pfs with
    | .error e => .error e
    | .ok (t, rec) =>
      match restoreTuples t rec with
      | .error e => .error e
      | .ok (.list ts') => .ok (.tuple ts')
      | .ok t' => .ok t'
  | b =>
    match extendAll eqv b pfs with
    | .error e => .error e
    | .ok (t, rec) => restoreTuples t rec

end Tree
end Verif
