import Verif.Model.NdArr
import Verif.Model.TreeMap

/-!
# Model of the modules that rearrange data

Mirrors `/repo/parametricmatrixmodels/modules/reshape.py`, `flatten.py`, `treeflatten.py`, `concatenateleaves.py` and `treekey.py`.
Arrays are `NArr`; the NumPy functions `reshape` and `concatenate` are written out index by index (row-major). In shape trees a leaf is the
shape of one array; `None` in a place where a shape is expected is the leaf `none`, because `is_shape_leaf(None)` holds (so `Tree.none` does not
occur in a `Target`). Shapes are tuples
(lists of integers are refused by the code). Runtime type checks of the callables appear as `TypeError`.
-/

namespace Verif
namespace Reshape

variable {V : Type}

/-- Number of elements of a shape (reshape.py:179, 193). -/
def prod (s : List Nat) : Nat := s.foldr (· * ·) 1

/-- Position of an index in row-major order (reshape.py:112). -/
def ravel : List Nat → List Nat → Nat
  | _ :: s, i :: is => i * prod s + ravel s is
  | _, _ => 0

/-- The index at a position in row-major order (reshape.py:112). -/
def unravel : List Nat → Nat → List Nat
  | [], _ => []
  | _ :: s, k => (k / prod s) :: unravel s (k % prod s)

/-- The dimensions `np.reshape` uses for an array of `size` elements: at most one `-1`, inferred; other negative numbers and sizes that do
not fit raise (reshape.py:112). -/
def resolve (size : Nat) (t : List Int) : Except PyErr (List Nat) :=
  if t.any (fun d => decide (d < -1)) || decide (1 < t.count (-1)) then .error .typeError
  else
    let known := prod ((t.filter (· ≠ -1)).map Int.toNat)
    if -1 ∈ t then
      if known = 0 ∨ size % known ≠ 0 then .error .typeError
      else .ok (t.map fun d => if d = -1 then size / known else d.toNat)
    else if known = size then .ok (t.map Int.toNat) else .error .typeError

/-- `np.reshape(x, t)` (reshape.py:112). -/
def npReshape (x : NArr V) (t : List Int) : Except PyErr (NArr V) :=
  match resolve x.size t with
  | .error e => .error e
  | .ok s => .ok ⟨s, fun i => x.val (unravel x.shape (ravel s i))⟩

/-- A target: a tree of shapes, some of them absent (reshape.py:30-87). -/
abbrev Target := Tree (Option (List Int))

/-- `reshape_array` (reshape.py:103-112). -/
def reshapeArray (x : NArr V) (t : Target) : Except PyErr (NArr V) :=
  match x.shape with
  | [] => .error .indexError
  | b :: _ => match t with
    | .leaf none => .ok x
    | .leaf (some s) => npReshape x ((b : Int) :: s)
    | _ => .error .typeError

/-- `reshape_callable` (reshape.py:114-132). -/
def callable (t : Option Target) (data : Tree (NArr V)) : Except PyErr (Tree (NArr V)) :=
  match t with
  | none => .ok data
  | some t => Tree.jaxMap (fun x us => match us with
    | [u] => match reshapeArray x u with
      | .ok y => .ok (.leaf y)
      | .error e => .error e
    | _ => .error .typeError) data [t]

/-- `check_compatibility_and_concretify` (reshape.py:172-206). -/
def concretify (inShape : Option (List Nat)) (target : Option (List Int)) : Except PyErr (Option (List Int)) :=
  match target, inShape with
  | none, _ => .ok none
  | some _, none => .error .typeError
  | some t, some s =>
    let inSize : Int := prod s
    if -1 ∈ t then
      if t.count (-1) ≠ 1 then .error .assertionError
      else
        let known := (t.filter (· ≠ -1)).foldr (· * ·) 1
        if known = 0 then .error .zeroDivision
        else
          let inferred := inSize.fdiv known
          if inSize ≠ known * inferred then .error .assertionError
          else .ok (some (t.map fun d => if d = -1 then inferred else d))
    else if inSize ≠ t.foldr (· * ·) 1 then .error .assertionError
    else .ok (some t)

/-- `all(isinstance(dim, int) for dim in shape)` (reshape.py:154, 159): a shape, or an empty container. -/
def isInts {β : Type} : Tree (Option β) → Bool
  | .leaf (some _) => true
  | .list [] => true
  | .tuple [] => true
  | .dict [] => true
  | _ => false

/-- `None` in the place of a shape (reshape.py:109, 176). -/
def isNoneLeaf {β : Type} : Tree (Option β) → Bool
  | .leaf none => true
  | _ => false

/-- `None in input_shape` (reshape.py:142). -/
def hasNone {β : Type} : Tree (Option β) → Bool
  | .list ts => ts.any isNoneLeaf
  | .tuple ts => ts.any isNoneLeaf
  | _ => false

/-- `jax.tree.map(check_compatibility_and_concretify, input_shape, selfshape)` (reshape.py:208-213), after the test that the structures agree
(161-167). -/
def concretifyTree (s : Tree (Option (List Nat))) (t : Target) : Except PyErr Target :=
  if Tree.sameStruct s.norm t.norm then
    Tree.jaxMap (fun a us => match us with
      | [.leaf b] => match concretify a b with
        | .ok r => .ok (.leaf r)
        | .error e => .error e
      | _ => .error .typeError) s [t]
  else .error .assertionError

/-- `validate_and_concretify_shape` (reshape.py:134-223), which is also `get_output_shape` and the whole of `compile`. -/
def outputShape (t : Option Target) (s : Tree (Option (List Nat))) : Except PyErr Target :=
  match t with
  | none => .ok (Tree.map (fun o => o.map fun s => s.map Int.ofNat) s)
  | some t =>
    match s with
    | .leaf none => .error .assertionError
    | .none => .error .assertionError
    | s =>
      if hasNone s then .error .assertionError
      else
        let promoted := isInts s
        let s' := if promoted then .tuple [s] else s
        let t' := if isInts t then .tuple [t] else t
        match concretifyTree s' t' with
        | .error e => .error e
        | .ok r => if promoted then match r with
            | .tuple (r :: _) => .ok r
            | _ => .error .indexError
          else .ok r

/-- `Flatten.compile` (flatten.py:28-49): the target it sets for an input shape. -/
def flattenTarget (s : Tree (Option (List Nat))) : Target :=
  if isInts s then .leaf (some [-1]) else Tree.map (fun _ => some [-1]) s.norm

/-- `Flatten.get_output_shape` (flatten.py:51-66). -/
def flattenShape (s : Tree (Option (List Nat))) : Except PyErr Target := outputShape (some (flattenTarget s)) s

/-! ### Lists of leaves and concatenation -/

/-- The callable of `TreeFlatten` (treeflatten.py:39-47). -/
def treeFlatten {β : Type} (data : Tree β) : Tree β := .list ((Tree.jaxLeaves data).map .leaf)

mutual
/-- `jax.tree.leaves(input_shape, is_leaf=is_shape_leaf)` (treeflatten.py:50) on a normalised tree: `None` and `()` count as shapes. -/
def shapeLeaves : Tree (List Nat) → List (Option (List Nat))
  | .leaf s => [some s]
  | .none => [none]
  | .list ts => shapeLeavesL ts
  | .tuple [] => [some []]
  | .tuple (t :: ts) => shapeLeavesL (t :: ts)
  | .dict kvs => shapeLeavesD kvs
/-- On lists (tree_util.py:948-969). -/
def shapeLeavesL : List (Tree (List Nat)) → List (Option (List Nat))
  | [] => []
  | t :: ts => shapeLeaves t ++ shapeLeavesL ts
/-- On dictionaries (tree_util.py:948-969). -/
def shapeLeavesD : List (Str × Tree (List Nat)) → List (Option (List Nat))
  | [] => []
  | (_, t) :: ts => shapeLeaves t ++ shapeLeavesD ts
end

/-- `TreeFlatten.get_output_shape` (treeflatten.py:49-50). -/
def treeFlattenShape (s : Tree (List Nat)) : List (Option (List Nat)) := shapeLeaves s.norm

/-- The entry of `np.concatenate(xs, axis=k)` at an index (concatenateleaves.py:104-115). -/
def catVal (k : Nat) : List (NArr V) → List Nat → Option V
  | [], _ => none
  | x :: xs, i => if i.getD k 0 < x.shape.getD k 0 then some (x.val i) else catVal k xs (i.set k (i.getD k 0 - x.shape.getD k 0))

/-- `np.concatenate(xs, axis)`: at least one array, an existing axis, equal shapes except along the axis. A negative axis counts from the
back (concatenateleaves.py:104-115). -/
def concat [Inhabited V] (xs : List (NArr V)) (axis : Int) : Except PyErr (NArr V) :=
  match xs with
  | [] => .error .valueError
  | x :: xs' =>
    let k : Int := if axis < 0 then axis + x.shape.length else axis
    if k < 0 ∨ (x.shape.length : Int) ≤ k then .error .valueError
    else if xs'.all (fun y => decide (y.shape.eraseIdx k.toNat = x.shape.eraseIdx k.toNat) && decide (y.shape.length = x.shape.length)) then
      .ok ⟨x.shape.set k.toNat ((xs.map fun y => y.shape.getD k.toNat 0).sum), fun i => (catVal k.toNat xs i).getD default⟩
    else .error .typeError

/-- The leaves to concatenate (concatenateleaves.py:86-98): all, or those at the given paths in that order (`getitem_by_strpath` without
early return); a path that ends at a container gives no array. -/
def selectLeaves {β : Type} (paths : Option (List (List Str))) (data : Tree β) : Except PyErr (List β) :=
  match paths with
  | none => .ok (Tree.jaxLeaves data)
  | some ps => ps.mapM fun p => match Tree.get data p with
    | .error e => .error e
    | .ok (.leaf b) => .ok b
    | .ok _ => .error .typeError

/-- `np.reshape(leaf, (leaf.shape[0], -1))` (concatenateleaves.py:107). -/
def flat2 (x : NArr V) : Except PyErr (NArr V) :=
  match x.shape with
  | [] => .error .indexError
  | b :: _ => npReshape x [(b : Int), -1]

/-- The callable of `ConcatenateLeaves` (concatenateleaves.py:80-117). -/
def concatLeaves [Inhabited V] (axis : Option Int) (paths : Option (List (List Str))) (data : Tree (NArr V)) : Except PyErr (NArr V) :=
  match selectLeaves paths data with
  | .error e => .error e
  | .ok leaves => match axis with
    | none => match leaves.mapM flat2 with
      | .error e => .error e
      | .ok ls => concat ls (-1)
    | some a => concat leaves (a + 1)

/-- `ConcatenateLeaves.get_output_shape` (concatenateleaves.py:119-174): the concatenation is run on zeros with batch size one; every failure
becomes `ValueError`. -/
def concatShape (axis : Option Int) (paths : Option (List (List Str))) (s : Tree (List Nat)) : Except PyErr (List Nat) :=
  match concatLeaves (V := Unit) axis paths (Tree.map (fun sh => ⟨1 :: sh, fun _ => ()⟩) s.norm) with
  | .error _ => .error .valueError
  | .ok r => .ok r.shape.tail

/-! ### Selecting by path -/

/-- `TreeKey` on data (treekey.py:103-135) or on shapes (77-97): `keypaths` is a tree of paths; without it everything is returned. `isLeaf` is
the predicate given for shapes. -/
def treeKey {β : Type} (isLeaf : Tree β → Bool) (keypaths : Option (Tree (List Str))) (t : Tree β) : Except PyErr (Tree β) :=
  match keypaths with
  | none => .ok t
  | some ks => Tree.mapM (fun p => match Tree.getPath isLeaf true t p with
    | .error e => .error e
    | .ok r => .ok r.1) ks.norm

/-- `is_shape_leaf` (tree_util.py:948-969) on a shape tree: shapes, `None` and the empty tuple. -/
def isShapeLeaf {β : Type} : Tree β → Bool
  | .leaf _ => true
  | .none => true
  | .tuple [] => true
  | _ => false

/-- `TreeKey.get_output_shape` (treekey.py:77-97). `TypeError` is not caught, but is not raised with early return. -/
def treeKeyShape (keypaths : Option (Tree (List Str))) (s : Tree (List Nat)) : Except PyErr (Tree (List Nat)) :=
  match treeKey isShapeLeaf keypaths s with
  | .ok r => .ok r
  | .error .typeError => .error .typeError
  | .error _ => .error .valueError

end Reshape
end Verif
