import Verif.Model.Reshape
import Mathlib.Algebra.Ring.Defs

/-!
# Model of `AffineTensor`

Mirrors `/repo/parametricmatrixmodels/modules/affinetensor.py`. Arrays are `NArr` over an abstract number type; dtypes and the random numbers of fresh
tensors (a parameter here) are not modelled.
-/

namespace Verif
namespace AffineTensor
open Reshape

variable {V : Type}

/-- `is_single_leaf(shapes, ndim=ndim, is_leaf=is_shape_leaf)` (tree_util.py:102-151) on a tree of shapes: the one shape, if there is exactly one and it has
`ndim` dimensions. `len(None)` raises. -/
def singleLeaf (ndim : Nat) (s : Tree (List Nat)) : Except PyErr (Option (List Nat)) :=
  match treeFlattenShape s with
  | [some sh] => .ok (if sh.length = ndim then some sh else none)
  | [none] => .error .typeError
  | _ => .ok none

/-- The inner sum of `np.einsum("ni,i...->n...", features, Ms)` (affinetensor.py:124, 140) for sample `k` and entry `i`; `o` is the number of tensors left out
in front. -/
def contract [Semiring V] (o : Nat) (Ms x : NArr V) (f k : Nat) (i : List Nat) : V :=
  ((List.range f).map fun j => x.val [k, j] * Ms.val ((j + o) :: i)).sum

/-- `make_affine_tensor` (affinetensor.py:111-142). The annotations demand a two-dimensional array with the right number of features. -/
def tensor [Semiring V] (bias : Bool) (Ms x : NArr V) : Except PyErr (NArr V) :=
  match Ms.shape, x.shape with
  | p :: ts, [b, f] =>
    if bias then
      if p = f + 1 then .ok ⟨b :: ts, fun i => Ms.val (0 :: i.tail) + contract 1 Ms x f (i.headD 0) i.tail⟩ else .error .typeError
    else if p = f then .ok ⟨b :: ts, fun i => contract 0 Ms x f (i.headD 0) i.tail⟩ else .error .typeError
  | _, _ => .error .typeError

/-- The callable (affinetensor.py:144-164). -/
def call [Semiring V] (bias : Bool) (Ms : NArr V) (data : Tree (NArr V)) : Except PyErr (Tree (NArr V)) :=
  Tree.jaxMap (fun x _ => match tensor bias Ms x with
    | .ok y => .ok (.leaf y)
    | .error e => .error e) data ([] : List (Tree (NArr V)))

/-- `compile` (affinetensor.py:166-209): the tensors afterwards. `draw` stands for the random numbers. -/
def compile (draw : List Nat → V) (bias : Bool) (tensorShape : List Nat) (Ms : Option (NArr V)) (s : Tree (List Nat)) : Except PyErr (NArr V) :=
  match singleLeaf 1 s with
  | .error e => .error e
  | .ok (some [f]) =>
    let p := if bias then f + 1 else f
    match Ms with
    | some M => if M.shape.headD 0 = p then .ok M else .error .valueError
    | none => .ok ⟨p :: tensorShape, draw⟩
  | .ok _ => .error .valueError

/-- `get_output_shape` (affinetensor.py:211-224). On an empty tuple or `None` the leaf predicate holds as well, but such shapes are refused before. -/
def outputShape (tensorShape : List Nat) (s : Tree (List Nat)) : Except PyErr (Tree (List Nat)) :=
  match singleLeaf 1 s with
  | .error e => .error e
  | .ok (some _) => .ok (Tree.map (fun _ => tensorShape) s.norm)
  | .ok none => .error .valueError

end AffineTensor
end Verif
