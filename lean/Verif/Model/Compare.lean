import Verif.Model.TreeMap
import Verif.Model.Npz

/-!
# Comparing trees

Mirrors `/repo/parametricmatrixmodels/tree_util.py` lines 29-99 (`all_equal`, `all_close`, `get_shapes`) and `/repo/parametricmatrixmodels/model.py` lines 492-508 (`_verify_input`).

`eqv` is the comparison `==` of two numbers (false for NaN, even with itself), `close` is `np.isclose` of two numbers with the given tolerances. Comparing an array with an object that is none is a
parameter.
-/

namespace Verif
namespace Compare
open Tree

variable {V O : Type}

/-- The leaves: JAX arrays, NumPy arrays, other objects (numbers, texts, flags). `isinstance(x, np.ndarray)` is true for the first kind only, since `np` is `jax.numpy` (tree_util.py:42-48). -/
inductive Leaf (V O : Type) where
  | jax (a : NArr V)
  | numpy (a : NArr V)
  | obj (o : O)

/-- `np.array_equal` (tree_util.py:44): same shape and equal entries. -/
def arrayEqual (eqv : V → V → Bool) (a b : NArr V) : Bool := decide (a.shape = b.shape) && (NArr.indices a.shape).all fun i => eqv (a.val i) (b.val i)

/-- `np.allclose` (tree_util.py:69): the arrays are broadcast. -/
def arrayClose (close : V → V → Bool) (a b : NArr V) : Except PyErr Bool :=
  match NArr.bop close a b with
  | .error e => .error e
  | .ok r => .ok (r.entries.all id)

/-- `if a != b` for arrays: an array of truth values, which has to have one entry (tree_util.py:47). -/
def arrayNe (eqv : V → V → Bool) (a b : NArr V) : Except PyErr Bool :=
  match NArr.bop (fun x y => !eqv x y) a b with
  | .error e => .error e
  | .ok r => match r.entries with
    | [x] => .ok x
    | _ => .error .valueError

/-- `if leaf1 != leaf2` (tree_util.py:47, 72). -/
def leafNe [DecidableEq O] (eqv : V → V → Bool) (mixed : NArr V → O → Except PyErr Bool) : Leaf V O → Leaf V O → Except PyErr Bool
  | .obj o, .obj p => .ok (decide (o ≠ p))
  | .obj o, .jax a | .obj o, .numpy a | .jax a, .obj o | .numpy a, .obj o => mixed a o
  | .jax a, .jax b | .jax a, .numpy b | .numpy a, .jax b | .numpy a, .numpy b => arrayNe eqv a b

/-- The comparison of two leaves in `all_equal` (tree_util.py:43-48). -/
def leafEqual [DecidableEq O] (eqv : V → V → Bool) (mixed : NArr V → O → Except PyErr Bool) (x y : Leaf V O) : Except PyErr Bool :=
  match x, y with
  | .jax a, .jax b => .ok (arrayEqual eqv a b)
  | x, y => (leafNe eqv mixed x y).map (!·)

/-- The comparison of two leaves in `all_close` (tree_util.py:68-73). -/
def leafClose [DecidableEq O] (eqv close : V → V → Bool) (mixed : NArr V → O → Except PyErr Bool) (x y : Leaf V O) : Except PyErr Bool :=
  match x, y with
  | .jax a, .jax b => arrayClose close a b
  | x, y => (leafNe eqv mixed x y).map (!·)

/-- The loop over pairs of leaves (tree_util.py:42-49, 67-74). -/
def loop {L : Type} (f : L → L → Except PyErr Bool) : List (L × L) → Except PyErr Bool
  | [] => .ok true
  | (a, b) :: r => match f a b with
    | .error e => .error e
    | .ok false => .ok false
    | .ok true => loop f r

/-- Both comparisons (tree_util.py:36-49, 61-74). -/
def compare {L : Type} (f : L → L → Except PyErr Bool) (t u : Tree L) : Except PyErr Bool :=
  if !sameStruct t.norm u.norm then .ok false else loop f ((jaxLeaves t).zip (jaxLeaves u))

/-- `all_equal` (tree_util.py:29-49). -/
def allEqual [DecidableEq O] (eqv : V → V → Bool) (mixed : NArr V → O → Except PyErr Bool) (t u : Tree (Leaf V O)) : Except PyErr Bool := compare (leafEqual eqv mixed) t u

/-- `all_close` (tree_util.py:52-74). -/
def allClose [DecidableEq O] (eqv close : V → V → Bool) (mixed : NArr V → O → Except PyErr Bool) (t u : Tree (Leaf V O)) : Except PyErr Bool :=
  compare (leafClose eqv close mixed) t u

/-- A tree of shapes as JAX sees it: shapes are tuples of numbers (tree_util.py:77-99). -/
def ints (s : Tree (List Nat)) : Tree Nat := Tree.bind (fun l => .tuple (l.map .leaf)) s

/-- `all_equal` of two trees of shapes (model.py:500-503): the leaves are numbers. -/
def shapesEqual (s t : Tree (List Nat)) : Except PyErr Bool := compare (fun a b => .ok (decide (a = b))) (ints s) (ints t)

/-- `get_shapes(X, axis=slice(1, None))` (tree_util.py:77-99). -/
def sampleShapes (X : Tree (NArr V)) : Tree (List Nat) := map (fun x => x.shape.drop 1) X.norm

/-- `_verify_input` of a compiled model (model.py:499-508). -/
def verify (inShape : Tree (List Nat)) (X : Tree (NArr V)) : Except PyErr Unit :=
  match shapesEqual inShape (sampleShapes X) with
  | .error e => .error e
  | .ok true => .ok ()
  | .ok false => .error .valueError

end Compare
end Verif
