import Verif.Model.Str

/-!
# Arrays with NumPy broadcasting

NumPy/JAX is not part of the repository. This is the documented semantics of elementwise operations on two arrays
(https://numpy.org/doc/stable/user/basics.broadcasting.html) that the code relies on throughout. An array is its shape and its
entry at every index; entries outside the shape carry no meaning.
-/

namespace Verif

/-- An array (e.g. bias.py:123-124). -/
structure NArr (V : Type) where
  shape : List Nat
  val : List Nat → V

namespace NArr

variable {V W U : Type}

/-- All indices of a shape in row-major order (e.g. tree_util.py:580-599). -/
def indices : List Nat → List (List Nat)
  | [] => [[]]
  | n :: s => (List.range n).flatMap fun i => (indices s).map (i :: ·)

/-- `arr.size` (e.g. tree_util.py:580-599). -/
def size (x : NArr V) : Nat := x.shape.foldr (· * ·) 1

/-- One broadcast axis (e.g. bias.py:123-124). -/
def bdim (a b : Nat) : Option Nat := if a = b then some a else if a = 1 then some b else if b = 1 then some a else none

/-- The broadcast shape of two reversed shapes (e.g. bias.py:123-124). -/
def bshapeRev : List Nat → List Nat → Option (List Nat)
  | [], t => some t
  | s, [] => some s
  | a :: s, b :: t => (bdim a b).bind fun d => (bshapeRev s t).map (d :: ·)

/-- The broadcast shape (e.g. bias.py:123-124). -/
def bshape (s t : List Nat) : Option (List Nat) := (bshapeRev s.reverse t.reverse).map List.reverse

/-- The index into an array of shape `s` that stands for the index `i` of the broadcast array (e.g. bias.py:123-124). -/
def bidx (s i : List Nat) : List Nat := List.zipWith (fun d k => if d = 1 then 0 else k) s (i.drop (i.length - s.length))

/-- An elementwise binary operation with broadcasting; incompatible shapes raise `TypeError` (e.g. bias.py:123-124). -/
def bop (f : V → W → U) (x : NArr V) (y : NArr W) : Except PyErr (NArr U) :=
  match bshape x.shape y.shape with
  | none => .error .typeError
  | some s => .ok ⟨s, fun i => f (x.val (bidx x.shape i)) (y.val (bidx y.shape i))⟩

/-- An elementwise unary operation (e.g. tree_util.py:693-797). -/
def uop (f : V → W) (x : NArr V) : NArr W := ⟨x.shape, fun i => f (x.val i)⟩

/-- The entries in row-major order (e.g. tree_util.py:580-599). -/
def entries (x : NArr V) : List V := (indices x.shape).map x.val

end NArr
end Verif
