import Verif.Model.Reshape
import Mathlib.Algebra.Ring.Defs
import Mathlib.Order.Defs.LinearOrder

/-!
# Model of the modules that change values only

Mirrors `/repo/parametricmatrixmodels/modules/bias.py`, `activationbase.py`, `prelu.py`, `constant.py` and `comment.py`. Arrays are `NArr`, operations broadcast as
in NumPy. Number types are abstract; dtypes, the random draws of fresh parameters (a parameter here) and runtime type annotations are not modelled.
-/

namespace Verif
namespace Elementwise
open Reshape

variable {V W : Type}

/-- The parameters of a `Bias`: one array, or a tree of arrays (bias.py:108-147). -/
inductive BiasParam (V : Type) where
  | arr (b : NArr V)
  | tree (t : Tree (NArr V))

/-- `x + b` as the result for one leaf (bias.py:123-124, 141-142). -/
def addLeaf [Add V] (x b : NArr V) : Except PyErr (Tree (NArr V)) :=
  match NArr.bop (· + ·) x b with
  | .ok y => .ok (.leaf y)
  | .error e => .error e

/-- The callable of `Bias` (bias.py:108-147). -/
def biasCall [Add V] : BiasParam V → Tree (NArr V) → Except PyErr (Tree (NArr V))
  | .arr b, data => Tree.jaxMap (fun x _ => addLeaf x b) data ([] : List (Tree (NArr V)))
  | .tree t, data => Tree.jaxMap (fun x us => match us with
    | [.leaf b] => addLeaf x b
    | _ => .error .typeError) data [t]

/-- `Bias.compile` for a bias that is already there (bias.py:150-202): an array of shape `(1,)` or `()` always passes; any other array must have the shape
of every leaf (153-182); a tree must match leaf by leaf (187-199; an empty tuple in the shapes is the shape of a scalar). -/
def biasCheck (b : BiasParam V) (s : Tree (List Nat)) : Except PyErr Unit :=
  match b with
  | .arr b =>
    if b.shape = [1] ∨ b.shape = [] then .ok ()
    else if (treeFlattenShape s).any (fun o => decide (o ≠ some b.shape)) then .error .valueError
    else .ok ()
  | .tree t => match Tree.jaxMap (γ := Unit) (fun b us => match us with
      | [.leaf sh] => if b.shape = sh then .ok (.leaf ()) else .error .valueError
      | [.tuple []] => if b.shape = [] then .ok (.leaf ()) else .error .valueError
      | _ => .error .valueError) t [s] with
    | .ok _ => .ok ()
    | .error e => .error e

/-- `Bias.compile` for a bias that is not there yet (bias.py:204-248): the shapes of the new parameters. `draw` stands for the random numbers (in the code
every leaf has its own key). -/
def biasInit (draw : List Nat → List Nat → V) (scalar : Bool) (s : Tree (List Nat)) : BiasParam V :=
  if scalar then .arr ⟨[1], draw [1]⟩
  else match s with
    | .leaf sh => .arr ⟨sh, draw sh⟩
    | s => .tree (Tree.map (fun sh => ⟨sh, draw sh⟩) s.norm)

/-- The callable of an activation function module (activationbase.py:100-120): `func` on every leaf. -/
def activation (func : NArr V → NArr W) (data : Tree (NArr V)) : Tree (NArr W) := Tree.map func data.norm

/-- `ActivationBase.get_output_shape` (activationbase.py:136-149). -/
def activationShape (s : Tree (List Nat)) : Tree (List Nat) := s

/-- `jax.numpy.amax` without arguments (`AMax`, _autogenerated_activationfuncs.py:617-632): the largest entry of the whole array. -/
def amax [LinearOrder V] [Inhabited V] (x : NArr V) : NArr V :=
  ⟨[], fun _ => match x.entries with
    | [] => default
    | v :: vs => vs.foldl max v⟩

/-- `jax.nn.leaky_relu(arr, negative_slope=a)` as used by `PReLU` (prelu.py:91-99). -/
def preluLeaf [Zero V] [Mul V] [LE V] [DecidableLE V] (x a : NArr V) : Except PyErr (Tree (NArr V)) :=
  match NArr.bop (fun x a => if 0 ≤ x then x else a * x) x a with
  | .ok y => .ok (.leaf y)
  | .error e => .error e

/-- The callable of `PReLU` (prelu.py:90-134): `single` is the one parameter (of shape `(1,)`, squeezed), otherwise a tree of slopes. -/
def preluCall [Zero V] [Mul V] [LE V] [DecidableLE V] : BiasParam V → Tree (NArr V) → Except PyErr (Tree (NArr V))
  | .arr a, data => Tree.jaxMap (fun x _ => preluLeaf x ⟨[], fun _ => a.val [0]⟩) data ([] : List (Tree (NArr V)))
  | .tree t, data => Tree.jaxMap (fun x us => match us with
    | [.leaf a] => preluLeaf x a
    | _ => .error .typeError) data [t]

/-- The callable of `Constant` (constant.py:126-153): the constant repeated along a new first axis, as often as the first array of the data has samples. -/
def constantCall (c : Tree (NArr W)) (data : Tree (NArr V)) : Except PyErr (Tree (NArr W)) :=
  match Tree.jaxLeaves data with
  | [] => .error .indexError
  | x :: _ => match x.shape with
    | [] => .error .indexError
    | b :: _ => .ok (Tree.map (fun k : NArr W => ⟨b :: k.shape, fun i => k.val i.tail⟩) c.norm)

/-- `Constant.__init__` (constant.py:226-227) and `get_output_shape` (226): the shape of the constant. -/
def constantShape (c : Tree (NArr W)) : Tree (List Nat) := Tree.map (fun k => k.shape) c.norm

end Elementwise
end Verif
