import Verif.Model.Batch

/-!
# Gradients of a model

Mirrors `/repo/parametricmatrixmodels/model.py` lines 716-764 (the function behind `grad_input`) and 894-906 (`grad_params`).

`jac` stands for `jax.jacfwd` or `jax.jacrev` of a function of one sample (or of the parameters): it gets the function and the
point and returns the leaves of the Jacobian. Rows of leaves are optional values because the model knows the number of leaves
and samples only at run time.
-/

namespace Verif
namespace Grad
open Batch

variable {α γ δ S W : Type}

/-- Sample `i` of the data (model.py:734-752). -/
def sampleOf (X : Leaves α) (i : Nat) : List α := X.filterMap fun x => x[i]?

/-- `callable_single` (model.py:737-752): the model on one sample, which gets a batch axis for the call. -/
def single (f : Leaves α → S → Leaves γ × S) (s : S) (x : List α) : List (Option γ) := (f (x.map fun a => [a]) s).1.map List.head?

/-- The type of the argument of `callable_single` is `Data` (model.py:740; typing.py:102): every leaf must have a first axis
and these axes must have one size. The argument is one sample, so the first axis is a feature axis. -/
def singleType (dims : α → List Nat) (x : List α) : Except PyErr Unit :=
  match x with
  | [] => .ok ()
  | a :: _ => if (dims a).head?.isSome && x.all (fun b => (dims b).head? = (dims a).head?) then .ok () else .error .typeError

/-- `jax.vmap(jac(callable_single))` (model.py:754-764): the Jacobian at every sample, and the states returned for the samples,
stacked. `cols` is the number of leaves of the Jacobian, which depends on the structure of the data only. -/
def gradInput (f : Leaves α → S → Leaves γ × S) (jac : (List α → List (Option γ)) → List α → List δ) (cols : Nat → Nat)
    (stack : Nat → (Nat → S) → S) (X : Leaves α) (s : S) : Leaves δ × S :=
  let n := (X.headD []).length
  ((List.range (cols X.length)).map fun k => (List.range n).filterMap fun i => (jac (single f s) (sampleOf X i))[k]?,
    stack n fun i => (f ((sampleOf X i).map fun a => [a]) s).2)

/-- The batched function behind `grad_input` (model.py:774-801), with the runtime type check. -/
def gradInputCall (dims : α → List Nat) (isScalar : α → Bool) (f : Leaves α → S → Leaves γ × S)
    (jac : (List α → List (Option γ)) → List α → List δ) (cols : Nat → Nat) (stack : Nat → (Nat → S) → S) (maxSize : Option Nat) (avoid : Bool)
    (X : Leaves α) (s : S) : Except PyErr (Leaves δ × S) :=
  match singleType dims (sampleOf X 0) with
  | .error e => .error e
  | .ok () => autobatch isScalar (gradInput f jac cols stack) maxSize avoid X s

/-- `jac(raw_callable, argnums=0)` (model.py:897-906): the Jacobian of the outputs for all samples with respect to the
parameters; the rows of a Jacobian are the Jacobians of the rows. -/
def gradParams (f : W → Leaves α → S → Leaves γ × S) (jac : (W → List (Option γ)) → W → List δ) (cols : Nat → Nat) (w : W) (X : Leaves α) (s : S) :
    Leaves δ × S :=
  let n := (X.headD []).length
  ((List.range (cols X.length)).map fun k => (List.range n).filterMap fun i => (jac (fun w' => (f w' X s).1.map fun y => y[i]?) w)[k]?, (f w X s).2)

end Grad
end Verif
