import Verif.Model.Npz
import Verif.Model.ModelLib
import Mathlib.Logic.Function.Basic

/-!
# Reading and setting the parameters and states of a model

Mirrors `/repo/parametricmatrixmodels/model.py` lines 281-396 (`get_params`, `set_params`, `get_state`, `set_state`) for models nested in models to any depth. Module objects live at addresses of a
store, so that one object can be a module in several places; a model is a tree of modules, each of which is an object or again a model.

Simplification: a model has no address of its own. (Only its modules are written to by these functions.) `get_state` is that of `Model`; `NonSequentialModel` replaces it
(nonsequentialmodel.py:927-957, see `ModelSer.getState`).
-/

namespace Verif
namespace Params
open Tree

/-- A module of a model: an object of the store, or a model, with `n` levels of models at most (model.py:281-396). -/
def Node : Nat → Type
  | 0 => Nat
  | n + 1 => Nat ⊕ Tree (Node n)

/-- Which of the two is read and set (model.py:281-396). -/
inductive What
  | params
  | state
  deriving DecidableEq

/-- `if state is None: return` (model.py:386-390). -/
def What.skips {A : Type} : What → Tree A → Bool
  | .state, .none => true
  | _, _ => false

/-- `except ValueError: raise ValueError` (model.py:330-335) lets other exceptions pass; `except Exception: raise ValueError` (model.py:392-395). -/
def What.raised : What → PyErr → PyErr
  | .params, e => e
  | .state, _ => .valueError

variable {X A H : Type}

/-- `m.get_params()` for all modules (model.py:302, 363); `get` is the accessor of the objects. -/
def getAll (get : X → Tree A) : (n : Nat) → Node n → (Nat → X) → Tree A
  | 0, r, h => get (h r)
  | _ + 1, .inl r, h => get (h r)
  | n + 1, .inr t, h => Tree.bind (fun o => getAll get n o h) (norm t)

/-- The setter of one object of the store; `set` leaves behind a changed object and possibly an exception (model.py:329, 392). -/
def setObj (set : X → Tree A → X × Option PyErr) (r : Nat) (p : Tree A) (h : Nat → X) : (Nat → X) × Option PyErr :=
  (Function.update h r (set (h r) p).1, (set (h r) p).2)

/-- One setter after the other until one raises (model.py:329, 392). -/
def setEach {O P : Type} (f : O → P → H → H × Option PyErr) : List (O × P) → H → H × Option PyErr
  | [], h => (h, Option.none)
  | (o, p) :: l, h => match f o p h with
    | (h', Option.none) => setEach f l h'
    | (h', some e) => (h', some e)

/-- `set_params` and `set_state` (model.py:304-335, 365-396): `jax.tree.map` first takes the tree apart, then calls the setters. -/
def setAll (w : What) (set : X → Tree A → X × Option PyErr) : (n : Nat) → Node n → Tree A → (Nat → X) → (Nat → X) × Option PyErr
  | 0, r, p, h => setObj set r p h
  | _ + 1, .inl r, p, h => setObj set r p h
  | n + 1, .inr t, p, h =>
    if w.skips p then (h, Option.none)
    else match zipPre (norm t) p with
      | .error e => (h, some (w.raised e))
      | .ok r => match setEach (setAll w set n) (flat r) h with
        | (h', Option.none) => (h', Option.none)
        | (h', some e) => (h', some (w.raised e))

/-! ## The library's modules -/

open ModelSer Ser

/-- A library object (the setters of `Verif/Model/SerializeLib.lean`, which check before they write) (basemodule.py:515-564). -/
abbrev LibObj := Lib × MObj Attr

/-- `get_params` of a library object (basemodule.py:515-538). -/
def libGet (x : LibObj) : PyVal := x.1.cls.getParams x.2.attrs

/-- `set_params` of a library object (basemodule.py:542-564). -/
def libSet (x : LibObj) (v : PyVal) : LibObj × Option PyErr :=
  match x.1.cls.setParams x.2.attrs v with
  | .ok a => ((x.1, withAttrs x.2 a), Option.none)
  | .error e => (x, some e)

end Params
end Verif
