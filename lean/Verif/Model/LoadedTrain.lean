import Verif.Model.Loaded
import Verif.Model.ModelTrain

/-!
# Model of training a model that may have been loaded

Mirrors `Model.train` (`/repo/parametricmatrixmodels/model.py` lines 1031-1249), `get_trainable_modules` (1251-1264), the property `trainable` (86-95) and `set_rng` (401-418) for the objects of
`Verif.Model.ModelFile`, with models inside models to any depth. The function `training.train` with the data, the losses and the options is a parameter: it is given the arguments that the model passes to it
(what it does with them is in `Verif.Model.Training` and `Verif.Model.ModelTrain`).

Simplifications: the model is ready (otherwise it is compiled first); an exception loses what has been written before (see `Verif.Model.ModelTrain` for what stays); a key that is none raises before the training function
looks at the other arguments.
-/

namespace Verif
namespace Loaded
open Tree Ser ModelSer Forward
open Nested (ValAt)

variable {σ D A X : Type}

/-- The property `trainable`: a model is trainable if any of its modules is (model.py:86-90). -/
def trainableAt (tr : σ → Bool) : ∀ n, Obj σ A n → Bool
  | 0 => tr
  | n + 1 => Sum.elim tr fun M => (jaxLeaves M.modules).any (trainableAt tr n)

/-- `trainable_flags` (model.py:1193-1199, 1251-1264). -/
def flagsOf (ops : Ops σ D) (tr : σ → Bool) (M : Mdl σ A) : Except PyErr (Tree Bool) :=
  ModelTrain.broadcast (map (fun m => tr m && decide ((jaxLeaves (ops.getParams m)).length > 0)) M.modules.norm) (ModelSer.getParams ops M)

/-- The callable of a model (model.py:1113). -/
abbrev Callable (X : Type) (n : Nat) : Type := Tree (ValAt PyVal n) → Tree X → Bool → Tree (ValAt PyVal n) → Nat → Except PyErr (Tree X × Tree (ValAt PyVal n))

/-- What the model passes to `training.train` (model.py:1202-1240). JAX reads the optimiser states with the dictionaries in key order. -/
structure Args (X A : Type) (n : Nat) where
  resume : Bool
  opt : Option (Tree (OptState.St A))
  params : PyVal
  flags : Tree Bool
  state : PyVal
  rng : Nat
  callable : Callable X n

/-- What `training.train` returns (model.py:1202-1209). -/
structure Trained (A : Type) where
  params : PyVal
  state : PyVal
  rng : Nat
  opt : Tree (OptState.St A)

/-- One call of `train`: the input, of which the shape is checked, the argument `resume`, and `training.train` with all the other arguments (model.py:1031-1060). -/
structure Job (X A : Type) (n : Nat) where
  data : Tree X
  resume : Bool
  run : Args X A n → Except PyErr (Trained A)

/-- The key after training: the keys that are split off a raw key are raw (model.py:1246, 401-418). -/
def newKey : Key → Nat → Key
  | .raw _, k => .raw k
  | _, k => .typed k

/-- What the model passes to `training.train` (model.py:1094-1240). -/
def trainArgs (ops : Ops σ D) (tr : σ → Bool) (w r : Str) (fresh : Str → Nat → Nat → Str) (sig : Sig σ PyVal PyVal Nat X) (n : Nat) (resume : Bool) (M : Mdl (Obj σ A n) A) : Except PyErr (Args X A n) :=
  match flagsOf (opsAt ops w r n) (trainableAt tr n) M with
  | .error e => .error e
  | .ok flags => match ModelSer.getState (opsAt ops w r n) M with
    | .error e => .error e
    | .ok state => match keyData M.rng with
      | .error e => .error e
      | .ok key => .ok {
          resume := resume
          opt := M.opt.map norm
          params := ModelSer.getParams (opsAt ops w r n) M
          flags := flags
          state := state
          rng := key
          callable := modelCall (callAt fresh sig n) fresh M }

/-- What the model does with the result (model.py:1242-1249). -/
def store (ops : Ops σ D) (M : Mdl σ A) (t : Trained A) : Except PyErr (Mdl σ A) :=
  match ModelSer.setParams ops M t.params with
  | .error e => .error e
  | .ok M₁ => match ModelSer.setState ops M₁ t.state with
    | .error e => .error e
    | .ok M₂ => .ok { M₂ with rng := newKey M.rng t.rng, opt := some t.opt }

/-- `Model.train` of a model that is ready (model.py:1031-1249). `fits` is the comparison of `_verify_input` (model.py:492-508). -/
def train (ops : Ops σ D) (tr : σ → Bool) (w r : Str) (fresh : Str → Nat → Nat → Str) (sig : Sig σ PyVal PyVal Nat X) (fits : Tree Int → Tree X → Bool) (n : Nat) (j : Job X A n) (M : Mdl (Obj σ A n) A) :
    Except PyErr (Mdl (Obj σ A n) A) :=
  if !fits M.inShape j.data then .error .valueError
  else match trainArgs ops tr w r fresh sig n j.resume M with
    | .error e => .error e
    | .ok a => match j.run a with
      | .error e => .error e
      | .ok t => store (opsAt ops w r n) M t

end Loaded
end Verif
