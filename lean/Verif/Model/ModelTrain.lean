import Verif.Model.Params
import Verif.Model.Training

/-!
# Training a model

Mirrors `Model.train` (`/repo/parametricmatrixmodels/model.py` lines 1031-1249), `Model.get_trainable_modules` (1251-1264), the property `Model.trainable` (86-95) and the parts of `training.train`
(`/repo/parametricmatrixmodels/training.py` lines 1270-1738) that take the parameters apart and put them together again. The training loop is `Train.run`; the checks of the data are those of
`Verif/Model/TrainArgs.lean` and a parameter here.
-/

namespace Verif
namespace ModelTrain
open Tree Params Train

/-- What a model does with its modules: reading and setting parameters and state, and the attribute `trainable` (model.py:86-95, 281-396). -/
structure Ops (X A : Type) where
  getP : X → Tree A
  setP : X → Tree A → X × Option PyErr
  getS : X → Tree A
  setS : X → Tree A → X × Option PyErr
  trainable : X → Bool

/-- What training reads and writes: the module objects, the random key (`Model.rng`) and the optimiser state (`Model._optimizer_state`) (model.py:97-134, 1186-1249). -/
structure MState (X A K : Type) where
  store : Nat → X
  rng : K
  opt : Option (Tree (OptState A))

variable {X A K α F : Type}

/-- `trainable` of a module: a model is trainable if any of its modules is (model.py:86-90). -/
def nodeTrainable (tr : X → Bool) : (n : Nat) → Node n → (Nat → X) → Bool
  | 0, r, h => tr (h r)
  | _ + 1, .inl r, h => tr (h r)
  | n + 1, .inr t, h => (jaxLeaves t).any fun o => nodeTrainable tr n o h

/-- Assigning `trainable` to a module: a model assigns it to all its modules (model.py:92-95). `setT` is the assignment to an object. -/
def setTrainable (setT : X → Bool → X) (v : Bool) : (n : Nat) → Node n → (Nat → X) → (Nat → X)
  | 0, r, h => Function.update h r (setT (h r) v)
  | _ + 1, .inl r, h => Function.update h r (setT (h r) v)
  | n + 1, .inr t, h => (jaxLeaves t).foldl (fun h o => setTrainable setT v n o h) h

/-- `is_trainable` (model.py:1259-1262). (`None` has no leaves.) -/
def isTrainable (o : Ops X A) (n : Nat) (h : Nat → X) (x : Node n) : Bool :=
  nodeTrainable o.trainable n x h && decide ((jaxLeaves (getAll o.getP n x h)).length > 0)

/-- `jax.tree.broadcast(prefix, full)`: the value of each leaf of the prefix at all leaves below its place (model.py:1197-1199). -/
def broadcast {β γ : Type} (pre : Tree β) (full : Tree γ) : Except PyErr (Tree β) :=
  (zipPre (norm pre) full).map fun r => Tree.bind (fun x => map (fun _ => x.1) x.2) r

/-- `trainable_flags` (model.py:1197-1199). -/
def flagTree (o : Ops X A) (n : Nat) (t : Tree (Node n)) (h : Nat → X) : Except PyErr (Tree Bool) :=
  broadcast (map (isTrainable o n h) (norm t)) (getAll o.getP (n + 1) (.inr t) h)

/-- The arguments of one call of `train`. `cfg` holds the data, the batch sizes, the stop conditions, the optimiser and the callback; its gradients, validation loss and flags are replaced by those
made from `grad` and `val`, which are given the parameters as a tree (model.py:1031-1060). -/
structure Job (X A K α F : Type) where
  /-- compiling if the model is not ready, and the check of the input (model.py:1094-1107) -/
  prepare : MState X A K → MState X A K × Option PyErr
  /-- the checks of the data and the loss functions (model.py:1115-1184; training.py:1393-1529) -/
  checks : Option PyErr
  cfg : Cfg α A (Tree A) K F
  /-- epoch, batch, state, key, parameters: gradients of the trainable parameters and the new state (training.py:1571-1622) -/
  grad : Nat → Data α → Tree A → K → Tree A → List A × Tree A
  val : Nat → Data α → Tree A → K → Tree A → F
  /-- `init_fn` of the optimiser -/
  init : A → OptState A
  batchRng : K

/-- `jax.tree.unflatten(orig_struct, params)` inside the losses (training.py:1585, 1601). In the loop the number of parameters never changes, so that this does not fail. -/
def rebuild {β : Type} (struct : Tree β) (ps : List A) : Tree A := match unflatten struct ps with
  | .ok p => p
  | .error _ => .none

/-- What `_train` is called with (training.py:1684-1720). -/
def mkCfg {β : Type} (j : Job X A K α F) (struct : Tree β) (flags : List Bool) : Cfg α A (Tree A) K F :=
  { j.cfg with
    flags := flags
    grad := fun e b s k ps => j.grad e b s k (rebuild struct ps)
    valLoss := fun e b s k ps => j.val e b s k (rebuild struct ps) }

/-- The optimiser states that training starts with, in order (training.py:1540-1563, 1667-1668). The parameters of `init_params` are not looked at if `resume` is set. -/
def start (j : Job X A K α F) (resume : Bool) (opt : Option (Tree (OptState A))) (params : Tree A) (flags : Tree Bool) : Except PyErr (List (OptState A)) :=
  match resume, opt with
  | true, some a => if sameStruct a.norm flags.norm then .ok (jaxLeaves a) else .error .valueError
  | true, Option.none => .error .valueError
  | false, _ => .ok ((jaxLeaves params).map j.init)

/-- `training.train` as called by the model (training.py:1270-1738): the best parameters, state, key and optimiser states. The structure is that of the flags, with which those of the parameters and the
optimiser states are compared. -/
def core (o : Ops X A) (n : Nat) (t : Tree (Node n)) (j : Job X A K α F) (resume : Bool) (m : MState X A K) : Except PyErr (Tree A × Tree A × K × Tree (OptState A)) := do
  let params := getAll o.getP (n + 1) (.inr t) m.store
  let flags ← flagTree o n t m.store
  if resume && m.opt.isNone then throw .valueError
  match j.checks with
    | some e => throw e
    | Option.none => pure ()
  if !sameStruct params.norm flags.norm then throw .valueError
  let adam ← start j resume m.opt params flags
  let r ← run (mkCfg j flags (jaxLeaves flags)) j.batchRng adam (getAll o.getS (n + 1) (.inr t) m.store) m.rng
  let p ← unflatten flags (r.best.inner.adam.map (·.params))
  let a ← unflatten flags r.best.inner.adam
  return (p, r.best.inner.mstate, r.best.inner.mrng, a)

/-- `Model.train` (model.py:1031-1249). The model has the modules `t`. What was written before an exception stays. -/
def train (o : Ops X A) (n : Nat) (t : Tree (Node n)) (j : Job X A K α F) (resume : Bool) (m : MState X A K) : MState X A K × Option PyErr :=
  match j.prepare m with
  | (m, some e) => (m, some e)
  | (m, Option.none) => match core o n t j resume m with
    | .error e => (m, some e)
    | .ok (p, s, k, a) => match setAll .params o.setP (n + 1) (.inr t) p m.store with
      | (h, some e) => ({ m with store := h }, some e)
      | (h, Option.none) => match setAll .state o.setS (n + 1) (.inr t) s h with
        | (h', some e) => ({ m with store := h' }, some e)
        | (h', Option.none) => (⟨h', k, some a⟩, Option.none)

end ModelTrain
end Verif
