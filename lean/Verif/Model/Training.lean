import Verif.Model.Batch

/-!
# Model of the training loop

Mirrors `/repo/parametricmatrixmodels/training.py` lines 34-63 and 302-1128.

The numerical parts (gradients, validation loss of one batch, parameter update, user callback) are parameters of the model,
collected in `Cfg`. Losses live in a type `F` with Boolean comparisons, so that NaN (incomparable with everything) is
included. Progress-bar callbacks return 0 and are left out.
-/

namespace Verif
namespace Train
open Batch

/-- `OptimizerState` (training.py:34-63): one parameter array with its moments and its own counter. -/
structure OptState (P : Type) where
  params : P
  m : P
  v : P
  epoch : Nat

/-- Features with optional targets and optional uncertainties (training.py:413-430). -/
structure Data (α : Type) where
  X : Leaves α
  Y : Option (Leaves α)
  U : Option (Leaves α)

variable {α P S K F : Type}

/-- The same leaf-list operation on all three parts, absent parts stay absent (`... if Y is not None else None`) (training.py:555-570, 768-778). -/
def Data.mapM (f : Leaves α → Except PyErr (Leaves α)) (d : Data α) : Except PyErr (Data α) := do
  let X ← f d.X
  let Y ← match d.Y with
    | none => pure none
    | some y => do let y' ← f y; pure (some y')
  let U ← match d.U with
    | none => pure none
    | some u => do let u' ← f u; pure (some u')
  return ⟨X, Y, U⟩

/-- Shuffling features, targets and uncertainties with one key (training.py:887-898, 593-608). -/
def Data.shuffle (perm : K → Nat → List Nat) (split : K → Nat → List K) (key : K) (d : Data α) : Data α :=
  { X := permuteLeaves perm split d.X key false
    Y := d.Y.map fun y => permuteLeaves perm split y key false
    U := d.U.map fun u => permuteLeaves perm split u key false }

/-- The batches of an epoch in processing order: the full ones (training.py:768-778 in the loop 919-921; 555-570 in
611-623) and the remainder (930-960; 626-656). Simplification: the code slices inside the loop; the sliced data does not
change during the loop. -/
def batches (d : Data α) (size : Nat) : Except PyErr (List (Data α)) := do
  let n ← numSamples d.X
  if size = 0 then throw .zeroDivision
  let full ← (List.range (n / size)).mapM fun i => d.mapM fun X => batchLeaves X size i none
  if n % size > 0 then
    let r ← d.mapM fun X => batchLeaves X size (n / size) (some (n % size))
    return full ++ [r]
  else
    return full

/-- Everything a run of `_train` is given besides the initial values (training.py:397-456). -/
structure Cfg (α P S K F : Type) where
  /-- `jax.random.permutation` on indices -/
  perm : K → Nat → List Nat
  /-- `jax.random.split(key, n)`, only used by the shuffling of independent leaves -/
  splitN : K → Nat → List K
  /-- `jax.random.split(key)` -/
  split : K → K × K
  /-- `grad_loss_fn`: epoch, batch, model state, model rng, parameters; gradients of the trainable ones and new state -/
  grad : Nat → Data α → S → K → List P → List P × S
  /-- `val_loss_fn` on one batch; its new state is discarded by the code -/
  valLoss : Nat → Data α → S → K → List P → F
  /-- `update_fn` of the optimiser -/
  update : P → OptState P → OptState P
  /-- the user's callback: rng, epoch, parameters -/
  callback : K → Nat → List P → K × List P
  /-- `verbose`: only then interrupts are looked at -/
  verbose : Bool
  /-- has an interrupt been requested when the loop condition is evaluated before epoch `i`? -/
  interrupted : Nat → Bool
  flags : List Bool
  train : Data α
  val : Data α
  batchSize : Nat
  valBatchSize : Nat
  epochs : Nat
  target : F
  patience : Int
  minDelta : F
  lt : F → F → Bool
  le : F → F → Bool
  sub : F → F → F
  add : F → F → F
  divNat : F → Nat → F
  zero : F

variable (c : Cfg α P S K F)

/-- The loop over parameters in `_train_step` (training.py:355-364): the gradient list is consumed only by trainable
parameters. -/
def applyGrads (update : P → OptState P → OptState P) : List Bool → List (OptState P) → List P →
    Except PyErr (List (OptState P))
  | true :: _, _ :: _, [] => .error .indexError
  | true :: ts, a :: as, d :: ds => do
    let rest ← applyGrads update ts as ds
    return update d a :: rest
  | false :: ts, a :: as, ds => do
    let rest ← applyGrads update ts as ds
    return a :: rest
  | [], _, _ => .ok []
  | _ :: _, [], _ => .ok []

/-- Optimiser states, model state and model rng: what a training step updates (training.py:303-370). -/
structure Inner (P S K : Type) where
  adam : List (OptState P)
  mstate : S
  mrng : K

/-- `_train_step` (training.py:303-370). -/
def trainStep (epoch : Nat) (i : Inner P S K) (b : Data α) : Except PyErr (Inner P S K) := do
  let (newRng, rng) := c.split i.mrng
  let (ds, s') := c.grad epoch b i.mstate rng (i.adam.map (·.params))
  let adam' ← applyGrads c.update c.flags i.adam ds
  return ⟨adam', s', newRng⟩

/-- `batched_val_loss_fn` (training.py:502-509, 518-675): shuffle, then sum of the batch losses divided by the number of batches. -/
def batchedValLoss (i : Inner P S K) (epochRng : K) (epoch : Nat) : Except PyErr F := do
  let bs ← batches (c.val.shuffle c.perm c.splitN epochRng) c.valBatchSize
  let n ← numSamples c.val.X
  let total := n / c.valBatchSize + (if n % c.valBatchSize > 0 then 1 else 0)
  return bs.foldl (fun acc b =>
    c.add acc (c.divNat (c.valLoss epoch b i.mstate i.mrng (i.adam.map (·.params))) total)) c.zero

/-- What is remembered about an evaluated model: the tuple selected at training.py:1005-1023. -/
structure Snap (P S K F : Type) where
  loss : F
  epoch : Nat
  inner : Inner P S K

/-- The carry of the epoch loop (training.py:1084-1098). -/
structure TState (P S K F : Type) where
  batchRng : K
  epoch : Nat
  inner : Inner P S K
  valLoss : F
  best : Snap P S K F
  patience : Int

/-- `epoch_cond_fn` (training.py:829-861). -/
def epochCond (s : TState P S K F) : Bool :=
  (!(c.verbose && c.interrupted s.epoch)) && decide (s.epoch < c.epochs) && c.lt c.target s.best.loss &&
    decide (0 < s.patience)

/-- First part of `epoch_body_fn` (training.py:884-992): shuffle, train on all batches, validate. -/
def epochTrain (s : TState P S K F) : Except PyErr (K × Snap P S K F) := do
  let (k1, e1) := c.split s.batchRng
  let bs ← batches (c.train.shuffle c.perm c.splitN e1) c.batchSize
  let inner ← bs.foldlM (trainStep c s.epoch) s.inner
  let (k2, e2) := c.split k1
  let loss ← batchedValLoss c inner e2 s.epoch
  return (k2, ⟨loss, s.epoch, inner⟩)

/-- Second part of `epoch_body_fn` (training.py:994-1065): patience, best model, callback, counters. -/
def epochFinish (s : TState P S K F) (k : K) (snap : Snap P S K F) : Except PyErr (TState P S K F) := do
  let improved : Int := if c.le snap.loss (c.sub s.best.loss c.minDelta) then 1 else 0
  let patience := c.patience * improved + (s.patience - 1) * (1 - improved)
  let best := if c.lt snap.loss s.best.loss then snap else s.best
  let (k', params) := c.callback k s.epoch (snap.inner.adam.map (·.params))
  if params.length ≠ snap.inner.adam.length then throw .valueError
  let adam := List.zipWith (fun p (a : OptState P) => { a with params := p }) params snap.inner.adam
  let adam := List.zipWith (fun (t : Bool) (a : OptState P) => { a with epoch := a.epoch + t.toNat }) c.flags adam
  return { batchRng := k', epoch := s.epoch + 1, inner := { snap.inner with adam := adam }, valLoss := snap.loss,
           best := best, patience := patience }

/-- `epoch_body_fn` (training.py:863-1065). -/
def epochBody (s : TState P S K F) : Except PyErr (TState P S K F) := do
  let (k, snap) ← epochTrain c s
  epochFinish c s k snap

/-- `lax.while_loop(epoch_cond_fn, epoch_body_fn, ...)` (training.py:1100-1103) with a step budget. -/
def loop : Nat → TState P S K F → Except PyErr (TState P S K F)
  | 0, s => .ok s
  | n + 1, s => if epochCond c s then (do let s' ← epochBody c s; loop n s') else .ok s

/-- The initial carry (training.py:1067-1098); `start_epoch` is always 0 (1712). -/
def initial (batchRng : K) (adam : List (OptState P)) (state : S) (rng : K) : Except PyErr (TState P S K F) := do
  let (r, e) := c.split rng
  let inner : Inner P S K := ⟨adam, state, r⟩
  let loss ← batchedValLoss c inner e 0
  return { batchRng := batchRng, epoch := 0, inner := inner, valLoss := loss, best := ⟨loss, 0, inner⟩,
           patience := c.patience }

/-- `_train` (training.py:397-1128). The step budget `epochs` is never what ends the loop (`C31_stops`). -/
def run (batchRng : K) (adam : List (OptState P)) (state : S) (rng : K) : Except PyErr (TState P S K F) := do
  let s ← initial c batchRng adam state rng
  loop c c.epochs s

end Train
end Verif
