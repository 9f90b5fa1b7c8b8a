import Verif.Spec.Training

/-! # A training run, described step by step

Nothing here calls a function of the model of the training loop; only the data that is passed in (`Cfg`) and the records
that hold a state are shared. -/

namespace Verif.TrainRun
open Train TrainSpec

variable {α P S K F : Type}

/-- `d'` is `d` with its samples in the order that the key gives. Features, target and uncertainty of a sample stay together. -/
def Reordered (c : Cfg α P S K F) (key : K) (n : Nat) (d d' : Data α) : Prop :=
  DataUniform n d' ∧ ∀ (j x : Nat), (c.perm key n)[j]? = some x → triple d' j = triple d x

/-- `bs` are the batches of the `n` samples of `d`: batch `j` consists of the samples from `j * size` on, `size` of them or
what is left, and the last batch reaches the end of the data. -/
structure MiniBatches (n size : Nat) (d : Data α) (bs : List (Data α)) : Prop where
  enough : n ≤ bs.length * size
  needed : bs.length * size < n + size
  each : ∀ (j : Nat) (b : Data α), bs[j]? = some b → DataUniform (min size (n - j * size)) b ∧
    ∀ i, i < min size (n - j * size) → triple b i = triple d (j * size + i)

/-- One training step on the batch `b`: the gradient gets the parameters, the model state and a key split off the model
key. A frozen array and its moments stay; the `m`-th trainable array is updated with the `m`-th gradient. -/
structure StepOf (c : Cfg α P S K F) (epoch : Nat) (b : Data α) (i i' : Inner P S K) : Prop where
  state : i'.mstate = (c.grad epoch b i.mstate (c.split i.mrng).2 (i.adam.map (·.params))).2
  rng : i'.mrng = (c.split i.mrng).1
  number : i'.adam.length = i.adam.length
  frozen : ∀ (j : Nat) (a : OptState P), i.adam[j]? = some a → c.flags[j]? = some false → i'.adam[j]? = some a
  trained : ∀ (j : Nat) (a : OptState P), i.adam[j]? = some a → c.flags[j]? = some true →
    ∃ g, (c.grad epoch b i.mstate (c.split i.mrng).2 (i.adam.map (·.params))).1[(c.flags.take j).count true]? = some g ∧
      i'.adam[j]? = some (c.update g a)

/-- One step per batch, in order. -/
inductive StepsOf (c : Cfg α P S K F) (epoch : Nat) : List (Data α) → Inner P S K → Inner P S K → Prop
  | nil (i) : StepsOf c epoch [] i i
  | cons {b bs i m i'} : StepOf c epoch b i m → StepsOf c epoch bs m i' → StepsOf c epoch (b :: bs) i i'

/-- The validation loss: the losses of the batches of the reordered validation data, each divided by the number of batches,
added up in order. Every batch sees the same parameters, model state and key. -/
def LossOf (c : Cfg α P S K F) (nv : Nat) (i : Inner P S K) (key : K) (epoch : Nat) (loss : F) : Prop :=
  ∃ d bs, Reordered c key nv c.val d ∧ MiniBatches nv c.valBatchSize d bs ∧
    loss = (bs.map fun b => c.divNat (c.valLoss epoch b i.mstate i.mrng (i.adam.map (·.params))) bs.length).foldl c.add c.zero

/-- Training and evaluation of one epoch: every epoch reorders the data anew, with keys split off the batch key. -/
structure Evaluated (c : Cfg α P S K F) (n nv : Nat) (s : TState P S K F) (snap : Snap P S K F) : Prop where
  train : ∃ d bs, Reordered c (c.split s.batchRng).2 n c.train d ∧ MiniBatches n c.batchSize d bs ∧
    StepsOf c s.epoch bs s.inner snap.inner
  loss : LossOf c nv snap.inner (c.split (c.split s.batchRng).1).2 s.epoch snap.loss
  epoch : snap.epoch = s.epoch

/-- What an epoch leaves: the loss is compared with the best one before; the callback may replace the parameters after
the best model has been chosen; the counters of the trainable arrays go up by one. -/
structure Finished (c : Cfg α P S K F) (s : TState P S K F) (snap : Snap P S K F) (s' : TState P S K F) : Prop where
  better : c.lt snap.loss s.best.loss = true → s'.best = snap
  notBetter : c.lt snap.loss s.best.loss = false → s'.best = s.best
  improved : c.le snap.loss (c.sub s.best.loss c.minDelta) = true → s'.patience = c.patience
  waited : c.le snap.loss (c.sub s.best.loss c.minDelta) = false → s'.patience = s.patience - 1
  epoch : s'.epoch = s.epoch + 1
  valLoss : s'.valLoss = snap.loss
  state : s'.inner.mstate = snap.inner.mstate
  rng : s'.inner.mrng = snap.inner.mrng
  batchRng : s'.batchRng =
    (c.callback (c.split (c.split s.batchRng).1).1 s.epoch (snap.inner.adam.map (·.params))).1
  number : s'.inner.adam.length = snap.inner.adam.length
  params : s'.inner.adam.map (·.params) =
    (c.callback (c.split (c.split s.batchRng).1).1 s.epoch (snap.inner.adam.map (·.params))).2
  moments : ∀ (j : Nat) (a a' : OptState P), snap.inner.adam[j]? = some a → s'.inner.adam[j]? = some a' →
    a'.m = a.m ∧ a'.v = a.v ∧ (c.flags[j]? = some true → a'.epoch = a.epoch + 1) ∧
      (c.flags[j]? = some false → a'.epoch = a.epoch)

/-- Another epoch is run if no interrupt is pending (looked at in verbose runs), epochs are left, the best loss is above
the target and patience is left. -/
def GoesOn (c : Cfg α P S K F) (s : TState P S K F) : Prop :=
  ¬ (c.verbose = true ∧ c.interrupted s.epoch = true) ∧ s.epoch < c.epochs ∧ c.lt c.target s.best.loss = true ∧ 0 < s.patience

/-- The epochs from a state to the end of the run, with the evaluated models. -/
inductive Epochs (c : Cfg α P S K F) (n nv : Nat) : TState P S K F → List (Snap P S K F) → TState P S K F → Prop
  | stop {s} : ¬ GoesOn c s → Epochs c n nv s [] s
  | next {s snap s' l t} : GoesOn c s → Evaluated c n nv s snap → Finished c s snap s' → Epochs c n nv s' l t →
      Epochs c n nv s (snap :: l) t

/-- The state before the first epoch: the given parameters and model state, evaluated once. -/
structure Start (c : Cfg α P S K F) (nv : Nat) (batchRng : K) (adam : List (OptState P)) (st : S) (rng : K)
    (s : TState P S K F) : Prop where
  epoch : s.epoch = 0
  inner : s.inner = ⟨adam, st, (c.split rng).1⟩
  batchRng : s.batchRng = batchRng
  patience : s.patience = c.patience
  loss : LossOf c nv s.inner (c.split rng).2 0 s.valLoss
  best : s.best = ⟨s.valLoss, 0, s.inner⟩

end Verif.TrainRun
