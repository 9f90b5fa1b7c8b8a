import Verif.Spec.Training

/-! Specification of a training whose learning rate changes from epoch to epoch. -/

namespace Verif.ScheduleSpec

open Verif.Train

variable {α P S K F R : Type}

/-- A training in which epoch `e` is an epoch with the fixed learning rate `lr e`, from epoch `e` on; `u r` is the update with the fixed learning rate `r`. -/
inductive ByEpochs (c : Cfg α P S K F) (u : R → P → OptState P → OptState P) (lr : Nat → R) : Nat → TState P S K F → TState P S K F → Prop
  | stop {e s} : epochCond c s = false → ByEpochs c u lr e s s
  | epoch {e s s' t} : epochCond c s = true → epochBody { c with update := u (lr e) } s = .ok s' → ByEpochs c u lr (e + 1) s' t → ByEpochs c u lr e s t

/-- All trainable parameters have been trained for `e` epochs. -/
def Counted (flags : List Bool) (adam : List (OptState P)) (e : Nat) : Prop :=
  ∀ (j : Nat) (a : OptState P), flags[j]? = some true → adam[j]? = some a → a.epoch = e

/-- The batches `bs` of the epoch `n` lead from `i` to `j`, the first with the fixed learning rate `lr e`, the next with `lr (e+1)` and so on. -/
inductive ByBatches (c : Cfg α P S K F) (u : R → P → OptState P → OptState P) (lr : Nat → R) (n : Nat) : Nat → List (Data α) → Inner P S K → Inner P S K → Prop
  | done {e i} : ByBatches c u lr n e [] i i
  | batch {e b bs i i' j} : trainStep { c with update := u (lr e) } n i b = .ok i' → ByBatches c u lr n (e + 1) bs i' j → ByBatches c u lr n e (b :: bs) i j

/-- A training that starts with the learning rate `lr e`, takes the next one with every batch and skips one at the end of every epoch. -/
inductive Ticking (c : Cfg α P S K F) (u : R → P → OptState P → OptState P) (lr : Nat → R) : Nat → TState P S K F → TState P S K F → Prop
  | stop {e s} : epochCond c s = false → Ticking c u lr e s s
  | epoch {e s bs k snap s' t} : epochCond c s = true →
      batches (c.train.shuffle c.perm c.splitN (c.split s.batchRng).2) c.batchSize = .ok bs → ByBatches c u lr s.epoch e bs s.inner snap.inner →
      epochTrain c s = .ok (k, snap) → epochFinish c s k snap = .ok s' → Ticking c u lr (e + bs.length + 1) s' t → Ticking c u lr e s t

end Verif.ScheduleSpec
