import Verif.Spec.Training

/-! # Specification vocabulary for trainings in which every batch is the whole data -/

namespace Verif.TrainSpec
open Batch BatchSpec Train

variable {α P S K F : Type}

/-- Gradients, new states and losses of a batch depend on which samples it has and not on their order. -/
structure OrderFree (c : Cfg α P S K F) : Prop where
  grad : ∀ n d d', DataUniform n d → DataUniform n d' → (triples n d').Perm (triples n d) → ∀ e s k ps, c.grad e d' s k ps = c.grad e d s k ps
  loss : ∀ n d d', DataUniform n d → DataUniform n d' → (triples n d').Perm (triples n d) → ∀ e s k ps, c.valLoss e d' s k ps = c.valLoss e d s k ps

/-- What a training ends with, other than the key for shuffling: the number of epochs, the last model, its loss, the best model, the patience that is left. -/
def outcome (t : TState P S K F) : Nat × Inner P S K × F × Snap P S K F × Int := (t.epoch, t.inner, t.valLoss, t.best, t.patience)

end Verif.TrainSpec
