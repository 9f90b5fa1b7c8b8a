import Verif.Spec.Training

/-! # Specification: a training in two parts -/

namespace Verif.TrainSpec
open Batch Train

variable {α P S K F : Type}

/-- The same training with another number of epochs. -/
def withEpochs (c : Cfg α P S K F) (n : Nat) : Cfg α P S K F := { c with epochs := n }

/-- The same training with other conditions for ending it. -/
def withStops (c : Cfg α P S K F) (n : Nat) (target minDelta : F) (patience : Int) (interrupted : Nat → Bool) : Cfg α P S K F :=
  { c with epochs := n, target := target, minDelta := minDelta, patience := patience, interrupted := interrupted }

/-- The losses use neither the number of the epoch nor random numbers, and the callback changes nothing. -/
structure Plain (c : Cfg α P S K F) : Prop where
  grad : ∀ e e' b s k k' ps, c.grad e b s k ps = c.grad e' b s k' ps
  loss : ∀ e e' b s k k' ps, c.valLoss e b s k ps = c.valLoss e' b s k' ps
  callback : ∀ k e ps, c.callback k e ps = (k, ps)

/-- Optimiser states with the counters of the trainable parameters advanced by one. -/
def advanced (flags : List Bool) (adam : List (OptState P)) : List (OptState P) :=
  List.zipWith (fun (t : Bool) (a : OptState P) => { a with epoch := a.epoch + t.toNat }) flags adam

/-- Two evaluated models with the same loss, optimiser states (with the parameters) and model state. -/
def SameModel (x y : Snap P S K F) : Prop := x.loss = y.loss ∧ x.inner.adam = y.inner.adam ∧ x.inner.mstate = y.inner.mstate

end Verif.TrainSpec
