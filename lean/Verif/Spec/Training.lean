import Verif.Model.Training
import Verif.Spec.Batch

/-! # Specification vocabulary for the training loop -/

namespace Verif.TrainSpec
open Batch BatchSpec Train

variable {α P S K F : Type}

/-- What comparison of floats satisfies, NaN included. -/
structure FloatOrder (lt le : F → F → Bool) : Prop where
  irrefl : ∀ a, lt a a = false
  trans : ∀ a b c, lt a b = true → lt b c = true → lt a c = true
  le_lt : ∀ a b c, le a b = true → lt b c = true → lt a c = true

/-- All parts have `n` samples. -/
structure DataUniform (n : Nat) (d : Data α) : Prop where
  X : Uniform n d.X
  Y : ∀ y, d.Y = some y → Uniform n y
  U : ∀ u, d.U = some u → Uniform n u

/-- Sample `i`: features, target, uncertainty. -/
def triple (d : Data α) (i : Nat) : List (Option α) × Option (List (Option α)) × Option (List (Option α)) :=
  (sampleAt d.X i, d.Y.map (sampleAt · i), d.U.map (sampleAt · i))

/-- All samples, in order. -/
def triples (n : Nat) (d : Data α) := (List.range n).map (triple d)

/-- The training steps on the batches `bs`, one after another. Each step hands the current parameters, model state and a
key split off the model key to the gradient; the parameters marked trainable are updated with their gradients. -/
inductive Steps (c : Cfg α P S K F) (epoch : Nat) : List (Data α) → Inner P S K → Inner P S K → Prop
  | nil (i) : Steps c epoch [] i i
  | cons {b bs i i'} {adam : List (OptState P)} :
      applyGrads c.update c.flags i.adam (c.grad epoch b i.mstate (c.split i.mrng).2 (i.adam.map (·.params))).1 = .ok adam →
      Steps c epoch bs ⟨adam, (c.grad epoch b i.mstate (c.split i.mrng).2 (i.adam.map (·.params))).2, (c.split i.mrng).1⟩ i' →
      Steps c epoch (b :: bs) i i'

/-- The epochs of a training run: the evaluated models in order, from a loop state to the state where the loop ends. -/
inductive History (c : Cfg α P S K F) : TState P S K F → List (Snap P S K F) → TState P S K F → Prop
  | stop {s} : epochCond c s = false → History c s [] s
  | epoch {s k snap s' l t} : epochCond c s = true → epochTrain c s = .ok (k, snap) → epochFinish c s k snap = .ok s' →
      History c s' l t → History c s (snap :: l) t

/-- `b` is the first entry of `l` with the smallest loss: no loss is smaller, and every earlier one is worse (larger or
NaN). If it is not the very first entry, its loss is smaller than the first one. -/
def FirstBest (lt le : F → F → Bool) (l : List (Snap P S K F)) (b : Snap P S K F) : Prop :=
  ∃ i : Nat, l[i]? = some b ∧ (∀ x ∈ l, lt x.loss b.loss = false) ∧
    (∀ (j : Nat) (y : Snap P S K F), j < i → l[j]? = some y → le y.loss b.loss = false) ∧
    (i = 0 ∨ ∃ y, l[0]? = some y ∧ lt b.loss y.loss = true)

/-- The smallest loss seen so far, starting from `b`. -/
def bestLoss (lt : F → F → Bool) (b : F) (ls : List F) : F := ls.foldl (fun b v => if lt v b then v else b) b

/-- Did the last of the losses `ls ++ [v]` improve on the best of those before by `minDelta`? -/
def improvedAt (c : Cfg α P S K F) (b : F) (ls : List F) (v : F) : Bool := c.le v (c.sub (bestLoss c.lt b ls) c.minDelta)

/-- `waited c b ls w`: at the end of the losses `ls` (first evaluation `b`), exactly the last `w` epochs brought no
improvement. -/
def Waited (c : Cfg α P S K F) (b : F) (ls : List F) (w : Nat) : Prop :=
  w ≤ ls.length ∧
  (∀ (i : Nat) (v : F), ls.length - w ≤ i → ls[i]? = some v → improvedAt c b (ls.take i) v = false) ∧
  (w < ls.length → ∃ v, ls[ls.length - w - 1]? = some v ∧ improvedAt c b (ls.take (ls.length - w - 1)) v = true)

end Verif.TrainSpec
