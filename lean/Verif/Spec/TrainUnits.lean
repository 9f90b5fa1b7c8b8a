import Verif.Model.Training
import Verif.Model.Adam
import Mathlib.Analysis.Calculus.Deriv.Basic

/-! # What it means to do a training in other units (C126) -/

namespace Verif.TrainUnitsSpec
open Verif.Batch Verif.Train Verif.Adam

variable {α β P Q S K F G : Type}

/-- Data with every slice of the features, targets and uncertainties expressed in other units. -/
def convert (x y u : α → β) (d : Data α) : Data β :=
  ⟨d.X.map (List.map x), d.Y.map (List.map (List.map y)), d.U.map (List.map (List.map u))⟩

/-- An optimiser state with the parameters and the two averages expressed in other units. -/
def convertOpt (p m v : P → Q) (a : OptState P) : OptState Q := ⟨p a.params, m a.m, v a.v, a.epoch⟩

/-- The same for the state of the model and its optimiser. -/
def convertInner (o : OptState P → OptState Q) (i : Inner P S K) : Inner Q S K := ⟨i.adam.map o, i.mstate, i.mrng⟩

/-- An evaluated model with its parameters and its loss in other units. -/
def convertSnap (o : OptState P → OptState Q) (f : F → G) (s : Snap P S K F) : Snap Q S K G := ⟨f s.loss, s.epoch, convertInner o s.inner⟩

/-- The state of a training in other units: counters, patience and random keys are the same. -/
def convertState (o : OptState P → OptState Q) (f : F → G) (t : TState P S K F) : TState Q S K G :=
  ⟨t.batchRng, t.epoch, convertInner o t.inner, f t.valLoss, convertSnap o f t.best, t.patience⟩

/-- `c'` is the training `c` in other units: `x`, `y`, `u` convert the data, `p` parameters, `g` gradients, `m` and `v` the averages of the
optimiser, `f` losses. -/
structure SameTraining (c : Cfg α P S K F) (c' : Cfg β Q S K G) (x y u : α → β) (p g m v : P → Q) (f : F → G) : Prop where
  perm : c'.perm = c.perm
  splitN : c'.splitN = c.splitN
  split : c'.split = c.split
  verbose : c'.verbose = c.verbose
  interrupted : c'.interrupted = c.interrupted
  flags : c'.flags = c.flags
  batchSize : c'.batchSize = c.batchSize
  valBatchSize : c'.valBatchSize = c.valBatchSize
  epochs : c'.epochs = c.epochs
  patience : c'.patience = c.patience
  train : c'.train = convert x y u c.train
  val : c'.val = convert x y u c.val
  target : c'.target = f c.target
  minDelta : c'.minDelta = f c.minDelta
  zero : c'.zero = f c.zero
  lt : ∀ a b, c'.lt (f a) (f b) = c.lt a b
  le : ∀ a b, c'.le (f a) (f b) = c.le a b
  sub : ∀ a b, c'.sub (f a) (f b) = f (c.sub a b)
  add : ∀ a b, c'.add (f a) (f b) = f (c.add a b)
  divNat : ∀ a n, c'.divNat (f a) n = f (c.divNat a n)
  grad : ∀ e b s k ps, c'.grad e (convert x y u b) s k (ps.map p) = ((c.grad e b s k ps).1.map g, (c.grad e b s k ps).2)
  valLoss : ∀ e b s k ps, c'.valLoss e (convert x y u b) s k (ps.map p) = f (c.valLoss e b s k ps)
  callback : ∀ k e ps, c'.callback k e (ps.map p) = ((c.callback k e ps).1, (c.callback k e ps).2.map p)
  update : ∀ d a, c'.update (g d) (convertOpt p m v a) = convertOpt p m v (c.update d a)

/-- Losses are real numbers or not a number (`none`), which is not smaller than anything and contagious. -/
structure RealLosses (c : Cfg α P S K (Option ℝ)) : Prop where
  lt : ∀ a b, c.lt a b = true ↔ ∃ r q, a = some r ∧ b = some q ∧ r < q
  le : ∀ a b, c.le a b = true ↔ ∃ r q, a = some r ∧ b = some q ∧ r ≤ q
  sub : ∀ a b, c.sub a b = a.bind fun r => b.map fun q => r - q
  add : ∀ a b, c.add a b = a.bind fun r => b.map fun q => r + q
  divNat : ∀ a n, c.divNat a n = a.map (· / (n : ℝ))
  zero : c.zero = some 0

/-- The training with another loss function and other parameters: the loss is `κ` times the loss of `c` and the parameters are `μ` times
those of `c`; `update` is the optimiser to be used. The gradients are those of that loss with respect to those parameters (`C126_gradient`).
What the user gives in units of the loss, the target and the smallest improvement, is multiplied by `κ`. -/
noncomputable def rescaled {V : Type} [SMul ℝ V] (κ μ : ℝ) (update : V → OptState V → OptState V) (c : Cfg α V S K (Option ℝ)) : Cfg α V S K (Option ℝ) :=
  { c with
    grad := fun e b s k ps =>
      ((c.grad e b s k (ps.map (μ⁻¹ • ·))).1.map ((κ / μ) • ·), (c.grad e b s k (ps.map (μ⁻¹ • ·))).2)
    valLoss := fun e b s k ps => (c.valLoss e b s k (ps.map (μ⁻¹ • ·))).map (κ * ·)
    callback := fun k e ps => ((c.callback k e (ps.map (μ⁻¹ • ·))).1, (c.callback k e (ps.map (μ⁻¹ • ·))).2.map (μ • ·))
    update := update
    target := c.target.map (κ * ·)
    minDelta := c.minDelta.map (κ * ·) }

/-- The gradient of a loss with respect to a real array: the partial derivatives. -/
noncomputable def gradR {ι : Type} [DecidableEq ι] (L : (ι → ℝ) → ℝ) (M : ι → ℝ) : ι → ℝ := fun i =>
  deriv (fun t : ℝ => L (Function.update M i (M i + t))) 0

/-- The gradient that JAX gives for a complex array: in every entry the derivative with respect to the real part minus `i` times the derivative with
respect to the imaginary part. -/
noncomputable def gradC {ι : Type} [DecidableEq ι] (L : (ι → ℂ) → ℝ) (M : ι → ℂ) : ι → ℂ := fun i =>
  ((deriv (fun t : ℝ => L (Function.update M i (M i + t))) 0 : ℝ) : ℂ) -
    Complex.I * ((deriv (fun t : ℝ => L (Function.update M i (M i + t * Complex.I))) 0 : ℝ) : ℂ)

end Verif.TrainUnitsSpec
