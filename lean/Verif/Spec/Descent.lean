import Verif.Model.Training
import Mathlib.Analysis.Calculus.FDeriv.Basic
import Mathlib.Analysis.Complex.Basic
import Mathlib.Topology.Algebra.Module.FiniteDimension

/-! # Specification vocabulary for descent: gradients as they are returned by `jax.grad` -/

namespace Verif.DescentSpec
open Verif.Train

variable {ι : Type} [Fintype ι] [DecidableEq ι]

/-- The gradient of a real array: its partial derivatives. -/
def gradR (l : (ι → ℝ) →L[ℝ] ℝ) : ι → ℝ := fun j => l (Pi.single j 1)

/-- The gradient of a complex array as `jax.grad` returns it: the derivative along the real axis minus `i` times the derivative
along the imaginary axis. -/
noncomputable def gradC (l : (ι → ℂ) →L[ℝ] ℝ) : ι → ℂ :=
  fun j => (l (Pi.single j 1) : ℂ) - Complex.I * (l (Pi.single j Complex.I) : ℂ)

variable {P : Type} [NormedAddCommGroup P] [NormedSpace ℝ P] {n : Nat}

/-- The derivative with respect to the `k`-th of `n` parameter arrays. -/
def part (D : (Fin n → P) →L[ℝ] ℝ) (k : Fin n) : P →L[ℝ] ℝ := D.comp (ContinuousLinearMap.single ℝ (fun _ => P) k)

/-- The parameters in a list of optimiser states as one vector of `n` arrays. -/
def vec (n : Nat) (as : List (OptState P)) : Fin n → P := fun k => ((as[k.val]?).map (·.params)).getD 0

/-- The list of gradients that belongs to the derivative `D`: the gradient of each trainable array, in order. -/
def IsGrad (grad : (P →L[ℝ] ℝ) → P) (flags : List Bool) (D : (Fin n → P) →L[ℝ] ℝ) (ds : List P) : Prop :=
  ∀ k : Fin n, flags[k.val]? = some true → ds[(flags.take k).count true]? = some (grad (part D k))

end Verif.DescentSpec
