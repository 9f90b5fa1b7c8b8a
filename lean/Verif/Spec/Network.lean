import Mathlib.Data.Real.Basic
import Mathlib.Algebra.BigOperators.Group.Finset.Basic

/-! # Networks on paper -/

namespace Verif.NetworkSpec

/-- A layer: the number of outputs, the weights, the bias if there is one, the activation if there is one. -/
structure Layer where
  out : Nat
  W : Nat → Nat → ℝ
  b : Option (Nat → ℝ)
  act : Option (ℝ → ℝ)

/-- The activation; the identity if there is none. -/
def Layer.fn (L : Layer) : ℝ → ℝ := L.act.getD id

/-- Output `r` of a layer with `f` inputs. -/
noncomputable def Layer.at (L : Layer) (f : Nat) (x : Nat → ℝ) (r : Nat) : ℝ := L.fn (∑ j ∈ Finset.range f, L.W r j * x j + L.b.elim 0 (· r))

/-- The outputs of a network with `f` inputs. -/
noncomputable def net : Nat → List Layer → (Nat → ℝ) → Nat → ℝ
  | _, [], x => x
  | f, L :: Ls, x => net L.out Ls (L.at f x)

/-- The number of outputs of a network with `f` inputs. -/
def width : Nat → List Layer → Nat
  | f, [] => f
  | _, L :: Ls => width L.out Ls

/-- `c` is the product, over the layers, of a Lipschitz constant of the activation and a bound of the absolute row sums of the weights. -/
def Steep : Nat → List Layer → ℝ → Prop
  | _, [], c => c = 1
  | f, L :: Ls, c => ∃ a k c', 0 ≤ a ∧ 0 ≤ k ∧ (∀ r < L.out, ∑ j ∈ Finset.range f, |L.W r j| ≤ a) ∧ (∀ u v, |L.fn u - L.fn v| ≤ k * |u - v|) ∧ Steep L.out Ls c' ∧ c = k * a * c'

end Verif.NetworkSpec
