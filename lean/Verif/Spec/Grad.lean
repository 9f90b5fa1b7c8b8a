import Verif.Spec.Batch
import Verif.Model.Grad

/-! # Specification vocabulary for gradients -/

namespace Verif.GradSpec
open Batch BatchSpec

variable {α γ δ S W : Type}

/-- `X` with sample `i` replaced by `x`. -/
def replaceSample (X : Leaves α) (i : Nat) (x : List α) : Leaves α := List.zipWith (fun l a => l.set i a) X x

/-- The function returns one row per sample. -/
def RowPerSample (f : Leaves α → S → Leaves γ × S) : Prop := ∀ n X s, Uniform n X → ∀ y ∈ (f X s).1, y.length = n

/-- A derivative depends on the values of the function at points of the same structure only. -/
def DependsOnValues (jac : (List α → List (Option γ)) → List α → List δ) : Prop :=
  ∀ g g' x, (∀ x' : List α, x'.length = x.length → g x' = g' x') → jac g x = jac g' x

end Verif.GradSpec
