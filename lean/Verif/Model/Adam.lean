import Verif.Model.Training
import Mathlib.Analysis.SpecialFunctions.Pow.Complex
import Mathlib.Analysis.SpecialFunctions.Pow.Real

/-!
# Model of the Adam updates

Mirrors `/repo/parametricmatrixmodels/training.py` lines 128-299. A parameter array is a function from its index set `ι` to
ℝ or ℂ; all operations are elementwise. Rounding is not modelled (nor the `float32` casts of the bias corrections).
-/

namespace Verif
namespace Adam
open Train

variable {ι : Type}

/-- `np.clip(x, -clip, clip)` (training.py:167, 250-252, 258): `minimum(maximum(x, -clip), clip)`. -/
noncomputable def clipR (clip x : ℝ) : ℝ := min (max x (-clip)) clip

/-- `init` (training.py:147-154, 229-236). -/
def init (x0 : ι → ℝ) : OptState (ι → ℝ) := ⟨x0, fun _ => 0, fun _ => 0, 0⟩

/-- `adam`'s `update` (training.py:156-175). The counter is returned unchanged. -/
noncomputable def update (lr : Nat → ℝ) (b1 b2 eps clip : ℝ) (dx : ι → ℝ) (s : OptState (ι → ℝ)) : OptState (ι → ℝ) :=
  let dx := fun j => clipR clip (dx j)
  let m := fun j => b1 * s.m j + (1 - b1) * dx j
  let v := fun j => b2 * s.v j + (1 - b2) * dx j ^ 2
  let mHat := fun j => m j / (1 - b1 ^ (s.epoch + 1))
  let vHat := fun j => v j / (1 - b2 ^ (s.epoch + 1))
  { params := fun j => s.params j - lr s.epoch * mHat j / (Real.sqrt (vHat j) + eps)
    m := m
    v := v
    epoch := s.epoch }

/-- The clipped conjugate gradient of `complex_adam` (training.py:249-252). -/
noncomputable def clipC (clip : ℝ) (z : ℂ) : ℂ := (clipR clip z.re : ℂ) - Complex.I * (clipR clip z.im : ℂ)

/-- `complex_adam`'s `init` (training.py:229-236). -/
def initC (x0 : ι → ℂ) : OptState (ι → ℂ) := ⟨x0, fun _ => 0, fun _ => 0, 0⟩

/-- `complex_adam`'s `update` for a complex array (training.py:238-268). `np.sqrt` of a complex number is the principal
square root. The counter is increased by one. -/
noncomputable def updateC (lr : Nat → ℝ) (b1 b2 eps clip : ℝ) (dx : ι → ℂ) (s : OptState (ι → ℂ)) : OptState (ι → ℂ) :=
  let dx := fun j => clipC clip (dx j)
  let m := fun j => (b1 : ℂ) * s.m j + (1 - b1) * dx j
  let v := fun j => (b2 : ℂ) * s.v j + (1 - b2) * (dx j * (starRingEnd ℂ) (dx j))
  let mHat := fun j => m j / (1 - (b1 : ℂ) ^ (s.epoch + 1))
  let vHat := fun j => v j / (1 - (b2 : ℂ) ^ (s.epoch + 1))
  { params := fun j => s.params j - lr s.epoch * mHat j / (vHat j ^ (1 / 2 : ℂ) + eps)
    m := m
    v := v
    epoch := s.epoch + 1 }

/-- `complex_adam`'s `update` for a real array (training.py:256-268): the same as `adam`'s but the counter is increased. -/
noncomputable def updateRinC (lr : Nat → ℝ) (b1 b2 eps clip : ℝ) (dx : ι → ℝ) (s : OptState (ι → ℝ)) :
    OptState (ι → ℝ) :=
  { update lr b1 b2 eps clip dx s with epoch := s.epoch + 1 }

/-- Updates with a sequence of gradients, one after another (training.py:355-364). -/
def updates {A : Type} (u : A → OptState A → OptState A) (gs : List A) (s : OptState A) : OptState A :=
  gs.foldl (fun s g => u g s) s

end Adam
end Verif
