import Verif.Model.Loss

/-! # Specification vocabulary for the losses: one entry at a time -/

namespace Verif.Loss

variable {𝕜 : Type} [RCLike 𝕜]

/-- Prediction, target and uncertainty of one entry. -/
abbrev Entry (𝕜 : Type) := 𝕜 × 𝕜 × 𝕜

/-- The error of one entry; `none` if it needs a division by zero. -/
noncomputable def entryErr (k : Kind) (t : Entry 𝕜) : Option ℝ :=
  let e : Option 𝕜 := some (t.1 - t.2.1)
  match k with
  | .mse => some (‖t.1 - t.2.1‖ ^ 2)
  | .mae => some ‖t.1 - t.2.1‖
  | .huber δ => (fdiv e (some ((δ : ℝ) : 𝕜))).map fun x => δ ^ 2 * (Real.sqrt (1 + ‖x‖ ^ 2) - 1)
  | .mseUnc => (fdiv e (some t.2.2)).map fun x => ‖x‖ ^ 2
  | .maeUnc => (fdiv e (some t.2.2)).map fun x => ‖x‖
  | .mre => (fdiv e (some (t.2.1 + tiny))).map fun x => ‖x‖
  | .mreUnc => (fdiv e (some ((t.2.1 + tiny) * t.2.2))).map fun x => ‖x‖
  | .mrd => (fdiv e (some ((t.2.1 + t.1) * 2 + tiny))).map fun x => ‖x‖
  | .mrdUnc => (fdiv e (some (((t.2.1 + t.1) * 2 + tiny) * t.2.2))).map fun x => ‖x‖

/-- What the entry is divided by. -/
noncomputable def divisor (k : Kind) (t : Entry 𝕜) : 𝕜 :=
  match k with
  | .mse => 1
  | .mae => 1
  | .huber δ => ((δ : ℝ) : 𝕜)
  | .mseUnc => t.2.2
  | .maeUnc => t.2.2
  | .mre => t.2.1 + tiny
  | .mreUnc => (t.2.1 + tiny) * t.2.2
  | .mrd => (t.2.1 + t.1) * 2 + tiny
  | .mrdUnc => ((t.2.1 + t.1) * 2 + tiny) * t.2.2

end Verif.Loss
