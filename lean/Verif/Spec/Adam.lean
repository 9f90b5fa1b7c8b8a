import Mathlib.Analysis.Complex.Basic
import Mathlib.Algebra.BigOperators.Group.List.Basic

/-! # Specification vocabulary for the optimiser -/

namespace Verif.AdamSpec

/-- The exponential average of the history `gs` (oldest first) with factor `b` and start `m0`:
`b^T m0 + (1-b) Σ_t b^(T-1-t) g_t`. -/
noncomputable def expAvg {R : Type} [Ring R] (b m0 : R) (gs : List R) : R :=
  b ^ gs.length * m0 + (1 - b) * (gs.mapIdx fun t g => b ^ (gs.length - 1 - t) * g).sum

end Verif.AdamSpec
