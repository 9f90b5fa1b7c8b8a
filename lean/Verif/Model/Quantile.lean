import Mathlib.Data.Real.Archimedean
import Mathlib.Data.List.Sort

/-!
# `jnp.quantile` with linear interpolation

JAX is not part of the repository; the scalers (`/repo/parametricmatrixmodels/preprocessing/robust_scaler.py` lines 128-167) and the
conformal models (`/repo/parametricmatrixmodels/conformal/conformalizedmodel.py` line 1180) rely on this documented behaviour: the
data is sorted and the level `q` is turned into the position `q (n-1)`, between whose two neighbours the result is interpolated;
neighbours outside the data are clamped.
-/

namespace Verif
namespace Quantile

/-- An index clamped to `0 .. n-1` (conformalizedmodel.py:1172-1178). -/
def clamp (n : Nat) (i : ℤ) : Nat := (max 0 (min i ((n : ℤ) - 1))).toNat

open scoped Classical in
/-- The quantile of a list of numbers; without data not a number (conformalizedmodel.py:1172-1178). -/
noncomputable def quant (xs : List ℝ) (q : ℝ) : Option ℝ :=
  let s := xs.insertionSort (· ≤ ·)
  let n := s.length
  if n = 0 then none
  else
    let pos := q * ((n : ℝ) - 1)
    let hw := pos - ⌊pos⌋
    some (s.getD (clamp n ⌊pos⌋) 0 * (1 - hw) + s.getD (clamp n ⌈pos⌉) 0 * hw)

end Quantile
end Verif
