import Verif.Model.Hermitian
import Mathlib.Data.Real.Basic

/-!
# Model of the observable modules

Mirrors `/repo/parametricmatrixmodels/modules/expectationvaluesum.py` and `transitionamplitudesum.py`. Numbers are exact; `Ds` of shape
`(q, l, n, n)` is a family of matrices; the states of one sample are the `r` columns of an `n × r` matrix (other sizes are refused at
compile time, not modelled here). The spectral norm `np.linalg.norm(..., ord=2)` is a parameter.
-/

namespace Verif
namespace Observables
open Hermitian
open scoped ComplexConjugate

variable {q l n r : Nat}

/-- The subtracted term (expectationvaluesum.py:178-180, transitionamplitudesum.py:179-181):
`0.5 * np.sum(np.linalg.norm(Ds, axis=(2, 3), ord=2) ** 2, axis=1)`. -/
noncomputable def normTerm (nrm : Mat n n → ℝ) (Ds : Fin q → Fin l → Mat n n) (k : Fin q) : ℝ := 0.5 * ∑ m, nrm (Ds k m) ^ 2

/-- `np.einsum("ai,klab,bi->k", V.conj(), Ds, V)` (expectationvaluesum.py:173). -/
noncomputable def expectSum (Ds : Fin q → Fin l → Mat n n) (V : Mat n r) (k : Fin q) : ℂ :=
  ∑ a, ∑ i, ∑ m, ∑ b, conj (V a i) * Ds k m a b * V b i

/-- `_single` of `ExpectationValueSum` (expectationvaluesum.py:170-184). -/
noncomputable def expectSingle (nrm : Mat n n → ℝ) (centered : Bool) (Ds : Fin q → Fin l → Mat n n) (V : Mat n r) (k : Fin q) : ℝ :=
  if centered then (expectSum Ds V k).re - normTerm nrm Ds k else (expectSum Ds V k).re

/-- `np.einsum("ai,klab,bj->klij", V.conj(), Ds, V)` (transitionamplitudesum.py:173). -/
noncomputable def amplitude (Ds : Fin q → Fin l → Mat n n) (V : Mat n r) (k : Fin q) (m : Fin l) (i j : Fin r) : ℂ :=
  ∑ a, ∑ b, conj (V a i) * Ds k m a b * V b j

/-- `_single` of `TransitionAmplitudeSum` (transitionamplitudesum.py:170-185); `|z|²` is `z.re² + z.im²`. -/
noncomputable def ampSingle (nrm : Mat n n → ℝ) (centered : Bool) (Ds : Fin q → Fin l → Mat n n) (V : Mat n r) (k : Fin q) : ℝ :=
  let Z := ∑ m, ∑ i, ∑ j, ((amplitude Ds V k m i j).re ^ 2 + (amplitude Ds V k m i j).im ^ 2)
  if centered then Z - normTerm nrm Ds k else Z

/-- Forcing Hermiticity: `(Ds + Ds.conj().transpose((0, 1, 3, 2))) / 2.0` (expectationvaluesum.py:197, transitionamplitudesum.py:198). -/
noncomputable def forceHerm (Ds : Fin q → Fin l → Mat n n) : Fin q → Fin l → Mat n n := fun k m => hermPart (Ds k m)

/-- The callable of `ExpectationValueSum` (expectationvaluesum.py:186-208) on data whose leaves are batches of samples. -/
noncomputable def expectCallable (nrm : Mat n n → ℝ) (centered : Bool) (Ds : Fin q → Fin l → Mat n n) (data : Tree (List (Mat n r))) :
    Tree (List (Fin q → ℝ)) :=
  Tree.map (fun xs => xs.map (expectSingle nrm centered (forceHerm Ds))) data.norm

/-- The callable of `TransitionAmplitudeSum` (transitionamplitudesum.py:187-209). -/
noncomputable def ampCallable (nrm : Mat n n → ℝ) (centered : Bool) (Ds : Fin q → Fin l → Mat n n) (data : Tree (List (Mat n r))) :
    Tree (List (Fin q → ℝ)) :=
  Tree.map (fun xs => xs.map (ampSingle nrm centered (forceHerm Ds))) data.norm

/-- `get_num_trainable_floats` of both modules (expectationvaluesum.py:158-166, transitionamplitudesum.py:158-166). -/
def numFloats (_ : Fin q → Fin l → Mat n n) : Nat := q * l * n * n

end Observables
end Verif
