import Mathlib.Analysis.Matrix.Spectrum
import Mathlib.LinearAlgebra.Matrix.Charpoly.Coeff

/-! # Specification vocabulary for matrix models -/

namespace Verif.PmmSpec
open Matrix

variable {n : Nat}

/-- `ev` are the eigenvalues of Hermitian matrices, with multiplicity, in ascending order: what `numpy.linalg.eigvalsh` returns. -/
def IsEigvalsh (ev : Matrix (Fin n) (Fin n) ℂ → List ℝ) : Prop :=
  ∀ A : Matrix (Fin n) (Fin n) ℂ, A.IsHermitian → (ev A).Pairwise (· ≤ ·) ∧ (((ev A).map fun e : ℝ => (e : ℂ)) : Multiset ℂ) = A.charpoly.roots

/-- The value of the quadratic form of a matrix at a vector. -/
noncomputable def energy (A : Matrix (Fin n) (Fin n) ℂ) (v : Fin n → ℂ) : ℝ := (star v ⬝ᵥ A *ᵥ v).re

/-- The squared length of a vector. -/
noncomputable def lenSq (v : Fin n → ℂ) : ℝ := ∑ i, Complex.normSq (v i)

/-- `E` and `V` are a complete eigensystem of a matrix: ascending eigenvalues with orthonormal eigenvectors. -/
structure IsEigensystem (A : Matrix (Fin n) (Fin n) ℂ) (E : List ℝ) (V : List (Fin n → ℂ)) : Prop where
  sizeE : E.length = n
  sizeV : V.length = n
  sorted : E.Pairwise (· ≤ ·)
  vec : ∀ (i : Nat) (e : ℝ) (v : Fin n → ℂ), E[i]? = some e → V[i]? = some v → A *ᵥ v = (e : ℂ) • v
  ortho : ∀ (i j : Nat) (v w : Fin n → ℂ), V[i]? = some v → V[j]? = some w → star v ⬝ᵥ w = if i = j then 1 else 0

/-- What `numpy.linalg.eigh` promises for Hermitian matrices. -/
def IsEigh (eigh : Matrix (Fin n) (Fin n) ℂ → List ℝ × List (Fin n → ℂ)) : Prop :=
  ∀ A : Matrix (Fin n) (Fin n) ℂ, A.IsHermitian → IsEigensystem A (eigh A).1 (eigh A).2

end Verif.PmmSpec
