import Verif.Spec.TrainUnits

/-! # Symmetries of parameter arrays (C127) -/

namespace Verif.SymmetrySpec
open Verif.Train

variable {ι : Type}

/-- A change of a complex array: entries are exchanged, change their sign, or are all conjugated. -/
structure Symmetry (ι : Type) where
  perm : Equiv.Perm ι
  sign : ι → ℝ
  unit : ∀ i, sign i * sign i = 1
  conj : Bool

/-- Complex conjugation, or nothing. -/
noncomputable def twist (b : Bool) : ℂ →+* ℂ := if b then starRingEnd ℂ else RingHom.id ℂ

/-- The changed array. -/
noncomputable def act (σ : Symmetry ι) (P : ι → ℂ) : ι → ℂ := fun i => (σ.sign i : ℂ) * twist σ.conj (P (σ.perm i))

/-- The array and the averages of an optimiser state have the symmetry. The averages of the squares are not negative. -/
structure HasSymmetry (σ : Symmetry ι) (a : OptState (ι → ℂ)) : Prop where
  params : act σ a.params = a.params
  m : act σ a.m = a.m
  v : ∀ i, a.v (σ.perm i) = a.v i
  real : ∀ i, ∃ r : ℝ, 0 ≤ r ∧ a.v i = r

/-- A change of the basis in which all matrices of a parameter array of shape `(p + 1, n, n)` are written: basis states are exchanged, or
change their sign; and possibly all matrices are conjugated. -/
def basis {p n : Nat} (π : Equiv.Perm (Fin n)) (ε : Fin n → ℝ) (h : ∀ i, ε i * ε i = 1) (b : Bool) : Symmetry (Fin (p + 1) × Fin n × Fin n) where
  perm := Equiv.prodCongr (Equiv.refl _) (Equiv.prodCongr π π)
  sign q := ε q.2.1 * ε q.2.2
  unit q := by rw [show ε q.2.1 * ε q.2.2 * (ε q.2.1 * ε q.2.2) = (ε q.2.1 * ε q.2.1) * (ε q.2.2 * ε q.2.2) by ring, h, h, one_mul]
  conj := b

/-- The permutation of the matrices of a model that permutes those that belong to features and leaves the constant one in its place. -/
def keepFirst {p : Nat} (ρ : Equiv.Perm (Fin p)) : Equiv.Perm (Fin (p + 1)) where
  toFun := Fin.cases 0 fun i => (ρ i).succ
  invFun := Fin.cases 0 fun i => (ρ.symm i).succ
  left_inv i := by cases i using Fin.cases <;> simp
  right_inv i := by cases i using Fin.cases <;> simp

/-- The matrices of a model for features in another order, with other signs: the matrices are permuted and change their signs in the same way. -/
def features {p n : Nat} (ρ : Equiv.Perm (Fin p)) (δ : Fin p → ℝ) (h : ∀ i, δ i * δ i = 1) : Symmetry (Fin (p + 1) × Fin n × Fin n) where
  perm := Equiv.prodCongr (keepFirst ρ) (Equiv.refl _)
  sign q := Fin.cases (motive := fun _ => ℝ) 1 δ q.1
  unit := fun ⟨q, _⟩ => by
    cases q using Fin.cases with
    | zero => exact one_mul 1
    | succ i => exact h i
  conj := false

/-- The row of the features of a sample in another order and with other signs. -/
noncomputable def reorderRow {p : Nat} (ρ : Equiv.Perm (Fin p)) (δ : Fin p → ℝ) (r : List ℝ) : List ℝ := List.ofFn fun i => δ i * r.getD (ρ i) 0

end Verif.SymmetrySpec
