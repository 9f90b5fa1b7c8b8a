import Verif.Model.Observables
import Verif.Props.Hermitian
import Mathlib.LinearAlgebra.UnitaryGroup

/-! # Properties of expectation values and transition amplitudes (C57) -/

namespace Verif.Props
open Verif.Hermitian Verif.Observables Verif.Tree Verif.ForwardSpec
open scoped ComplexConjugate Matrix

variable {q l n r : Nat}

theorem amplitude_eq (Ds : Fin q → Fin l → Matrix (Fin n) (Fin n) ℂ) (V : Matrix (Fin n) (Fin r) ℂ) (k : Fin q) (m : Fin l) (i j : Fin r) :
    amplitude Ds V k m i j = (Vᴴ * Ds k m * V) i j := by
  unfold amplitude
  rw [Matrix.mul_apply, Finset.sum_comm]
  refine Finset.sum_congr rfl fun b _ => ?_
  rw [Matrix.mul_apply, Finset.sum_mul]
  rfl

theorem expectSum_eq (Ds : Fin q → Fin l → Matrix (Fin n) (Fin n) ℂ) (V : Matrix (Fin n) (Fin r) ℂ) (k : Fin q) :
    expectSum Ds V k = ∑ m, (Vᴴ * Ds k m * V).trace := by
  unfold expectSum
  have : ∀ m, (Vᴴ * Ds k m * V).trace = ∑ i, ∑ a, ∑ b, conj (V a i) * Ds k m a b * V b i := by
    intro m
    unfold Matrix.trace
    refine Finset.sum_congr rfl fun i _ => ?_
    rw [Matrix.diag_apply, ← amplitude_eq]
    rfl
  simp only [this]
  rw [Finset.sum_comm, Finset.sum_comm (s := (Finset.univ : Finset (Fin l)))]
  refine Finset.sum_congr rfl fun i _ => ?_
  rw [Finset.sum_comm]

theorem forceHerm_eq (Ds : Fin q → Fin l → Matrix (Fin n) (Fin n) ℂ) (k : Fin q) (m : Fin l) : forceHerm Ds k m = herm (Ds k m) :=
  hermPart_eq _

/-- **C57** Taking the real part loses nothing: the uncentered output is, as a complex number, the sum over the observables of
`tr (V† H V)`, with `H` the Hermitian part of the parameter. -/
theorem C57_expectation_real (nrm : Matrix (Fin n) (Fin n) ℂ → ℝ) (Ds : Fin q → Fin l → Matrix (Fin n) (Fin n) ℂ)
    (V : Matrix (Fin n) (Fin r) ℂ) (k : Fin q) :
    ((expectSingle nrm false (forceHerm Ds) V k : ℝ) : ℂ) = ∑ m, (Vᴴ * herm (Ds k m) * V).trace := by
  have e : expectSum (forceHerm Ds) V k = ∑ m, (Vᴴ * herm (Ds k m) * V).trace := by
    rw [expectSum_eq]
    simp only [forceHerm_eq]
  have hc : conj (∑ m, (Vᴴ * herm (Ds k m) * V).trace) = ∑ m, (Vᴴ * herm (Ds k m) * V).trace := by
    rw [map_sum]
    refine Finset.sum_congr rfl fun m _ => ?_
    have : star (Vᴴ * herm (Ds k m) * V).trace = (Vᴴ * herm (Ds k m) * V).trace := by
      rw [← Matrix.trace_conjTranspose, Matrix.conjTranspose_mul, Matrix.conjTranspose_mul, Matrix.conjTranspose_conjTranspose,
        (herm_isHermitian _).eq, Matrix.mul_assoc]
    exact this
  simp only [expectSingle, Bool.false_eq_true, if_false]
  rw [e]
  exact Complex.conj_eq_iff_re.1 hc

/-- **C57** The uncentered transition amplitudes are the sums of `|⟨vᵢ|H|vⱼ⟩|²` over observables and pairs of states. -/
theorem C57_amplitude_value (nrm : Matrix (Fin n) (Fin n) ℂ → ℝ) (Ds : Fin q → Fin l → Matrix (Fin n) (Fin n) ℂ)
    (V : Matrix (Fin n) (Fin r) ℂ) (k : Fin q) :
    ampSingle nrm false (forceHerm Ds) V k = ∑ m, ∑ i, ∑ j, Complex.normSq ((Vᴴ * herm (Ds k m) * V) i j) := by
  simp only [ampSingle, Bool.false_eq_true, if_false]
  refine Finset.sum_congr rfl fun m _ => Finset.sum_congr rfl fun i _ => Finset.sum_congr rfl fun j _ => ?_
  rw [amplitude_eq, forceHerm_eq, Complex.normSq_apply]
  ring

/-- **C57** They are nonnegative. -/
theorem C57_amplitude_nonneg (nrm : Matrix (Fin n) (Fin n) ℂ → ℝ) (Ds : Fin q → Fin l → Matrix (Fin n) (Fin n) ℂ)
    (V : Matrix (Fin n) (Fin r) ℂ) (k : Fin q) : 0 ≤ ampSingle nrm false (forceHerm Ds) V k := by
  rw [C57_amplitude_value]
  exact Finset.sum_nonneg fun m _ => Finset.sum_nonneg fun i _ => Finset.sum_nonneg fun j _ => Complex.normSq_nonneg _

/-- **C57** Centering subtracts half the sum of the squared norms of the Hermitian parts, the same for all states; so centered
amplitudes are bounded below by minus that. -/
theorem C57_centered (nrm : Matrix (Fin n) (Fin n) ℂ → ℝ) (Ds : Fin q → Fin l → Matrix (Fin n) (Fin n) ℂ)
    (V : Matrix (Fin n) (Fin r) ℂ) (k : Fin q) :
    expectSingle nrm true (forceHerm Ds) V k = expectSingle nrm false (forceHerm Ds) V k - (∑ m, nrm (herm (Ds k m)) ^ 2) / 2 ∧
    ampSingle nrm true (forceHerm Ds) V k = ampSingle nrm false (forceHerm Ds) V k - (∑ m, nrm (herm (Ds k m)) ^ 2) / 2 ∧
    -(∑ m, nrm (herm (Ds k m)) ^ 2) / 2 ≤ ampSingle nrm true (forceHerm Ds) V k := by
  have e : normTerm nrm (forceHerm Ds) k = (∑ m, nrm (herm (Ds k m)) ^ 2) / 2 := by
    unfold normTerm
    simp only [forceHerm_eq]
    ring
  have h2 : ampSingle nrm true (forceHerm Ds) V k = ampSingle nrm false (forceHerm Ds) V k - (∑ m, nrm (herm (Ds k m)) ^ 2) / 2 := by
    simp only [ampSingle, if_true, Bool.false_eq_true, if_false, e]
  refine ⟨by simp only [expectSingle, if_true, Bool.false_eq_true, if_false, e], h2, ?_⟩
  rw [h2]
  have := C57_amplitude_nonneg nrm Ds V k
  have e' : -(∑ m, nrm (herm (Ds k m)) ^ 2) / 2 = 0 - (∑ m, nrm (herm (Ds k m)) ^ 2) / 2 := by ring
  rw [e']
  exact sub_le_sub_right this _

theorem trace_unitary (A : Matrix (Fin r) (Fin r) ℂ) (U : Matrix.unitaryGroup (Fin r) ℂ) : ((U : Matrix (Fin r) (Fin r) ℂ)ᴴ * A * U).trace = A.trace := by
  rw [Matrix.trace_mul_comm, ← Matrix.mul_assoc]
  have : (U : Matrix (Fin r) (Fin r) ℂ) * (U : Matrix (Fin r) (Fin r) ℂ)ᴴ = 1 := Matrix.mem_unitaryGroup_iff.1 U.2
  rw [this, Matrix.one_mul]

theorem sum_normSq (A : Matrix (Fin r) (Fin r) ℂ) : ((∑ i, ∑ j, Complex.normSq (A i j) : ℝ) : ℂ) = (Aᴴ * A).trace := by
  unfold Matrix.trace
  rw [Complex.ofReal_sum, Finset.sum_congr rfl fun i _ => Complex.ofReal_sum _ _, Finset.sum_comm]
  refine Finset.sum_congr rfl fun j _ => ?_
  rw [Matrix.diag_apply, Matrix.mul_apply]
  refine Finset.sum_congr rfl fun i _ => ?_
  rw [Complex.normSq_eq_conj_mul_self]
  rfl

/-- **C57** Both outputs depend on the states only up to a unitary change of basis among them, centered or not. -/
theorem C57_unitary (nrm : Matrix (Fin n) (Fin n) ℂ → ℝ) (centered : Bool) (Ds : Fin q → Fin l → Matrix (Fin n) (Fin n) ℂ)
    (V : Matrix (Fin n) (Fin r) ℂ) (U : Matrix.unitaryGroup (Fin r) ℂ) :
    expectSingle nrm centered (forceHerm Ds) (V * (U : Matrix (Fin r) (Fin r) ℂ)) = expectSingle nrm centered (forceHerm Ds) V ∧
    ampSingle nrm centered (forceHerm Ds) (V * (U : Matrix (Fin r) (Fin r) ℂ)) = ampSingle nrm centered (forceHerm Ds) V := by
  have hconj : ∀ H : Matrix (Fin n) (Fin n) ℂ, (V * (U : Matrix (Fin r) (Fin r) ℂ))ᴴ * H * (V * (U : Matrix (Fin r) (Fin r) ℂ)) =
      (U : Matrix (Fin r) (Fin r) ℂ)ᴴ * (Vᴴ * H * V) * (U : Matrix (Fin r) (Fin r) ℂ) := by
    intro H
    simp only [Matrix.conjTranspose_mul, Matrix.mul_assoc]
  have h1 : ∀ k, expectSingle nrm false (forceHerm Ds) (V * (U : Matrix (Fin r) (Fin r) ℂ)) k = expectSingle nrm false (forceHerm Ds) V k := by
    intro k
    apply Complex.ofReal_injective
    rw [C57_expectation_real, C57_expectation_real]
    refine Finset.sum_congr rfl fun m _ => ?_
    rw [hconj, trace_unitary]
  have h2 : ∀ k, ampSingle nrm false (forceHerm Ds) (V * (U : Matrix (Fin r) (Fin r) ℂ)) k = ampSingle nrm false (forceHerm Ds) V k := by
    intro k
    rw [C57_amplitude_value, C57_amplitude_value]
    refine Finset.sum_congr rfl fun m _ => ?_
    apply Complex.ofReal_injective
    rw [sum_normSq, sum_normSq, hconj]
    have hU : (U : Matrix (Fin r) (Fin r) ℂ) * (U : Matrix (Fin r) (Fin r) ℂ)ᴴ = 1 := Matrix.mem_unitaryGroup_iff.1 U.2
    generalize Vᴴ * herm (Ds k m) * V = A
    have : ((U : Matrix (Fin r) (Fin r) ℂ)ᴴ * A * (U : Matrix (Fin r) (Fin r) ℂ))ᴴ * ((U : Matrix (Fin r) (Fin r) ℂ)ᴴ * A * (U : Matrix (Fin r) (Fin r) ℂ)) =
        (U : Matrix (Fin r) (Fin r) ℂ)ᴴ * (Aᴴ * A) * (U : Matrix (Fin r) (Fin r) ℂ) := by
      rw [Matrix.conjTranspose_mul, Matrix.conjTranspose_mul, Matrix.conjTranspose_conjTranspose]
      calc _ = (U : Matrix (Fin r) (Fin r) ℂ)ᴴ * Aᴴ * ((U : Matrix (Fin r) (Fin r) ℂ) * (U : Matrix (Fin r) (Fin r) ℂ)ᴴ) * A * U := by
            simp only [Matrix.mul_assoc]
        _ = _ := by rw [hU]; simp only [Matrix.mul_assoc, Matrix.one_mul]
    rw [this, trace_unitary]
  cases centered with
  | false => exact ⟨funext h1, funext h2⟩
  | true =>
    refine ⟨funext fun k => ?_, funext fun k => ?_⟩
    · rw [(C57_centered nrm Ds _ k).1, (C57_centered nrm Ds _ k).1, h1]
    · rw [(C57_centered nrm Ds _ k).2.1, (C57_centered nrm Ds _ k).2.1, h2]

/-- **C57** In particular they do not see phases of the individual states (nor a common one). -/
theorem C57_phase (nrm : Matrix (Fin n) (Fin n) ℂ → ℝ) (centered : Bool) (Ds : Fin q → Fin l → Matrix (Fin n) (Fin n) ℂ)
    (V : Matrix (Fin n) (Fin r) ℂ) (c : Fin r → ℂ) (hc : ∀ i, Complex.normSq (c i) = 1) :
    expectSingle nrm centered (forceHerm Ds) (Matrix.of fun a i => V a i * c i) = expectSingle nrm centered (forceHerm Ds) V ∧
    ampSingle nrm centered (forceHerm Ds) (Matrix.of fun a i => V a i * c i) = ampSingle nrm centered (forceHerm Ds) V := by
  have hU : Matrix.diagonal c ∈ Matrix.unitaryGroup (Fin r) ℂ := by
    rw [Matrix.mem_unitaryGroup_iff]
    change Matrix.diagonal c * (Matrix.diagonal c)ᴴ = 1
    rw [Matrix.diagonal_conjTranspose, Matrix.diagonal_mul_diagonal, ← Matrix.diagonal_one]
    congr 1
    funext i
    have := Complex.mul_conj (c i)
    rw [hc i] at this
    simpa using this
  have e : (Matrix.of fun a i => V a i * c i) = V * Matrix.diagonal c := by
    ext a i
    rw [Matrix.mul_diagonal]
    rfl
  rw [e]
  exact C57_unitary nrm centered Ds V ⟨_, hU⟩

/-- Every leaf of `map f t.norm`. -/
theorem map_norm_at {α β : Type} {f : α → β} {t : Tree α} {p : List ForwardSpec.Step} {b : β} :
    At (map f t.norm) p b ↔ ∃ a, At t p a ∧ f a = b := by
  rw [at_map]
  exact exists_congr fun a => and_congr_left fun _ => at_norm

/-- **C57** Applied to data, both modules keep the structure, and treat every sample of every leaf on its own. -/
theorem C57_data (nrm : Matrix (Fin n) (Fin n) ℂ → ℝ) (centered : Bool) (Ds : Fin q → Fin l → Matrix (Fin n) (Fin n) ℂ)
    (data : Tree (List (Matrix (Fin n) (Fin r) ℂ))) :
    (map (fun _ => ()) (expectCallable nrm centered Ds data) = map (fun _ => ()) data.norm ∧
      map (fun _ => ()) (ampCallable nrm centered Ds data) = map (fun _ => ()) data.norm) ∧
    ∀ p Vs, At data p Vs → At (expectCallable nrm centered Ds data) p (Vs.map (expectSingle nrm centered (forceHerm Ds))) ∧
      At (ampCallable nrm centered Ds data) p (Vs.map (ampSingle nrm centered (forceHerm Ds))) :=
  ⟨⟨by rw [expectCallable, map_map], by rw [ampCallable, map_map]⟩,
    fun _ Vs h => ⟨map_norm_at.2 ⟨Vs, h, rfl⟩, map_norm_at.2 ⟨Vs, h, rfl⟩⟩⟩

/-- **C57** The number of trainable floats is the number of real degrees of freedom of the Hermitian parameters. -/
theorem C57_floats (Ds : Fin q → Fin l → Matrix (Fin n) (Fin n) ℂ) :
    Observables.numFloats Ds = Module.finrank ℝ (Fin q × Fin l → selfAdjoint (Matrix (Fin n) (Fin n) ℂ)) := by
  rw [Module.finrank_pi_fintype]
  simp [Observables.numFloats, finrank_hermitian, Nat.mul_assoc]

/-- A state and an observable that is not Hermitian: the expectation value is not trivially zero. -/
example : expectSingle (fun _ => 0) false (forceHerm fun _ : Fin 1 => fun _ : Fin 1 => (!![1, 2; 0, 0] : Matrix (Fin 2) (Fin 2) ℂ))
    !![(1 : ℂ); 1] 0 = 3 := by
  apply Complex.ofReal_injective
  rw [C57_expectation_real]
  simp [herm, Matrix.trace, Matrix.mul_apply, Fin.sum_univ_two]
  rw [show (starRingEnd ℂ) 2 = 2 from Complex.conj_ofNat 2]
  norm_num

end Verif.Props
