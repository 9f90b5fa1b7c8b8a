import Verif.Lemmas.Compress
import Verif.Props.PmmObs

/-! # C134: what observable models can predict -/

namespace Verif.Props
open Tree Hermitian Eigen Pmm PmmSpec Observables
open scoped Matrix

variable {n p q l r : Nat}

/-- The sum of the squared absolute values of the entries of a matrix. -/
noncomputable def sumSq (A : Mat n n) : ℝ := ∑ a, ∑ b, Complex.normSq (A a b)

/-! ## Orthonormal vectors -/

/-- Vectors as the columns of a matrix. -/
noncomputable def colsOf (v : Fin r → Fin n → ℂ) : Matrix (Fin n) (Fin r) ℂ := .of fun a i => v i a

theorem cols_ortho {v : Fin r → Fin n → ℂ} (hv : ∀ i j, star (v i) ⬝ᵥ v j = if i = j then 1 else 0) : (colsOf v)ᴴ * colsOf v = 1 := by
  ext i j
  rw [Matrix.mul_apply, Matrix.one_apply, ← hv i j]
  rfl

theorem cols_mul (v : Fin r → Fin n → ℂ) (A : Mat n n) (i j : Fin r) : ((colsOf v)ᴴ * A * colsOf v) i j = star (v i) ⬝ᵥ A *ᵥ v j := by
  rw [Matrix.mul_assoc, Matrix.mul_apply]
  rfl

theorem cols_dot (v : Fin r → Fin n → ℂ) (w : Fin n → ℂ) (i : Fin r) : ((colsOf v)ᴴ *ᵥ w) i = star (v i) ⬝ᵥ w := rfl

theorem bessel {v : Fin r → Fin n → ℂ} (hv : ∀ i j, star (v i) ⬝ᵥ v j = if i = j then 1 else 0) (w : Fin n → ℂ) : ∑ i, Complex.normSq (star (v i) ⬝ᵥ w) ≤ lenSq w := by
  set V := colsOf v with hV
  have h1 : V.conjTranspose * V = 1 := cols_ortho hv
  have e : ((lenSq (w - V *ᵥ (Vᴴ *ᵥ w)) : ℝ) : ℂ) = ((lenSq w - lenSq (Vᴴ *ᵥ w) : ℝ) : ℂ) := by
    rw [Complex.ofReal_sub, lenSq_eq, lenSq_eq, lenSq_eq, star_sub, sub_dotProduct, dotProduct_sub, dotProduct_sub, Matrix.star_mulVec V, Matrix.star_mulVec]
    have hq : V * Vᴴ * (V * Vᴴ) = V * Vᴴ := by rw [Matrix.mul_assoc, ← Matrix.mul_assoc Vᴴ, h1, Matrix.one_mul]
    simp only [Matrix.conjTranspose_conjTranspose, Matrix.mulVec_mulVec, Matrix.vecMul_vecMul, Matrix.dotProduct_mulVec, hq]
    ring
  have h := lenSq_nonneg (w - V *ᵥ (Vᴴ *ᵥ w))
  rw [Complex.ofReal_inj.1 e] at h
  have : lenSq (Vᴴ *ᵥ w) = ∑ i, Complex.normSq (star (v i) ⬝ᵥ w) := rfl
  linarith

theorem amplitudes_le {v : Fin r → Fin n → ℂ} (hv : ∀ i j, star (v i) ⬝ᵥ v j = if i = j then 1 else 0) (A : Mat n n) :
    ∑ i, ∑ j, Complex.normSq (star (v i) ⬝ᵥ A *ᵥ v j) ≤ sumSq A := by
  rw [Finset.sum_comm]
  calc ∑ j, ∑ i, Complex.normSq (star (v i) ⬝ᵥ A *ᵥ v j) ≤ ∑ j, lenSq (A *ᵥ v j) := Finset.sum_le_sum fun j _ => bessel hv _
    _ = ∑ a, ∑ j, Complex.normSq (star (v j) ⬝ᵥ star (A a)) := by
      unfold lenSq
      rw [Finset.sum_comm]
      refine Finset.sum_congr rfl fun a _ => Finset.sum_congr rfl fun j _ => ?_
      rw [Matrix.star_dotProduct_star, Complex.star_def, Complex.normSq_conj]
      rfl
    _ ≤ ∑ a, lenSq (star (A a)) := Finset.sum_le_sum fun a _ => bessel hv _
    _ = sumSq A := by
      unfold lenSq sumSq
      refine Finset.sum_congr rfl fun a _ => Finset.sum_congr rfl fun b _ => ?_
      rw [Pi.star_apply, Complex.star_def, Complex.normSq_conj]

theorem sumSq_trace (A : Mat n n) : ((sumSq A : ℝ) : ℂ) = (Aᴴ * A).trace := by
  unfold sumSq Matrix.trace
  rw [Finset.sum_comm, Complex.ofReal_sum]
  refine Finset.sum_congr rfl fun a _ => ?_
  rw [Matrix.diag_apply, Matrix.mul_apply, Complex.ofReal_sum]
  refine Finset.sum_congr rfl fun b _ => ?_
  rw [Matrix.conjTranspose_apply, Complex.normSq_eq_conj_mul_self]
  rfl

/-- With as many orthonormal vectors as dimensions the sums over the vectors are traces. -/
theorem complete {v : Fin r → Fin n → ℂ} (hr : r = n) (hv : ∀ i j, star (v i) ⬝ᵥ v j = if i = j then 1 else 0) (A : Mat n n) :
    ∑ i, energy A (v i) = A.trace.re ∧ ∑ i, ∑ j, Complex.normSq (star (v i) ⬝ᵥ A *ᵥ v j) = sumSq A := by
  subst hr
  have h1 := cols_ortho hv
  have h2 : colsOf v * (colsOf v)ᴴ = 1 := mul_eq_one_comm.1 h1
  constructor
  · have e : ∑ i, energy A (v i) = ((colsOf v)ᴴ * A * colsOf v).trace.re := by
      unfold Matrix.trace
      rw [Complex.re_sum]
      exact Finset.sum_congr rfl fun i _ => by rw [Matrix.diag_apply, cols_mul]; rfl
    rw [e, Matrix.trace_mul_cycle, h2, Matrix.one_mul]
  · have e : ∑ i, ∑ j, Complex.normSq (star (v i) ⬝ᵥ A *ᵥ v j) = sumSq ((colsOf v)ᴴ * A * colsOf v) := by
      unfold sumSq
      exact Finset.sum_congr rfl fun i _ => Finset.sum_congr rfl fun j _ => by rw [cols_mul]
    rw [e]
    apply Complex.ofReal_injective
    rw [sumSq_trace, sumSq_trace, Matrix.conjTranspose_mul, Matrix.conjTranspose_mul, Matrix.conjTranspose_conjTranspose]
    have : (colsOf v)ᴴ * (Aᴴ * colsOf v) * ((colsOf v)ᴴ * A * colsOf v) = (colsOf v)ᴴ * (Aᴴ * A) * colsOf v := by
      simp only [Matrix.mul_assoc]
      rw [← Matrix.mul_assoc (colsOf v) (colsOf v)ᴴ, h2, Matrix.one_mul]
    rw [this, Matrix.trace_mul_cycle, h2, Matrix.one_mul]

/-! ## Predictions -/

/-- What is added to the sums over the states: the bias, and minus half the squared norms if centered. The same for all samples. -/
noncomputable def offset (nrm : Mat n n → ℝ) (centered : Bool) (Ds : Fin q → Fin l → Mat n n) (b : Option (Fin q → ℝ)) (k : Fin q) : ℝ :=
  b.elim 0 (· k) - if centered then (∑ m, nrm (herm (Ds k m)) ^ 2) / 2 else 0

/-- **C134 (all states).** An observable model that reads out all states predicts the same for all samples, whatever its matrices, smoothing and bias: the traces of the observables, or the sums of the squared absolute
values of their entries. -/
theorem C134_all_states (eigh : Mat n n → List ℝ × List (Fin n → ℂ)) (heigh : IsEigh eigh) (nrm : Mat n n → ℝ) (c : Eigen.Cfg) {part : Part} {o : Order}
    (hw : parseWhich c.which = .ok (part, o)) (hk : c.numEig.getD n = n) (s : ℝ) (useExp centered : Bool) (M0 : Option (Mat n n)) (M : Fin p → Mat n n)
    (Ds : Fin q → Fin l → Mat n n) (b : Option (Fin q → ℝ)) (x : Fin p → ℝ) :
    observableCall eigh nrm c M0.isSome s useExp centered (M0.toList ++ List.ofFn M) Ds b (.leaf [sample x]) =
      .ok (.leaf [fun k => (if useExp then ∑ m, (Ds k m).trace.re else ∑ m, sumSq (herm (Ds k m))) + offset nrm centered Ds b k]) := by
  obtain ⟨e, v, -, -, hv, -, hy⟩ := obs_uniform eigh heigh nrm c hw hk.le s M0 M x
  obtain ⟨y, h1, h2⟩ := hy q l useExp centered Ds b
  rw [h1]
  congr 3
  funext k
  rw [h2]
  have ht : ∀ A : Mat n n, (herm A).trace.re = A.trace.re := fun A => by
    unfold herm
    rw [Matrix.trace_smul, Matrix.trace_add, Matrix.trace_conjTranspose, smul_eq_mul]
    simp
    ring
  cases useExp
  · simp only [Bool.false_eq_true, if_false, (complete hk hv _).2, offset]; ring
  · simp only [if_true, (complete hk hv _).1, ht, offset]; ring

/-- With the constructor's defaults (no number of states, largest magnitude) all samples get the same prediction, whatever the trained matrices. -/
example (nrm : Mat 3 3 → ℝ) (M0 : Mat 3 3) (M : Fin 2 → Mat 3 3) (Ds : Fin 4 → Fin 1 → Mat 3 3) (b : Fin 4 → ℝ) (x y : Fin 2 → ℝ) :
    observableCall someEigh nrm ⟨none, "LM".toList⟩ true 0 false true (M0 :: List.ofFn M) Ds (some b) (.leaf [sample x]) =
      observableCall someEigh nrm ⟨none, "LM".toList⟩ true 0 false true (M0 :: List.ofFn M) Ds (some b) (.leaf [sample y]) :=
  (C134_all_states someEigh someEigh_ok nrm ⟨none, "LM".toList⟩ (part := .largest) (o := .magnitude) rfl rfl 0 false true (some M0) M Ds (some b) x).trans
    (C134_all_states someEigh someEigh_ok nrm ⟨none, "LM".toList⟩ (part := .largest) (o := .magnitude) rfl rfl 0 false true (some M0) M Ds (some b) y).symm


/-- **C134 (bounds).** A predicted expectation value of `r` states lies between `r` times the lower and `r` times the upper bounds of the observables (as quadratic forms), and a predicted sum of transition amplitudes
between zero and the sum of the squared absolute values of their entries; for all samples, matrices and states. -/
theorem C134_bounds (eigh : Mat n n → List ℝ × List (Fin n → ℂ)) (heigh : IsEigh eigh) (nrm : Mat n n → ℝ) (c : Eigen.Cfg) {part : Part} {o : Order}
    (hw : parseWhich c.which = .ok (part, o)) (hk : c.numEig.getD n ≤ n) (s : ℝ) (centered : Bool) (M0 : Option (Mat n n)) (M : Fin p → Mat n n)
    (Ds : Fin q → Fin l → Mat n n) (b : Option (Fin q → ℝ)) (x : Fin p → ℝ) (lo hi : Fin q → Fin l → ℝ)
    (hlo : ∀ k m v, lo k m * lenSq v ≤ energy (herm (Ds k m)) v) (hhi : ∀ k m v, energy (herm (Ds k m)) v ≤ hi k m * lenSq v) :
    ∃ y z, observableCall eigh nrm c M0.isSome s true centered (M0.toList ++ List.ofFn M) Ds b (.leaf [sample x]) = .ok (.leaf [y]) ∧
      observableCall eigh nrm c M0.isSome s false centered (M0.toList ++ List.ofFn M) Ds b (.leaf [sample x]) = .ok (.leaf [z]) ∧
      ∀ k, (c.numEig.getD n * ∑ m, lo k m ≤ y k - offset nrm centered Ds b k ∧ y k - offset nrm centered Ds b k ≤ c.numEig.getD n * ∑ m, hi k m) ∧
        0 ≤ z k - offset nrm centered Ds b k ∧ z k - offset nrm centered Ds b k ≤ ∑ m, sumSq (herm (Ds k m)) := by
  obtain ⟨e, v, -, -, hv, -, hy⟩ := obs_uniform eigh heigh nrm c hw hk s M0 M x
  obtain ⟨y, h1, h2⟩ := hy q l true centered Ds b
  obtain ⟨z, g1, g2⟩ := hy q l false centered Ds b
  refine ⟨y, z, h1, g1, fun k => ?_⟩
  have hl : ∀ i, lenSq (v i) = 1 := fun i => by
    have : ((lenSq (v i) : ℝ) : ℂ) = 1 := by rw [lenSq_eq, hv, if_pos rfl]
    exact_mod_cast this
  have ey : y k - offset nrm centered Ds b k = ∑ m, ∑ i, energy (herm (Ds k m)) (v i) := by rw [h2, offset]; simp only [if_true]; ring
  have ez : z k - offset nrm centered Ds b k = ∑ m, ∑ i, ∑ j, Complex.normSq (star (v i) ⬝ᵥ herm (Ds k m) *ᵥ v j) := by
    rw [g2, offset]; simp only [Bool.false_eq_true, if_false]; ring
  rw [ey, ez, Finset.mul_sum, Finset.mul_sum]
  have hsum : ∀ t : ℝ, (c.numEig.getD n : ℝ) * t = ∑ _i : Fin (c.numEig.getD n), t := fun t => by simp
  refine ⟨⟨Finset.sum_le_sum fun m _ => ?_, Finset.sum_le_sum fun m _ => ?_⟩, ?_, Finset.sum_le_sum fun m _ => amplitudes_le hv _⟩
  · rw [hsum]
    exact Finset.sum_le_sum fun i _ => by have := hlo k m (v i); rwa [hl, mul_one] at this
  · rw [hsum]
    exact Finset.sum_le_sum fun i _ => by have := hhi k m (v i); rwa [hl, mul_one] at this
  · exact Finset.sum_nonneg fun m _ => Finset.sum_nonneg fun i _ => Finset.sum_nonneg fun j _ => Complex.normSq_nonneg _

/-- The bounds of the observable that measures the first of two coordinates: its expectation value for one state lies between zero and one. -/
example (nrm : Mat 2 2 → ℝ) (M : Fin 2 → Mat 2 2) (x : Fin 2 → ℝ) :
    ∃ y, observableCall someEigh nrm ⟨some 1, "SA".toList⟩ false 0 true false (List.ofFn M) (fun (_ : Fin 1) (_ : Fin 1) => Matrix.diagonal ![1, 0]) none (.leaf [sample x]) = .ok (.leaf [y]) ∧ 0 ≤ y 0 ∧ y 0 ≤ 1 := by
  have hh : herm (Matrix.diagonal ![(1 : ℂ), 0]) = Matrix.diagonal ![1, 0] := by
    ext i j; fin_cases i <;> fin_cases j <;> simp [herm] <;> norm_num
  have he : ∀ v : Fin 2 → ℂ, energy (herm (Matrix.diagonal ![(1 : ℂ), 0])) v = Complex.normSq (v 0) := fun v => by
    rw [hh]; simp [energy, dotProduct, Matrix.mulVec_diagonal, Complex.normSq_apply]
  obtain ⟨y, z, h1, -, h2⟩ := C134_bounds someEigh someEigh_ok nrm ⟨some 1, "SA".toList⟩ (part := .smallest) (o := .algebraic) rfl (by decide) 0 false none M
    (fun (_ : Fin 1) (_ : Fin 1) => Matrix.diagonal ![1, 0]) none x (fun _ _ => 0) (fun _ _ => 1)
    (fun _ _ v => by rw [he, zero_mul]; exact Complex.normSq_nonneg _)
    (fun _ _ v => by rw [he]; simp only [lenSq, Fin.sum_univ_two, one_mul]; linarith [Complex.normSq_nonneg (v 1)])
  refine ⟨y, h1, ?_⟩
  have := (h2 0).1
  simpa [offset] using this

theorem herm_lin (t : ℝ) (A B : Mat n n) : herm (A + (t : ℂ) • B) = herm A + (t : ℂ) • herm B := by
  unfold herm
  rw [Matrix.conjTranspose_add, Matrix.conjTranspose_smul, Complex.star_def, Complex.conj_ofReal, smul_comm (t : ℂ), ← smul_add]
  congr 1
  rw [smul_add]
  abel

/-- **C134 (linear).** Predicted expectation values without centering and bias are linear in the observables, and grow with them: a positive semidefinite addition to an observable lowers no prediction. -/
theorem C134_linear (eigh : Mat n n → List ℝ × List (Fin n → ℂ)) (heigh : IsEigh eigh) (nrm : Mat n n → ℝ) (c : Eigen.Cfg) {part : Part} {o : Order}
    (hw : parseWhich c.which = .ok (part, o)) (hk : c.numEig.getD n ≤ n) (s : ℝ) (M0 : Option (Mat n n)) (M : Fin p → Mat n n)
    (Ds Ds' : Fin q → Fin l → Mat n n) (x : Fin p → ℝ) (t : ℝ) :
    ∃ y y' z, observableCall eigh nrm c M0.isSome s true false (M0.toList ++ List.ofFn M) Ds Option.none (.leaf [sample x]) = .ok (.leaf [y]) ∧
      observableCall eigh nrm c M0.isSome s true false (M0.toList ++ List.ofFn M) Ds' Option.none (.leaf [sample x]) = .ok (.leaf [y']) ∧
      observableCall eigh nrm c M0.isSome s true false (M0.toList ++ List.ofFn M) (fun k m => Ds k m + (t : ℂ) • Ds' k m) Option.none (.leaf [sample x]) = .ok (.leaf [z]) ∧
      (∀ k, z k = y k + t * y' k) ∧ ∀ k, (∀ m v, 0 ≤ energy (herm (Ds' k m)) v) → 0 ≤ y' k := by
  obtain ⟨e, v, -, -, hv, -, hy⟩ := obs_uniform eigh heigh nrm c hw hk s M0 M x
  obtain ⟨y, h1, h2⟩ := hy q l true false Ds Option.none
  obtain ⟨y', h1', h2'⟩ := hy q l true false Ds' Option.none
  obtain ⟨z, g1, g2⟩ := hy q l true false (fun k m => Ds k m + (t : ℂ) • Ds' k m) Option.none
  simp only [if_true, Bool.false_eq_true, if_false, sub_zero, Option.elim_none, add_zero] at h2 h2' g2
  refine ⟨y, y', z, h1, h1', g1, fun k => ?_, fun k hp => ?_⟩
  · rw [g2, h2, h2', Finset.mul_sum, ← Finset.sum_add_distrib]
    refine Finset.sum_congr rfl fun m _ => ?_
    rw [Finset.mul_sum, ← Finset.sum_add_distrib]
    exact Finset.sum_congr rfl fun i _ => by rw [herm_lin, energy_add, energy_smul]
  · rw [h2']
    exact Finset.sum_nonneg fun m _ => Finset.sum_nonneg fun i _ => hp m _

example (nrm : Mat 2 2 → ℝ) (M : Fin 2 → Mat 2 2) (Ds Ds' : Fin 3 → Fin 2 → Mat 2 2) (x : Fin 2 → ℝ) :=
  C134_linear someEigh someEigh_ok nrm ⟨some 1, "SA".toList⟩ (part := .smallest) (o := .algebraic) rfl (by decide) 0 none M Ds Ds' x 2

end Verif.Props
