import Verif.Props.Pmm
import Verif.Lemmas.EigenDeriv
import Mathlib.Analysis.Calculus.LocalExtr.Basic
import Mathlib.LinearAlgebra.Matrix.Notation
import Mathlib.Tactic.FinCases

/-! # C121: gradients of predicted eigenvalues are expectation values -/

namespace Verif.Props
open Verif.Hermitian Verif.Eigen Verif.Tree Verif.ForwardSpec Verif.Pmm Verif.PmmSpec
open scoped Matrix

variable {n p : Nat} {Θ : Type} [NormedAddCommGroup Θ] [NormedSpace ℝ Θ]

/-- **C121** Let the stored matrices and the features depend on anything (`θ`: features, parameters or both), such that the matrix of the
model is differentiable. Where a predicted eigenvalue is simple, the prediction is differentiable, and its derivative is the energy of
the derivative of the matrix in the eigenvector. -/
theorem C121_gradient (ev : Matrix (Fin n) (Fin n) ℂ → List ℝ) (hev : IsEigvalsh ev) (c : Eigen.Cfg) {part : Part}
    (hw : parseWhich c.which = .ok (part, .algebraic)) (hk : c.numEig.getD n ≤ n) (s : ℝ)
    (M0 : Θ → Option (Matrix (Fin n) (Fin n) ℂ)) (M : Θ → Fin p → Matrix (Fin n) (Fin n) ℂ) (x : Θ → Fin p → ℝ) (r : Θ → List ℝ)
    (hr : ∀ t, eigenvalueCall ev c (M0 t).isSome s ((M0 t).toList ++ List.ofFn (M t)) (.leaf [sample (x t)]) = .ok (.leaf [r t]))
    (θ : Θ) (A' : Fin n → Fin n → Θ →L[ℝ] ℂ)
    (hd : ∀ i k, HasFDerivAt (fun t => modelMatrix s (M0 t) (M t) (x t) i k) (A' i k) θ)
    (j : Nat) (e : ℝ) (he : (r θ)[j]? = some e) (v : Fin n → ℂ) (hv : lenSq v = 1)
    (hAv : modelMatrix s (M0 θ) (M θ) (x θ) *ᵥ v = (e : ℂ) • v)
    (hs : ∀ w, modelMatrix s (M0 θ) (M θ) (x θ) *ᵥ w = (e : ℂ) • w → ∃ a : ℂ, w = a • v) :
    ∃ L : Θ →L[ℝ] ℝ, HasFDerivAt (fun t => (r t).getD j 0) L θ ∧ ∀ d, L d = energy (Matrix.of fun i k => A' i k d) v := by
  obtain ⟨idx, h1, h2, -⟩ := select_sorted n hk hw
  have hH := fun t => modelMatrix_isHermitian s (M0 t) (M t) (x t)
  have hrt : ∀ t, r t = idx.map ((ev (modelMatrix s (M0 t) (M t) (x t))).getD · 0) := fun t => by
    have := hr t
    rw [single_call ev c _ s _ _ (affine_model s (M0 t) (M t) (x t)), h2 _ (hev _ (hH t)).1 (ev_length hev (hH t))] at this
    simpa using this.symm
  have hj : j < idx.length := by
    obtain ⟨h, -⟩ := List.getElem?_eq_some_iff.1 he
    simpa [hrt] using h
  have hget : ∀ t, (r t).getD j 0 = (ev (modelMatrix s (M0 t) (M t) (x t))).getD idx[j] 0 := fun t => by
    rw [hrt t]
    simp [List.getD_eq_getElem?_getD, List.getElem?_eq_getElem hj]
  have he' : (ev (modelMatrix s (M0 θ) (M θ) (x θ))).getD idx[j] 0 = e := by
    rw [← hget θ, List.getD_eq_getElem?_getD, he]
    rfl
  obtain ⟨L, hL, hLd⟩ := hasFDerivAt_ev hev hH hd (h1 _ (List.getElem_mem hj)) hv (by rw [he']; exact hAv) (by rw [he']; exact hs)
  refine ⟨L, ?_, hLd⟩
  simpa only [hget] using hL

theorem model_entry (s : ℝ) (M0 : Option (Matrix (Fin n) (Fin n) ℂ)) (M : Fin p → Matrix (Fin n) (Fin n) ℂ) (x : Fin p → ℝ) (i k : Fin n) :
    modelMatrix s M0 M x i k = modelMatrix s M0 M 0 i k + ∑ q, (x q : ℂ) * herm (M q) i k := by
  simp only [modelMatrix, Matrix.add_apply, Matrix.sum_apply, Matrix.smul_apply, smul_eq_mul, Pi.zero_apply, Complex.ofReal_zero, zero_mul,
    Finset.sum_const_zero]
  ring

/-- **C121 (features).** The derivative of a simple predicted eigenvalue with respect to a feature is the energy of the matrix of that
feature in the eigenvector; smoothing and the constant matrix do not enter. -/
theorem C121_features (ev : Matrix (Fin n) (Fin n) ℂ → List ℝ) (hev : IsEigvalsh ev) (c : Eigen.Cfg) {part : Part}
    (hw : parseWhich c.which = .ok (part, .algebraic)) (hk : c.numEig.getD n ≤ n) (s : ℝ) (M0 : Option (Matrix (Fin n) (Fin n) ℂ))
    (M : Fin p → Matrix (Fin n) (Fin n) ℂ) (r : (Fin p → ℝ) → List ℝ)
    (hr : ∀ x, eigenvalueCall ev c M0.isSome s (M0.toList ++ List.ofFn M) (.leaf [sample x]) = .ok (.leaf [r x])) (x : Fin p → ℝ)
    (j : Nat) (e : ℝ) (he : (r x)[j]? = some e) (v : Fin n → ℂ) (hv : lenSq v = 1) (hAv : modelMatrix s M0 M x *ᵥ v = (e : ℂ) • v)
    (hs : ∀ w, modelMatrix s M0 M x *ᵥ w = (e : ℂ) • w → ∃ a : ℂ, w = a • v) :
    ∃ L : (Fin p → ℝ) →L[ℝ] ℝ, HasFDerivAt (fun y => (r y).getD j 0) L x ∧ ∀ d, L d = ∑ q, d q * energy (herm (M q)) v := by
  let A' : Fin n → Fin n → (Fin p → ℝ) →L[ℝ] ℂ := fun i k =>
    ∑ q, (Complex.ofRealCLM.comp (ContinuousLinearMap.proj q)).smulRight (herm (M q) i k)
  have hA' : ∀ i k d, A' i k d = ∑ q, (d q : ℂ) * herm (M q) i k := fun i k d => by
    simp [A']
  obtain ⟨L, hL, hLd⟩ := C121_gradient ev hev c hw hk s (fun _ => M0) (fun _ => M) (fun y => y) r hr x A' (fun i k => by
    have h1 := (A' i k).hasFDerivAt (x := x)
    have h2 := h1.const_add (modelMatrix s M0 M 0 i k)
    refine h2.congr_of_eventuallyEq (Filter.Eventually.of_forall fun y => ?_)
    show modelMatrix s M0 M y i k = modelMatrix s M0 M 0 i k + A' i k y
    rw [model_entry, hA']) j e he v hv hAv hs
  refine ⟨L, hL, fun d => ?_⟩
  rw [hLd d]
  have : (Matrix.of fun i k => A' i k d) = ∑ q, ((d q : ℝ) : ℂ) • herm (M q) := by
    ext i k
    rw [Matrix.of_apply, hA', Matrix.sum_apply]
    rfl
  rw [this, energy_sum]
  exact Finset.sum_congr rfl fun q _ => energy_smul _ _ _

theorem energy_herm (N : Matrix (Fin n) (Fin n) ℂ) (v : Fin n → ℂ) : energy (herm N) v = energy N v := by
  have h2 : energy Nᴴ v = energy N v := by
    unfold energy
    have : star v ⬝ᵥ Nᴴ *ᵥ v = star (star v ⬝ᵥ N *ᵥ v) := by
      have h := Matrix.star_dotProduct_star (N *ᵥ v) (star v)
      rw [star_star, Matrix.star_mulVec, ← Matrix.dotProduct_mulVec] at h
      exact h
    rw [this]
    simp
  have h1 : herm N = ((1 / 2 : ℝ) : ℂ) • (N + Nᴴ) := by
    ext i k
    simp [herm]
    try ring
  rw [h1, energy_smul, energy_add, h2]
  ring

/-- **C121 (stored matrices).** Without smoothing, the derivative of a simple predicted eigenvalue with respect to the stored matrices is
the energy of the change of the matrices in the eigenvector, weighted with the features. -/
theorem C121_matrices (ev : Matrix (Fin n) (Fin n) ℂ → List ℝ) (hev : IsEigvalsh ev) (c : Eigen.Cfg) {part : Part}
    (hw : parseWhich c.which = .ok (part, .algebraic)) (hk : c.numEig.getD n ≤ n) (x : Fin p → ℝ)
    (r : (Fin n → Fin n → ℂ) × (Fin p → Fin n → Fin n → ℂ) → List ℝ)
    (hr : ∀ t, eigenvalueCall ev c true 0 (Matrix.of t.1 :: List.ofFn fun q => Matrix.of (t.2 q)) (.leaf [sample x]) = .ok (.leaf [r t]))
    (t : (Fin n → Fin n → ℂ) × (Fin p → Fin n → Fin n → ℂ)) (j : Nat) (e : ℝ) (he : (r t)[j]? = some e)
    (v : Fin n → ℂ) (hv : lenSq v = 1)
    (hAv : modelMatrix 0 (some (Matrix.of t.1)) (fun q => Matrix.of (t.2 q)) x *ᵥ v = (e : ℂ) • v)
    (hs : ∀ w, modelMatrix 0 (some (Matrix.of t.1)) (fun q => Matrix.of (t.2 q)) x *ᵥ w = (e : ℂ) • w → ∃ a : ℂ, w = a • v) :
    ∃ L : (Fin n → Fin n → ℂ) × (Fin p → Fin n → Fin n → ℂ) →L[ℝ] ℝ, HasFDerivAt (fun u => (r u).getD j 0) L t ∧
      ∀ d, L d = energy (Matrix.of d.1) v + ∑ q, x q * energy (Matrix.of (d.2 q)) v := by
  let E : Fin n → Fin n → (Fin n → Fin n → ℂ) →L[ℝ] ℂ := fun i k =>
    (ContinuousLinearMap.proj (R := ℝ) (φ := fun _ : Fin n => ℂ) k).comp
      (ContinuousLinearMap.proj (R := ℝ) (φ := fun _ : Fin n => Fin n → ℂ) i)
  let H : Fin n → Fin n → (Fin n → Fin n → ℂ) →L[ℝ] ℂ := fun i k =>
    (1 / 2 : ℝ) • (E i k + (Complex.conjCLE : ℂ →L[ℝ] ℂ).comp (E k i))
  have hH : ∀ i k N, H i k N = herm (Matrix.of N) i k := fun i k N => by
    simp [H, E, herm]
    try ring
  let A' : Fin n → Fin n → (Fin n → Fin n → ℂ) × (Fin p → Fin n → Fin n → ℂ) →L[ℝ] ℂ := fun i k =>
    (H i k).comp (ContinuousLinearMap.fst ℝ _ _) +
      ∑ q, (x q) • ((H i k).comp (ContinuousLinearMap.proj (R := ℝ) (φ := fun _ : Fin p => Fin n → Fin n → ℂ) q)).comp
        (ContinuousLinearMap.snd ℝ _ _)
  have hA' : ∀ i k d, A' i k d = herm (Matrix.of d.1) i k + ∑ q, (x q : ℂ) * herm (Matrix.of (d.2 q)) i k := fun i k d => by
    simp [A', hH]
  obtain ⟨L, hL, hLd⟩ := C121_gradient ev hev c hw hk 0 (fun u : (Fin n → Fin n → ℂ) × (Fin p → Fin n → Fin n → ℂ) => some (Matrix.of u.1))
    (fun u q => Matrix.of (u.2 q)) (fun _ => x) r hr t A' (fun i k => by
    have h1 := (A' i k).hasFDerivAt (x := t)
    refine h1.congr_of_eventuallyEq (Filter.Eventually.of_forall fun u => ?_)
    rw [hA']
    simp [modelMatrix, Matrix.sum_apply]) j e he v hv hAv hs
  refine ⟨L, hL, fun d => ?_⟩
  rw [hLd d]
  have : (Matrix.of fun i k => A' i k d) = herm (Matrix.of d.1) + ∑ q, ((x q : ℝ) : ℂ) • herm (Matrix.of (d.2 q)) := by
    ext i k
    rw [Matrix.of_apply, hA', Matrix.add_apply, Matrix.sum_apply]
    rfl
  rw [this, energy_add, energy_sum, energy_herm]
  congr 1
  exact Finset.sum_congr rfl fun q _ => by rw [energy_smul, energy_herm]

/-- **C121 (tangents).** A prediction of the smallest eigenvalue lies below all its tangents: the first-order change computed with a
ground state never underestimates the prediction, at any distance. -/
theorem C121_tangent (ev : Matrix (Fin n) (Fin n) ℂ → List ℝ) (hev : IsEigvalsh ev) (c : Eigen.Cfg)
    (hw : parseWhich c.which = .ok (.smallest, .algebraic)) (hk : c.numEig.getD n = 1) (hn : 0 < n) (s : ℝ) (M0 : Option (Matrix (Fin n) (Fin n) ℂ))
    (M : Fin p → Matrix (Fin n) (Fin n) ℂ) (f : (Fin p → ℝ) → ℝ)
    (hf : ∀ x, eigenvalueCall ev c M0.isSome s (M0.toList ++ List.ofFn M) (.leaf [sample x]) = .ok (.leaf [[f x]])) (x : Fin p → ℝ)
    (v : Fin n → ℂ) (hv : lenSq v = 1) (hx : energy (modelMatrix s M0 M x) v = f x) (y : Fin p → ℝ) :
    f y ≤ f x + ∑ q, (y q - x q) * energy (herm (M q)) v := by
  obtain ⟨e, he, hle, -⟩ := C75_ground_state ev hev c hw hk hn s M0 M y
  rw [hf y] at he
  obtain rfl : f y = e := by simpa using he
  have h := hle v
  rw [hv, mul_one, energy_model] at h
  rw [energy_model] at hx
  rw [← hx]
  simp only [sub_mul, Finset.sum_sub_distrib]
  linarith

/-- **C121 (crossings).** Where the smallest eigenvalue is differentiable, all ground states give the same derivative. -/
theorem C121_crossing (ev : Matrix (Fin n) (Fin n) ℂ → List ℝ) (hev : IsEigvalsh ev) (c : Eigen.Cfg)
    (hw : parseWhich c.which = .ok (.smallest, .algebraic)) (hk : c.numEig.getD n = 1) (hn : 0 < n) (s : ℝ) (M0 : Option (Matrix (Fin n) (Fin n) ℂ))
    (M : Fin p → Matrix (Fin n) (Fin n) ℂ) (f : (Fin p → ℝ) → ℝ)
    (hf : ∀ x, eigenvalueCall ev c M0.isSome s (M0.toList ++ List.ofFn M) (.leaf [sample x]) = .ok (.leaf [[f x]])) (x : Fin p → ℝ)
    (v : Fin n → ℂ) (hv : lenSq v = 1) (hx : energy (modelMatrix s M0 M x) v = f x) (L : (Fin p → ℝ) →L[ℝ] ℝ) (hL : HasFDerivAt f L x)
    (d : Fin p → ℝ) : L d = ∑ q, d q * energy (herm (M q)) v := by
  let T : (Fin p → ℝ) →L[ℝ] ℝ := ∑ q, energy (herm (M q)) v • ContinuousLinearMap.proj (R := ℝ) (φ := fun _ : Fin p => ℝ) q
  have hT : ∀ y, T y = ∑ q, y q * energy (herm (M q)) v := fun y => by simp [T, mul_comm]
  have hmax : IsLocalMax (fun y => f y - T y) x := by
    refine Filter.Eventually.of_forall fun y => ?_
    have h := C121_tangent ev hev c hw hk hn s M0 M f hf x v hv hx y
    have h2 : ∑ q, (y q - x q) * energy (herm (M q)) v = T y - T x := by
      rw [hT, hT, ← Finset.sum_sub_distrib]
      exact Finset.sum_congr rfl fun q _ => by ring
    show f y - T y ≤ f x - T x
    linarith
  have h0 := hmax.hasFDerivAt_eq_zero (hL.sub T.hasFDerivAt)
  have : L = T := sub_eq_zero.1 h0
  rw [this, hT]

/-- The model with the single matrix `diag(1, -1)`, whose eigenvalues cross at zero. -/
noncomputable def crossMatrix : Matrix (Fin 2) (Fin 2) ℂ := Matrix.diagonal ![1, -1]

theorem crossMatrix_energy : energy (herm crossMatrix) ![1, 0] = 1 ∧ energy (herm crossMatrix) ![0, 1] = -1 := by
  constructor <;>
    simp [energy, herm, crossMatrix, Matrix.mulVec, dotProduct, Matrix.diagonal, Fin.sum_univ_two, Matrix.conjTranspose] <;> norm_num

/-- **C121, contrast**: where eigenvalues cross the prediction has no derivative, so no gradient could be right: the smallest eigenvalue
of `x diag(1, -1)` at `x = 0`. -/
theorem C121_no_gradient (ev : Matrix (Fin 2) (Fin 2) ℂ → List ℝ) (hev : IsEigvalsh ev) (f : (Fin 1 → ℝ) → ℝ)
    (hf : ∀ x, eigenvalueCall ev ⟨some 1, "SA".toList⟩ false 0 [crossMatrix] (.leaf [sample x]) = .ok (.leaf [[f x]])) :
    ¬ DifferentiableAt ℝ f 0 := by
  intro hdiff
  have hw : parseWhich (⟨some 1, "SA".toList⟩ : Eigen.Cfg).which = .ok (.smallest, .algebraic) := by decide
  have hf' : ∀ x, eigenvalueCall ev ⟨some 1, "SA".toList⟩ (Option.none : Option (Matrix (Fin 2) (Fin 2) ℂ)).isSome 0
      ((Option.none : Option (Matrix (Fin 2) (Fin 2) ℂ)).toList ++ List.ofFn fun _ : Fin 1 => crossMatrix) (.leaf [sample x]) =
        .ok (.leaf [[f x]]) := fun x => by
    simpa using hf x
  have hzero : ∀ v, energy (modelMatrix 0 Option.none (fun _ : Fin 1 => crossMatrix) 0) v = 0 := fun v => by
    have : modelMatrix 0 Option.none (fun _ : Fin 1 => crossMatrix) 0 = 0 := by simp [modelMatrix]
    rw [this, energy_zero]
  have hf0 : f 0 = 0 := by
    obtain ⟨e, he, -, v, -, hv⟩ := C75_ground_state ev hev ⟨some 1, "SA".toList⟩ hw rfl (by norm_num) 0 Option.none
      (fun _ : Fin 1 => crossMatrix) 0
    rw [hf' 0] at he
    rw [hzero] at hv
    have : f 0 = e := by simpa using he
    rw [this, ← hv]
  have key := fun v hv => C121_crossing ev hev ⟨some 1, "SA".toList⟩ hw rfl (by norm_num) 0 Option.none
    (fun _ : Fin 1 => crossMatrix) f hf' 0 v hv (by rw [hzero, hf0]) _ hdiff.hasFDerivAt (fun _ => 1)
  have h1 := key ![1, 0] (by simp [lenSq, Fin.sum_univ_two])
  have h2 := key ![0, 1] (by simp [lenSq, Fin.sum_univ_two])
  rw [h1] at h2
  simp [crossMatrix_energy.1, crossMatrix_energy.2] at h2
  norm_num at h2

/-- The hypotheses of the gradient theorem are met by this model away from the crossing: at `x = 1` the eigenvalue -1 is simple. -/
example : let A := modelMatrix 0 Option.none (fun _ : Fin 1 => crossMatrix) (fun _ => 1)
    lenSq (![0, 1] : Fin 2 → ℂ) = 1 ∧ A *ᵥ ![0, 1] = ((-1 : ℝ) : ℂ) • ![0, 1] ∧
      ∀ w, A *ᵥ w = ((-1 : ℝ) : ℂ) • w → ∃ a : ℂ, w = a • ![0, 1] := by
  have hA : modelMatrix 0 Option.none (fun _ : Fin 1 => crossMatrix) (fun _ => 1) = crossMatrix := by
    ext i k
    fin_cases i <;> fin_cases k <;> simp [modelMatrix, herm, crossMatrix, Matrix.conjTranspose] <;> norm_num
  intro A
  refine ⟨by simp [lenSq, Fin.sum_univ_two], ?_, fun w hw => ⟨w 1, ?_⟩⟩
  · show modelMatrix _ _ _ _ *ᵥ _ = _
    rw [hA]
    funext i
    fin_cases i <;> simp [crossMatrix, Matrix.mulVec, dotProduct, Matrix.diagonal, Fin.sum_univ_two]
  · have hw' : crossMatrix *ᵥ w = ((-1 : ℝ) : ℂ) • w := by rw [← hA]; exact hw
    have h0 := congrFun hw' 0
    simp [crossMatrix, Matrix.mulVec, dotProduct, Matrix.diagonal, Fin.sum_univ_two] at h0
    have h1 : w 0 = 0 := by
      have h2 : (2 : ℂ) * w 0 = 0 := by linear_combination h0
      simpa using h2
    funext i
    fin_cases i <;> simp [h1]

/-- And every eigenvalue solver gives predictions as in the theorems on tangents, crossings and missing gradients. -/
example : ∃ (ev : Matrix (Fin 2) (Fin 2) ℂ → List ℝ) (f : (Fin 1 → ℝ) → ℝ), IsEigvalsh ev ∧
    ∀ x, eigenvalueCall ev ⟨some 1, "SA".toList⟩ false 0 [crossMatrix] (.leaf [sample x]) = .ok (.leaf [[f x]]) := by
  obtain ⟨ev, hev⟩ : ∃ ev : Matrix (Fin 2) (Fin 2) ℂ → List ℝ, IsEigvalsh ev := ⟨_, exists_eigvalsh⟩
  choose f hf using fun x : Fin 1 → ℝ => C75_ground_state ev hev ⟨some 1, "SA".toList⟩ (by decide) rfl (by norm_num) 0 Option.none
    (fun _ : Fin 1 => crossMatrix) x
  exact ⟨ev, f, hev, fun x => by simpa using (hf x).1⟩

end Verif.Props
