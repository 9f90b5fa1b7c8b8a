import Verif.Props.TrainUnitsPmm
import Verif.Props.EigenGradient
import Verif.Props.Descent
import Verif.Props.Loss

/-! # C129: the gradient of a fit of eigenvalues, and its first step -/

namespace Verif.Props

open Verif.Batch Verif.Train Verif.Adam Verif.Loss Hermitian Eigen Pmm PmmSpec
open scoped Matrix

variable {n p : Nat} {S K : Type}

/-- A batch: the features and the targets of its samples. -/
def batchOf (T : List ((Fin p → ℝ) × List ℝ)) : Data (List ℝ) := ⟨[T.map fun t => List.ofFn t.1], some [T.map (·.2)], Option.none⟩

/-- The matrix of the model with parameter array `P` at the features `x`, without smoothing. -/
noncomputable def matrixAt (P : Fin (p + 1) × Fin n × Fin n → ℂ) (x : Fin p → ℝ) : Mat n n :=
  modelMatrix 0 (some (Matrix.of fun i j => P (0, i, j))) (fun q => Matrix.of fun i j => P (q.succ, i, j)) x

/-- The error of the `j`-th prediction for a sample. -/
def residual (r : (Fin p → ℝ) → (Fin (p + 1) × Fin n × Fin n → ℂ) → List ℝ) (P : Fin (p + 1) × Fin n × Fin n → ℂ) (t : (Fin p → ℝ) × List ℝ) (j : Nat) : ℝ :=
  (r t.1 P).getD j 0 - t.2.getD j 0

theorem list_getD (l : List ℝ) : l = (List.range l.length).map fun j => l.getD j 0 := by
  apply List.ext_getElem
  · simp
  · intro i h1 h2
    simp [List.getElem?_eq_getElem h1]

theorem list_range_sum (f : Nat → ℝ) (k : Nat) : ((List.range k).map f).sum = ∑ j ∈ Finset.range k, f j := by
  induction k with
  | zero => simp
  | succ k ih => simp [List.range_succ, Finset.sum_range_succ, ih]

/-- **C129** The loss of a batch: the mean of the squared errors over all samples and all predicted eigenvalues. -/
theorem C129_loss (ev : Mat n n → List ℝ) (cfg : Eigen.Cfg) (k : Nat) (hk : 0 < k) (s : ℝ) (r : (Fin p → ℝ) → (Fin (p + 1) × Fin n × Fin n → ℂ) → List ℝ)
    (hr : ∀ x P, eigenvalueCall ev cfg true s (stored P) (.leaf [sample x]) = .ok (.leaf [r x P])) (hl : ∀ x P, (r x P).length = k)
    (T : List ((Fin p → ℝ) × List ℝ)) (hT : T ≠ []) (hy : ∀ t ∈ T, t.2.length = k) (P : Fin (p + 1) × Fin n × Fin n → ℂ) :
    fitLoss ev cfg s P (batchOf T) = some ((T.map fun t => ∑ j ∈ Finset.range k, residual r P t j ^ 2).sum / (T.length * k)) := by
  have hst : stored P = (some (Matrix.of fun i j => P (0, i, j) : Mat n n)).toList ++ List.ofFn fun q : Fin p => (Matrix.of fun i j => P (q.succ, i, j) : Mat n n) := stored_cons P
  have hsel : ∀ x, selectValues (ev (modelMatrix s (some (Matrix.of fun i j => P (0, i, j) : Mat n n)) (fun q : Fin p => Matrix.of fun i j => P (q.succ, i, j)) x)) cfg.numEig cfg.which
      = .ok (r x P) := fun x => by
    have h1 := hr x P
    rw [hst] at h1
    have h2 := single_call ev cfg true s _ _ (affine_model s (some (Matrix.of fun i j => P (0, i, j) : Mat n n)) (fun q : Fin p => Matrix.of fun i j => P (q.succ, i, j)) x)
    have h3 := h2.symm.trans h1
    split at h3
    · rename_i a ha
      rw [ha]
      simpa using h3
    · cases h3
  have hx : (T.map fun t => List.ofFn t.1).map (fun r => fun i : Fin p => r.getD i 0) = T.map (·.1) := by
    rw [List.map_map]
    refine List.map_congr_left fun t _ => ?_
    funext i
    simp
  have hcall : eigenvalueCall ev cfg true s (stored P) (.leaf ((T.map (·.1)).map sample)) = .ok (.leaf (T.map fun t => r t.1 P)) := by
    have h1 := call_model ev cfg s (some (Matrix.of fun i j => P (0, i, j) : Mat n n)) (fun q : Fin p => Matrix.of fun i j => P (q.succ, i, j)) (.leaf (T.map (·.1)))
    rw [← hst] at h1
    refine h1.trans ?_
    unfold valuesCallable
    simp only [hsel]
    simp only [Tree.norm, Tree.mapM, mapM_list_ok, List.map_map]
    rfl
  let L : List (ℝ × ℝ × ℝ) := T.flatMap fun t => (List.range k).map fun j => ((r t.1 P).getD j 0, t.2.getD j 0, (0 : ℝ))
  have hL1 : (T.map fun t => r t.1 P).flatten.map some = L.map fun t => some t.1 := by
    simp only [L, List.map_flatMap, List.map_map, List.flatMap_def, List.map_flatten]
    congr 1
    refine List.map_congr_left fun t _ => ?_
    conv_lhs => rw [Function.comp_apply, list_getD (r t.1 P), hl]
    simp [Function.comp_def]
  have hL2 : (T.map (·.2)).flatten.map some = L.map fun t => some t.2.1 := by
    simp only [L, List.map_flatMap, List.map_map, List.flatMap_def, List.map_flatten]
    congr 1
    refine List.map_congr_left fun t ht => ?_
    conv_lhs => rw [Function.comp_apply, list_getD t.2, hy t ht]
    simp [Function.comp_def]
  have hLl : L.length = T.length * k := by
    simp [L, List.length_flatMap]
  have hne : [L].flatten ≠ [] := by
    rw [List.flatten_singleton]
    intro h
    rw [h, List.length_nil] at hLl
    have : 0 < T.length * k := Nat.mul_pos (List.length_pos_of_ne_nil hT) hk
    omega
  have hmse := (C36_values (𝕜 := ℝ) [L] hne).1
  have hu : loss (𝕜 := ℝ) .mse (preds [L]) (targets [L]) (uncs [L]) = loss (𝕜 := ℝ) .mse (preds [L]) (targets [L]) [] := rfl
  rw [hu] at hmse
  unfold fitLoss batchOf
  simp only [hx, hcall, hL1, hL2]
  have hp : preds [L] = [L.map fun t => some t.1] := rfl
  have ht : targets [L] = [L.map fun t => some t.2.1] := rfl
  rw [← hp, ← ht, hmse, List.flatten_singleton, hLl]
  simp only []
  congr 2
  · simp only [L, residual]
    clear hL1 hL2 hLl hne hmse hu hp ht hcall hx hT hy
    induction T with
    | nil => simp
    | cons t T ih =>
      simp only [List.flatMap_cons, List.map_append, List.sum_append, List.map_cons, List.sum_cons]
      rw [← ih]
      congr 1
      rw [List.map_map, list_range_sum]
      simp [Real.norm_eq_abs, sq_abs]
  · push_cast
    rfl

/-- The change of the energy of a state `w` at the features `x`, if the parameter array changes by `d`. -/
noncomputable def energyChange (d : Fin (p + 1) × Fin n × Fin n → ℂ) (x : Fin p → ℝ) (w : Fin n → ℂ) : ℝ :=
  energy (Matrix.of fun i j => d (0, i, j)) w + ∑ q, x q * energy (Matrix.of fun i j => d (q.succ, i, j)) w

/-- The selected eigenvalues of all samples of the batch are simple, and `v` gives their eigenvectors. -/
def SimpleAt (r : (Fin p → ℝ) → (Fin (p + 1) × Fin n × Fin n → ℂ) → List ℝ) (k : Nat) (T : List ((Fin p → ℝ) × List ℝ)) (P : Fin (p + 1) × Fin n × Fin n → ℂ)
    (v : (Fin p → ℝ) → Nat → Fin n → ℂ) : Prop :=
  ∀ t ∈ T, ∀ j, j < k → lenSq (v t.1 j) = 1 ∧ matrixAt P t.1 *ᵥ v t.1 j = (((r t.1 P).getD j 0 : ℝ) : ℂ) • v t.1 j ∧
    ∀ w, matrixAt P t.1 *ᵥ w = (((r t.1 P).getD j 0 : ℝ) : ℂ) • w → ∃ a : ℂ, w = a • v t.1 j

/-- The array as a pair of the constant matrix and the others. -/
noncomputable def splitArray : (Fin (p + 1) × Fin n × Fin n → ℂ) →L[ℝ] (Fin n → Fin n → ℂ) × (Fin p → Fin n → Fin n → ℂ) :=
  (ContinuousLinearMap.pi fun i => ContinuousLinearMap.pi fun j => ContinuousLinearMap.proj (R := ℝ) (φ := fun _ : Fin (p + 1) × Fin n × Fin n => ℂ) (0, i, j)).prod
    (ContinuousLinearMap.pi fun q => ContinuousLinearMap.pi fun i => ContinuousLinearMap.pi fun j =>
      ContinuousLinearMap.proj (R := ℝ) (φ := fun _ : Fin (p + 1) × Fin n × Fin n => ℂ) (q.succ, i, j))

theorem pred_deriv (ev : Mat n n → List ℝ) (hev : IsEigvalsh ev) (cfg : Eigen.Cfg) {part : Part} (hw : parseWhich cfg.which = .ok (part, .algebraic))
    (hn : cfg.numEig.getD n ≤ n) (r : (Fin p → ℝ) → (Fin (p + 1) × Fin n × Fin n → ℂ) → List ℝ)
    (hr : ∀ x P, eigenvalueCall ev cfg true 0 (stored P) (.leaf [sample x]) = .ok (.leaf [r x P])) (P : Fin (p + 1) × Fin n × Fin n → ℂ) (x : Fin p → ℝ) (j : Nat)
    (hj : j < (r x P).length) (w : Fin n → ℂ) (h1 : lenSq w = 1) (h2 : matrixAt P x *ᵥ w = (((r x P).getD j 0 : ℝ) : ℂ) • w)
    (h3 : ∀ u, matrixAt P x *ᵥ u = (((r x P).getD j 0 : ℝ) : ℂ) • u → ∃ a : ℂ, u = a • w) :
    ∃ L : (Fin (p + 1) × Fin n × Fin n → ℂ) →L[ℝ] ℝ, HasFDerivAt (fun Q => (r x Q).getD j 0) L P ∧ ∀ d, L d = energyChange d x w := by
  let join : (Fin n → Fin n → ℂ) × (Fin p → Fin n → Fin n → ℂ) → Fin (p + 1) × Fin n × Fin n → ℂ :=
    fun t q => Fin.cases (motive := fun _ => ℂ) (t.1 q.2.1 q.2.2) (fun a => t.2 a q.2.1 q.2.2) q.1
  have hjoin : ∀ Q, join (splitArray Q) = Q := fun Q => by
    funext ⟨q, i, k⟩
    cases q using Fin.cases <;> rfl
  have hst : ∀ t, stored (join t) = Matrix.of t.1 :: List.ofFn fun q => Matrix.of (t.2 q) := fun t => by
    rw [stored_cons]
    rfl
  obtain ⟨L, hL, hd⟩ := C121_matrices ev hev cfg hw hn x (fun t => r x (join t)) (fun t => by rw [← hst]; exact hr x (join t)) (splitArray P) j ((r x P).getD j 0)
    (by rw [hjoin]; exact getD_some hj) w h1 h2 h3
  refine ⟨L.comp splitArray, ?_, fun d => ?_⟩
  · have := hL.comp P (splitArray (n := n) (p := p)).hasFDerivAt
    refine this.congr_of_eventuallyEq (Filter.Eventually.of_forall fun Q => ?_)
    simp only [Function.comp_apply, hjoin]
  · rw [ContinuousLinearMap.comp_apply, hd]
    rfl

theorem hasFDerivAt_list {E A : Type} [NormedAddCommGroup E] [NormedSpace ℝ E] (f : A → E → ℝ) (D : A → E →L[ℝ] ℝ) (P : E) :
    ∀ T : List A, (∀ t ∈ T, HasFDerivAt (f t) (D t) P) → HasFDerivAt (fun Q => (T.map fun t => f t Q).sum) (T.map D).sum P
  | [], _ => by simpa using hasFDerivAt_const (0 : ℝ) P
  | t :: T, h => by
    simp only [List.map_cons, List.sum_cons]
    exact (h t List.mem_cons_self).add (hasFDerivAt_list f D P T fun u hu => h u (List.mem_cons_of_mem _ hu))

theorem list_sum_apply {E A : Type} [NormedAddCommGroup E] [NormedSpace ℝ E] (D : A → E →L[ℝ] ℝ) (d : E) : ∀ T : List A, (T.map D).sum d = (T.map fun t => D t d).sum
  | [] => by simp
  | t :: T => by simp [list_sum_apply D d T]

/-- **C129** Where the predicted eigenvalues of all samples of a batch are simple, the loss of a fit of eigenvalues is differentiable in the stored matrices. Its derivative is the mean over
samples and predictions of twice the error times the change of the energy of the eigenvector. -/
theorem C129_gradient (ev : Mat n n → List ℝ) (hev : IsEigvalsh ev) (cfg : Eigen.Cfg) {part : Part} (hw : parseWhich cfg.which = .ok (part, .algebraic))
    (k : Nat) (hk : 0 < k) (hn : cfg.numEig.getD n ≤ n) (r : (Fin p → ℝ) → (Fin (p + 1) × Fin n × Fin n → ℂ) → List ℝ)
    (hr : ∀ x P, eigenvalueCall ev cfg true 0 (stored P) (.leaf [sample x]) = .ok (.leaf [r x P])) (hl : ∀ x P, (r x P).length = k)
    (T : List ((Fin p → ℝ) × List ℝ)) (hT : T ≠ []) (hy : ∀ t ∈ T, t.2.length = k) (P : Fin (p + 1) × Fin n × Fin n → ℂ)
    (v : (Fin p → ℝ) → Nat → Fin n → ℂ) (hv : SimpleAt r k T P v) :
    ∃ D : (Fin (p + 1) × Fin n × Fin n → ℂ) →L[ℝ] ℝ, HasFDerivAt (fun Q => (fitLoss ev cfg 0 Q (batchOf T)).getD 0) D P ∧
      ∀ d, D d = (T.map fun t => ∑ j ∈ Finset.range k, 2 * residual r P t j * energyChange d t.1 (v t.1 j)).sum / (T.length * k) := by
  have hex : ∀ t : (Fin p → ℝ) × List ℝ, ∀ j, ∃ L : (Fin (p + 1) × Fin n × Fin n → ℂ) →L[ℝ] ℝ, t ∈ T → j < k →
      HasFDerivAt (fun Q => residual r Q t j) L P ∧ ∀ d, L d = energyChange d t.1 (v t.1 j) := fun t j => by
    by_cases h : t ∈ T ∧ j < k
    · obtain ⟨h1, h2, h3⟩ := hv t h.1 j h.2
      obtain ⟨L, hL, hd⟩ := pred_deriv ev hev cfg hw hn r hr P t.1 j (by rw [hl]; exact h.2) (v t.1 j) h1 h2 h3
      exact ⟨L, fun _ _ => ⟨hL.sub_const _, hd⟩⟩
    · exact ⟨0, fun h1 h2 => absurd ⟨h1, h2⟩ h⟩
  choose L hL using hex
  let D : (Fin p → ℝ) × List ℝ → (Fin (p + 1) × Fin n × Fin n → ℂ) →L[ℝ] ℝ := fun t => ∑ j ∈ Finset.range k, (2 * residual r P t j) • L t j
  have h1 := hasFDerivAt_list (fun t Q => ∑ j ∈ Finset.range k, residual r Q t j ^ 2) D P T (fun t ht => by
    refine HasFDerivAt.fun_sum fun j hj => ?_
    have := ((hL t j ht (Finset.mem_range.1 hj)).1).pow 2
    simpa using this)
  refine ⟨((T.length * k : ℝ)⁻¹) • (T.map D).sum, ?_, fun d => ?_⟩
  · have h2 := h1.const_mul ((T.length * k : ℝ)⁻¹)
    refine h2.congr_of_eventuallyEq (Filter.Eventually.of_forall fun Q => ?_)
    simp only [C129_loss ev cfg k hk 0 r hr hl T hT hy Q, Option.getD_some, div_eq_inv_mul]
  · rw [smul_apply, list_sum_apply, smul_eq_mul, div_eq_inv_mul]
    congr 2
    refine List.map_congr_left fun t ht => ?_
    simp only [D, sum_apply, smul_apply, smul_eq_mul]
    exact Finset.sum_congr rfl fun j hj => by rw [(hL t j ht (Finset.mem_range.1 hj)).2]

section
variable {ι : Type} [Fintype ι] [DecidableEq ι]

theorem gradC_of_deriv {L : (ι → ℂ) → ℝ} {D : (ι → ℂ) →L[ℝ] ℝ} {P : ι → ℂ} (h : HasFDerivAt L D P) : TrainUnitsSpec.gradC L P = DescentSpec.gradC D := by
  have key : ∀ (i : ι) (z : ℂ), deriv (fun t : ℝ => L (Function.update P i (P i + t * z))) 0 = D (Pi.single i z) := fun i z => by
    have hc : (fun t : ℝ => L (Function.update P i (P i + t * z))) = fun t : ℝ => L (P + t • (Pi.single i z : ι → ℂ)) := by
      funext t
      congr 1
      funext k
      by_cases hk : k = i
      · subst hk; simp
      · simp [hk]
    rw [hc]
    have h1 : HasDerivAt (fun t : ℝ => P + t • (Pi.single i z : ι → ℂ)) (Pi.single i z) 0 := by
      simpa using ((hasDerivAt_id (0 : ℝ)).smul_const (Pi.single i z : ι → ℂ)).const_add P
    have h2 : HasFDerivAt L D (P + (0 : ℝ) • (Pi.single i z : ι → ℂ)) := by simpa using h
    exact (h2.comp_hasDerivAt (0 : ℝ) h1).deriv
  funext i
  unfold TrainUnitsSpec.gradC DescentSpec.gradC
  rw [← key i 1, ← key i Complex.I]
  simp only [mul_one]

theorem deriv_of_gradC {D : (ι → ℂ) →L[ℝ] ℝ} (h : DescentSpec.gradC D = 0) : D = 0 := by
  have h1 : ∀ i, D (Pi.single i 1) = 0 ∧ D (Pi.single i Complex.I) = 0 := fun i => by
    have := congrFun h i
    unfold DescentSpec.gradC at this
    exact ⟨by simpa using congrArg Complex.re this, by simpa using congrArg Complex.im this⟩
  refine ContinuousLinearMap.ext fun d => ?_
  have hd : d = ∑ i, ((d i).re • (Pi.single i 1 : ι → ℂ) + (d i).im • (Pi.single i Complex.I : ι → ℂ)) := by
    funext k
    rw [Finset.sum_apply, Finset.sum_eq_single k]
    · simp
    · intro b _ hb
      simp [Pi.single_eq_of_ne hb.symm]
    · simp
  rw [hd]
  simp [h1]

end

theorem energy_one (w : Fin n → ℂ) : energy (1 : Mat n n) w = lenSq w := by
  unfold energy
  rw [Matrix.one_mulVec, ← lenSq_eq, Complex.ofReal_re]

theorem energyChange_matrix (P : Fin (p + 1) × Fin n × Fin n → ℂ) (x : Fin p → ℝ) (w : Fin n → ℂ) : energyChange P x w = energy (matrixAt P x) w := by
  unfold matrixAt
  rw [modelMatrix_some]
  simp only [Complex.ofReal_zero, zero_smul, add_zero, energy_add, energy_sum, energy_smul, energy_herm]
  rfl

theorem energy_eigenvector {A : Mat n n} {w : Fin n → ℂ} {e : ℝ} (h1 : lenSq w = 1) (h : A *ᵥ w = (e : ℂ) • w) : energy A w = e := by
  unfold energy
  rw [h, dotProduct_smul, ← lenSq_eq, h1]
  simp

/-- The array whose `a`-th matrix is the identity and whose other matrices are zero. -/
def unitAt (a : Fin (p + 1)) : Fin (p + 1) × Fin n × Fin n → ℂ := fun q => if q.1 = a ∧ q.2.1 = q.2.2 then 1 else 0

theorem energyChange_unit (a : Fin (p + 1)) (x : Fin p → ℝ) (w : Fin n → ℂ) (h : lenSq w = 1) :
    energyChange (unitAt a) x w = Fin.cases (motive := fun _ => ℝ) 1 x a := by
  have h0 : ∀ b, (Matrix.of fun i j => unitAt a (b, i, j) : Mat n n) = if b = a then 1 else 0 := fun b => by
    ext i j
    by_cases hb : b = a <;> by_cases hij : i = j <;> simp [unitAt, hb, hij, Matrix.one_apply]
  unfold energyChange
  simp only [h0]
  cases a using Fin.cases with
  | zero => simp [energy_one, h, energy_zero, Fin.succ_ne_zero]
  | succ a =>
    rw [if_neg (Fin.succ_ne_zero a).symm, energy_zero, zero_add, Finset.sum_eq_single a]
    · simp [energy_one, h]
    · intro b _ hb
      rw [if_neg (fun h => hb (Fin.succ_injective _ h)), energy_zero, mul_zero]
    · simp

/-- **C129** Where the gradient of a fit vanishes (and the predicted eigenvalues are simple), the errors add up to zero, also weighted with any feature, and weighted with the predictions themselves: a fit that has
converged is right on average. -/
theorem C129_stationary (ev : Mat n n → List ℝ) (hev : IsEigvalsh ev) (cfg : Eigen.Cfg) {part : Part} (hw : parseWhich cfg.which = .ok (part, .algebraic))
    (k : Nat) (hk : 0 < k) (hn : cfg.numEig.getD n ≤ n) (r : (Fin p → ℝ) → (Fin (p + 1) × Fin n × Fin n → ℂ) → List ℝ)
    (hr : ∀ x P, eigenvalueCall ev cfg true 0 (stored P) (.leaf [sample x]) = .ok (.leaf [r x P])) (hl : ∀ x P, (r x P).length = k)
    (T : List ((Fin p → ℝ) × List ℝ)) (hT : T ≠ []) (hy : ∀ t ∈ T, t.2.length = k) (P : Fin (p + 1) × Fin n × Fin n → ℂ)
    (v : (Fin p → ℝ) → Nat → Fin n → ℂ) (hv : SimpleAt r k T P v)
    (h0 : TrainUnitsSpec.gradC (fun Q => (fitLoss ev cfg 0 Q (batchOf T)).getD 0) P = 0) :
    (T.map fun t => ∑ j ∈ Finset.range k, residual r P t j).sum = 0 ∧
    (∀ q, (T.map fun t => ∑ j ∈ Finset.range k, residual r P t j * t.1 q).sum = 0) ∧
    (T.map fun t => ∑ j ∈ Finset.range k, residual r P t j * (r t.1 P).getD j 0).sum = 0 := by
  obtain ⟨D, hD, hd⟩ := C129_gradient ev hev cfg hw k hk hn r hr hl T hT hy P v hv
  rw [gradC_of_deriv hD] at h0
  have hz := deriv_of_gradC h0
  have hpos : (0 : ℝ) < T.length * k := by
    have := List.length_pos_of_ne_nil hT
    positivity
  have key : ∀ (d : Fin (p + 1) × Fin n × Fin n → ℂ) (g : (Fin p → ℝ) × List ℝ → Nat → ℝ), (∀ t ∈ T, ∀ j, j < k → energyChange d t.1 (v t.1 j) = g t j) →
      (T.map fun t => ∑ j ∈ Finset.range k, residual r P t j * g t j).sum = 0 := fun d g hg => by
    have h1 := hd d
    rw [hz, zero_apply, eq_comm, div_eq_zero_iff, or_iff_left hpos.ne'] at h1
    have h2 : (T.map fun t => ∑ j ∈ Finset.range k, 2 * residual r P t j * energyChange d t.1 (v t.1 j)) =
        T.map fun t => 2 * ∑ j ∈ Finset.range k, residual r P t j * g t j := by
      refine List.map_congr_left fun t ht => ?_
      rw [Finset.mul_sum]
      exact Finset.sum_congr rfl fun j hj => by rw [hg t ht j (Finset.mem_range.1 hj), mul_assoc]
    rw [h2, List.sum_map_mul_left] at h1
    simpa using h1
  refine ⟨?_, fun q => ?_, ?_⟩
  · simpa using key (unitAt 0) (fun _ _ => 1) fun t ht j hj => by rw [energyChange_unit _ _ _ (hv t ht j hj).1]; rfl
  · exact key (unitAt q.succ) (fun t _ => t.1 q) fun t ht j hj => by rw [energyChange_unit _ _ _ (hv t ht j hj).1]; rfl
  · exact key P (fun t j => (r t.1 P).getD j 0) fun t ht j hj => by
      rw [energyChange_matrix, energy_eigenvector (hv t ht j hj).1 (hv t ht j hj).2.1]

/-- **C129** The first step of a fit: if the errors of the batch do not add up to zero and the predicted eigenvalues are simple, then with every small enough learning rate the first step of a training reduces
the loss of the batch. -/
theorem C129_first_step (c : Train.Cfg (List ℝ) (Fin (p + 1) × Fin n × Fin n → ℂ) S K (Option ℝ)) (ev : Mat n n → List ℝ) (hev : IsEigvalsh ev) (cfg : Eigen.Cfg) {part : Part}
    (hw : parseWhich cfg.which = .ok (part, .algebraic)) (hf : FitsEigenvalues c ev cfg 0) (hfl : c.flags = [true])
    (k : Nat) (hk : 0 < k) (hn : cfg.numEig.getD n ≤ n) (r : (Fin p → ℝ) → (Fin (p + 1) × Fin n × Fin n → ℂ) → List ℝ)
    (hr : ∀ x P, eigenvalueCall ev cfg true 0 (stored P) (.leaf [sample x]) = .ok (.leaf [r x P])) (hl : ∀ x P, (r x P).length = k)
    (T : List ((Fin p → ℝ) × List ℝ)) (hT : T ≠ []) (hy : ∀ t ∈ T, t.2.length = k) (P : Fin (p + 1) × Fin n × Fin n → ℂ)
    (v : (Fin p → ℝ) → Nat → Fin n → ℂ) (hv : SimpleAt r k T P v) (hres : (T.map fun t => ∑ j ∈ Finset.range k, residual r P t j).sum ≠ 0)
    (b1 b2 eps clip : ℝ) (h1 : 0 ≤ b1) (h1' : b1 < 1) (h2 : 0 ≤ b2) (h2' : b2 < 1) (he : 0 < eps) (hc : 0 < clip) (epoch : Nat) (st : S) (key : K) :
    ∃ η₀ > 0, ∀ η : ℝ, 0 < η → η < η₀ → ∃ Q a st' key', trainStep { c with update := updateC (fun _ => η) b1 b2 eps clip } epoch ⟨[initC P], st, key⟩ (batchOf T) =
      .ok ⟨[a], st', key'⟩ ∧ a.params = Q ∧ ∃ l l', fitLoss ev cfg 0 P (batchOf T) = some l ∧ fitLoss ev cfg 0 Q (batchOf T) = some l' ∧ l' < l := by
  obtain ⟨D, hD, hd⟩ := C129_gradient ev hev cfg hw k hk hn r hr hl T hT hy P v hv
  have hg : (c.grad epoch (batchOf T) st (c.split key).2 [P]).1 = [DescentSpec.gradC D] := by
    rw [hf.grad]
    show [TrainUnitsSpec.gradC (fun Q => (fitLoss ev cfg 0 Q (batchOf T)).getD 0) P] = _
    rw [gradC_of_deriv hD]
  let proj : (Fin 1 → Fin (p + 1) × Fin n × Fin n → ℂ) →L[ℝ] (Fin (p + 1) × Fin n × Fin n → ℂ) := ContinuousLinearMap.proj 0
  have hvec : ∀ a : OptState (Fin (p + 1) × Fin n × Fin n → ℂ), DescentSpec.vec 1 [a] 0 = a.params := fun a => rfl
  have hpart : DescentSpec.part (D.comp proj) 0 = D := by
    refine ContinuousLinearMap.ext fun d => ?_
    simp [DescentSpec.part, proj]
  have hDne : D ≠ 0 := fun hz => hres (by
    have := C129_stationary ev hev cfg hw k hk hn r hr hl T hT hy P v hv (by
      rw [gradC_of_deriv hD, hz]
      funext i
      simp [DescentSpec.gradC])
    exact this.1)
  have hstep := (C120_step_complex (n := 1) c (fun _ => 0) b1 b2 eps clip h1 h1' h2 h2' he hc epoch ⟨[initC P], st, key⟩ (batchOf T) rfl (by rw [hfl]; rfl)
    (by
      intro a ha
      obtain rfl : a = initC P := by simpa using ha
      exact ⟨fun _ => ⟨0, le_rfl, by simp [initC]⟩, .inr fun _ => rfl⟩)
    (fun w => (fitLoss ev cfg 0 (w 0) (batchOf T)).getD 0) (D.comp proj)
    (HasFDerivAt.comp (g := fun Q => (fitLoss ev cfg 0 Q (batchOf T)).getD 0) (DescentSpec.vec 1 [initC P]) hD proj.hasFDerivAt)
    (by
      intro q hq
      obtain rfl : q = 0 := Subsingleton.elim _ _
      rw [hpart]
      show (c.grad epoch (batchOf T) st (c.split key).2 [P]).1[_]? = _
      rw [hg]
      rfl)).2 ⟨0, by rw [hfl]; rfl, by rw [hpart]; exact hDne⟩
  obtain ⟨η₀, hη, hh⟩ := hstep
  refine ⟨η₀, hη, fun η p1 p2 => ?_⟩
  have hrun : trainStep { c with update := updateC (fun _ => η) b1 b2 eps clip } epoch ⟨[initC P], st, key⟩ (batchOf T) =
      .ok ⟨[updateC (fun _ => η) b1 b2 eps clip (DescentSpec.gradC D) (initC P)], (c.grad epoch (batchOf T) st (c.split key).2 [P]).2, (c.split key).1⟩ := by
    unfold trainStep
    simp only [List.map_cons, List.map_nil]
    have : (initC P).params = P := rfl
    rw [this, hg, hfl]
    rfl
  refine ⟨_, _, _, _, hrun, rfl, _, _, C129_loss ev cfg k hk 0 r hr hl T hT hy P, C129_loss ev cfg k hk 0 r hr hl T hT hy _, ?_⟩
  have := hh η p1 p2 _ hrun
  simp only [hvec] at this
  rw [C129_loss ev cfg k hk 0 r hr hl T hT hy, C129_loss ev cfg k hk 0 r hr hl T hT hy] at this
  exact this

/-- A model with two equal diagonal matrices of size 2. -/
noncomputable def twoLevel : Fin 2 × Fin 2 × Fin 2 → ℂ := fun q => crossMatrix q.2.1 q.2.2

theorem twoLevel_matrix (x : Fin 1 → ℝ) : matrixAt twoLevel x = Matrix.diagonal ![((1 + x 0 : ℝ) : ℂ), ((-(1 + x 0) : ℝ) : ℂ)] := by
  ext i k
  fin_cases i <;> fin_cases k <;> simp [matrixAt, modelMatrix, herm, twoLevel, crossMatrix, Matrix.conjTranspose, Matrix.diagonal] <;> ring

theorem twoLevel_energy (x : Fin 1 → ℝ) (w : Fin 2 → ℂ) :
    energy (matrixAt twoLevel x) w = (1 + x 0) * Complex.normSq (w 0) - (1 + x 0) * Complex.normSq (w 1) := by
  rw [twoLevel_matrix]
  simp [energy, Matrix.mulVec_diagonal, dotProduct, Fin.sum_univ_two, Complex.normSq_apply]
  ring

/-- The hypotheses of the theorems hold of this model, which is to predict the lowest eigenvalue, with two samples whose targets are too high; the first step reduces the loss. -/
example : ∃ (ev : Mat 2 2 → List ℝ) (r : (Fin 1 → ℝ) → (Fin 2 × Fin 2 × Fin 2 → ℂ) → List ℝ), IsEigvalsh ev ∧
    FitsEigenvalues (fitCfg ev) ev ⟨some 1, "SA".toList⟩ 0 ∧ (fitCfg ev).flags = [true] ∧
    (∀ x P, eigenvalueCall ev ⟨some 1, "SA".toList⟩ true 0 (stored P) (.leaf [sample x]) = .ok (.leaf [r x P])) ∧ (∀ x P, (r x P).length = 1) ∧
    SimpleAt r 1 [(fun _ => 0, [5]), (fun _ => 1, [7])] twoLevel (fun _ _ => ![0, 1]) ∧
    ([((fun _ => 0 : Fin 1 → ℝ), [(5 : ℝ)]), (fun _ => 1, [7])].map fun t => ∑ j ∈ Finset.range 1, residual r twoLevel t j).sum = -15 := by
  obtain ⟨ev, hev⟩ : ∃ ev : Mat 2 2 → List ℝ, IsEigvalsh ev := ⟨_, exists_eigvalsh⟩
  choose e he hle hat using fun (x : Fin 1 → ℝ) (P : Fin 2 × Fin 2 × Fin 2 → ℂ) => C75_ground_state ev hev ⟨some 1, "SA".toList⟩ (by decide) rfl (by norm_num) 0
    (some (Matrix.of fun i j => P (0, i, j))) (fun q : Fin 1 => Matrix.of fun i j => P (q.succ, i, j)) x
  have hval : ∀ x : Fin 1 → ℝ, 0 ≤ x 0 → e x twoLevel = -(1 + x 0) := fun x hx => by
    have h1 := hle x twoLevel ![0, 1]
    obtain ⟨w, h2, h3⟩ := hat x twoLevel
    change _ ≤ energy (matrixAt twoLevel x) _ at h1
    change energy (matrixAt twoLevel x) _ = _ at h3
    rw [twoLevel_energy] at h1 h3
    simp only [lenSq, Fin.sum_univ_two] at h1 h2
    simp at h1
    have h4 := Complex.normSq_nonneg (w 0)
    have h5 := Complex.normSq_nonneg (w 1)
    nlinarith
  refine ⟨ev, fun x P => [e x P], hev, ⟨fun _ _ _ _ ps => (by match ps with | [] => rfl | [P] => rfl | _ :: _ :: _ => rfl), fun _ _ _ _ ps => (by match ps with | [] => rfl | [P] => rfl | _ :: _ :: _ => rfl), fun _ _ _ => rfl⟩, rfl, fun x P => ?_, fun _ _ => rfl, ?_, ?_⟩
  · rw [← he x P]
    simp [stored, List.ofFn_succ]
  · intro t ht j hj
    obtain rfl : j = 0 := by omega
    have hx : 0 ≤ t.1 0 := by
      rcases List.mem_cons.1 ht with rfl | ht
      · simp
      · obtain rfl := List.mem_singleton.1 ht
        simp
    refine ⟨by simp [lenSq, Fin.sum_univ_two], ?_, fun w hw => ⟨w 1, ?_⟩⟩
    · rw [twoLevel_matrix]
      show _ = ((e t.1 twoLevel : ℝ) : ℂ) • _
      rw [hval _ hx]
      funext i
      fin_cases i <;> simp [Matrix.mulVec_diagonal]
    · rw [twoLevel_matrix] at hw
      change _ = ((e t.1 twoLevel : ℝ) : ℂ) • _ at hw
      rw [hval _ hx] at hw
      have h0 := congrFun hw 0
      simp [Matrix.mulVec_diagonal] at h0
      have h2 : w 0 = 0 := by
        rcases h0 with h | h
        · have := congrArg Complex.re h
          simp at this
          linarith
        · exact h
      funext i
      fin_cases i <;> simp [h2]
  · simp [residual, hval]
    norm_num

end Verif.Props
