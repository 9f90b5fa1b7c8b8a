import Verif.Props.PmmObs
import Verif.Props.Stability
import Mathlib.Topology.MetricSpace.ProperSpace

/-! # C130: observables change continuously while eigenvalues stay apart -/

namespace Verif.Props
open Verif.Hermitian Verif.Eigen Verif.Observables Verif.Tree Verif.Pmm Verif.PmmSpec
open scoped Matrix Topology
open Filter

variable {n p q l : Nat} {Θ : Type} [TopologicalSpace Θ]

/-- An eigenvalue is simple: its eigenvectors are multiples of each other. -/
def Simple (A : Matrix (Fin n) (Fin n) ℂ) (e : ℝ) : Prop :=
  ∀ u w, u ≠ 0 → A *ᵥ u = (e : ℂ) • u → A *ᵥ w = (e : ℂ) • w → ∃ a : ℂ, w = a • u

theorem ev_continuousAt {ev : Matrix (Fin n) (Fin n) ℂ → List ℝ} (hev : IsEigvalsh ev) {A : Θ → Matrix (Fin n) (Fin n) ℂ} (hH : ∀ t, (A t).IsHermitian) {θ : Θ}
    (hA : ∀ i k, ContinuousAt (fun t => A t i k) θ) {k : Nat} (hk : k < n) : ContinuousAt (fun t => (ev (A t)).getD k 0) θ := by
  have h1 : Tendsto (fun t => (n : ℝ) * ∑ i, ∑ j, ‖A t i j - A θ i j‖) (𝓝 θ) (𝓝 0) := by
    have : ContinuousAt (fun t => (n : ℝ) * ∑ i, ∑ j, ‖A t i j - A θ i j‖) θ :=
      continuousAt_const.mul (tendsto_finsetSum _ fun i _ => tendsto_finsetSum _ fun j _ => ((hA i j).sub continuousAt_const).norm)
    simpa [ContinuousAt] using this
  rw [ContinuousAt, tendsto_iff_dist_tendsto_zero]
  refine squeeze_zero (fun _ => dist_nonneg) (fun t => ?_) h1
  rw [Real.dist_eq]
  refine ev_entries hev (hH t) (hH θ) (fun i j => ?_) hk
  exact (Finset.single_le_sum (f := fun j => ‖A t i j - A θ i j‖) (fun _ _ => norm_nonneg _) (Finset.mem_univ j)).trans
    (Finset.single_le_sum (f := fun i => ∑ j, ‖A t i j - A θ i j‖) (fun _ _ => Finset.sum_nonneg fun _ _ => norm_nonneg _) (Finset.mem_univ i))

theorem energy_phase (H : Matrix (Fin n) (Fin n) ℂ) (v : Fin n → ℂ) {a : ℂ} (ha : Complex.normSq a = 1) : energy H (a • v) = energy H v := by
  unfold energy
  rw [Matrix.mulVec_smul, star_smul, smul_dotProduct, dotProduct_smul, smul_smul, Complex.star_def, mul_comm, Complex.mul_conj, ha]
  simp

theorem amp_phase (H : Matrix (Fin n) (Fin n) ℂ) (v w : Fin n → ℂ) {a b : ℂ} (ha : Complex.normSq a = 1) (hb : Complex.normSq b = 1) :
    Complex.normSq (star (a • v) ⬝ᵥ H *ᵥ (b • w)) = Complex.normSq (star v ⬝ᵥ H *ᵥ w) := by
  rw [Matrix.mulVec_smul, star_smul, smul_dotProduct, dotProduct_smul, smul_smul, smul_eq_mul, Complex.normSq_mul, Complex.normSq_mul, Complex.star_def,
    Complex.normSq_conj, ha, hb]
  simp

omit [TopologicalSpace Θ] in
theorem mulVec_tendsto {f : Filter Θ} {A : Θ → Matrix (Fin n) (Fin n) ℂ} {B : Matrix (Fin n) (Fin n) ℂ} (hA : ∀ i k, Tendsto (fun t => A t i k) f (𝓝 (B i k)))
    {v : Θ → Fin n → ℂ} {w : Fin n → ℂ} (hv : ∀ i, Tendsto (fun t => v t i) f (𝓝 (w i))) (j : Fin n) :
    Tendsto (fun t => (A t *ᵥ v t) j) f (𝓝 ((B *ᵥ w) j)) := by
  simp only [Matrix.mulVec, dotProduct]
  exact tendsto_finsetSum _ fun k _ => (hA j k).mul (hv k)

/-- Unit eigenvectors of converging matrices converge along every ultrafilter, up to phases, if the eigenvalues of the limit are simple. -/
theorem vectors_limit {N : Nat} {A : Θ → Matrix (Fin n) (Fin n) ℂ} {θ : Θ} (hA : ∀ i k, ContinuousAt (fun t => A t i k) θ) {e : Θ → Fin N → ℝ}
    (he : ∀ i, ContinuousAt (fun t => e t i) θ) {v : Θ → Fin N → Fin n → ℂ} (h1 : ∀ t i, lenSq (v t i) = 1) (hv : ∀ t i, A t *ᵥ v t i = (e t i : ℂ) • v t i)
    (hs : ∀ i, Simple (A θ) (e θ i)) (g : Ultrafilter Θ) (hg : ↑g ≤ 𝓝 θ) :
    ∃ a : Fin N → ℂ, (∀ i, Complex.normSq (a i) = 1) ∧ ∀ i j, Tendsto (fun t => v t i j) g (𝓝 ((a i • v θ i) j)) := by
  have hb : ∀ t, v t ∈ Metric.closedBall (0 : Fin N → Fin n → ℂ) 1 := fun t => by
    rw [mem_closedBall_zero_iff, pi_norm_le_iff_of_nonneg zero_le_one]
    intro i
    rw [pi_norm_le_iff_of_nonneg zero_le_one]
    intro j
    have := norm_le_len (v t i) j
    rwa [h1, Real.sqrt_one] at this
  obtain ⟨w, -, hw⟩ := (isCompact_closedBall (0 : Fin N → Fin n → ℂ) 1).ultrafilter_le_nhds (g.map v) (by
    rw [Ultrafilter.coe_map]
    exact le_principal_iff.2 (Filter.mem_map.2 (Filter.univ_mem' hb)))
  have hw' : Tendsto v g (𝓝 w) := hw
  have hij : ∀ i j, Tendsto (fun t => v t i j) g (𝓝 (w i j)) := fun i j => tendsto_pi_nhds.1 (tendsto_pi_nhds.1 hw' i) j
  have hlen : ∀ i, lenSq (w i) = 1 := fun i => by
    have h2 : Tendsto (fun t => lenSq (v t i)) g (𝓝 (lenSq (w i))) :=
      tendsto_finsetSum _ fun j _ => (Complex.continuous_normSq.tendsto _).comp (hij i j)
    simp only [h1] at h2
    exact (tendsto_nhds_unique h2 tendsto_const_nhds)
  have hvec : ∀ i, A θ *ᵥ w i = (e θ i : ℂ) • w i := fun i => by
    funext j
    have h2 : Tendsto (fun t => (A t *ᵥ v t i) j) g (𝓝 ((A θ *ᵥ w i) j)) :=
      mulVec_tendsto (fun i k => (hA i k).tendsto.mono_left hg) (hij i) j
    have h3 : Tendsto (fun t => (e t i : ℂ) * v t i j) g (𝓝 ((e θ i : ℂ) * w i j)) :=
      (((Complex.continuous_ofReal.tendsto _).comp (he i).tendsto).mono_left hg).mul (hij i j)
    refine tendsto_nhds_unique h2 (h3.congr fun t => ?_)
    rw [hv]
    rfl
  have hne : ∀ i, v θ i ≠ 0 := fun i h => by
    have := h1 θ i
    rw [h] at this
    simp [lenSq] at this
  choose a ha using fun i => hs i (v θ i) (w i) (hne i) (hv θ i) (hvec i)
  refine ⟨a, fun i => ?_, fun i j => by rw [← ha i]; exact hij i j⟩
  have h2 := hlen i
  rw [ha i] at h2
  simp only [lenSq, Pi.smul_apply, smul_eq_mul, Complex.normSq_mul, ← Finset.mul_sum] at h2
  have h3 := h1 θ i
  simp only [lenSq] at h3
  rwa [h3, mul_one] at h2

/-- **C130** The observables that a model predicts depend continuously on whatever its matrices, features, observables and bias depend on, at every point at which the selected eigenvalues are simple. -/
theorem C130_continuous (eigh : Matrix (Fin n) (Fin n) ℂ → List ℝ × List (Fin n → ℂ)) (heigh : IsEigh eigh) (nrm : Matrix (Fin n) (Fin n) ℂ → ℝ)
    (c : Eigen.Cfg) {part : Part} (hw : parseWhich c.which = .ok (part, .algebraic)) (hk : c.numEig.getD n ≤ n) (s : ℝ) (useExp centered : Bool)
    (hn : centered = true → Continuous nrm) (M0 : Θ → Option (Matrix (Fin n) (Fin n) ℂ)) (M : Θ → Fin p → Matrix (Fin n) (Fin n) ℂ)
    (Ds : Θ → Fin q → Fin l → Matrix (Fin n) (Fin n) ℂ) (b : Option (Θ → Fin q → ℝ)) (x : Θ → Fin p → ℝ) (y : Θ → Fin q → ℝ)
    (hy : ∀ t, observableCall eigh nrm c (M0 t).isSome s useExp centered ((M0 t).toList ++ List.ofFn (M t)) (Ds t) (b.map fun f => f t) (.leaf [sample (x t)]) = .ok (.leaf [y t]))
    (θ : Θ) (hA : ∀ i k, ContinuousAt (fun t => modelMatrix s (M0 t) (M t) (x t) i k) θ) (hD : ∀ k m i j, ContinuousAt (fun t => Ds t k m i j) θ)
    (hb : ∀ f, b = some f → ContinuousAt f θ) (r : List ℝ)
    (hr : eigenvalueCall (fun A => (eigh A).1) c (M0 θ).isSome s ((M0 θ).toList ++ List.ofFn (M θ)) (.leaf [sample (x θ)]) = .ok (.leaf [r]))
    (hs : ∀ e ∈ r, Simple (modelMatrix s (M0 θ) (M θ) (x θ)) e) : ContinuousAt y θ := by
  have hH := fun t => modelMatrix_isHermitian s (M0 t) (M t) (x t)
  have hev := eigh_eigvalsh heigh
  obtain ⟨idx, i1, i2, -⟩ := select_sorted n hk hw
  choose y' e v g1 g2 g3 g4 g5 g6 using fun t => obs_prediction eigh heigh nrm c hw hk s useExp centered (M0 t) (M t) (Ds t) (b.map fun f => f t) (x t)
  have hyy : ∀ t, y' t = y t := fun t => by
    have := (g1 t).symm.trans (hy t)
    simpa using this
  have hsel : ∀ t, e t = idx.map ((eigh (modelMatrix s (M0 t) (M t) (x t))).1.getD · 0) := fun t => by
    have := (g3 t).symm.trans (i2 _ (heigh _ (hH t)).sorted (heigh _ (hH t)).sizeE)
    simpa using this
  have hre : r = e θ := by
    rw [single_call _ c _ s _ _ (affine_model s (M0 θ) (M θ) (x θ)), g3 θ] at hr
    simpa using hr.symm
  have hlenE : (e θ).length = c.numEig.getD n := by
    obtain ⟨idx', -, -, h3, -, h5, -⟩ := pairs_idx (heigh _ (hH θ)).sizeE (heigh _ (hH θ)).sizeV c hw hk
    have := (g3 θ).symm.trans h5
    injection this with this
    rw [this, List.length_map, h3]
  have hidx : ∀ i : Fin (c.numEig.getD n), i.val < idx.length := fun i => by
    have h2 : (e θ).length = idx.length := by rw [hsel θ, List.length_map]
    have := i.2
    omega
  have he : ∀ i : Fin (c.numEig.getD n), ContinuousAt (fun t => (e t).getD i 0) θ := fun i => by
    have h2 : ∀ t, (e t).getD i 0 = (eigh (modelMatrix s (M0 t) (M t) (x t))).1.getD (idx[i.val]'(hidx i)) 0 := fun t => by
      rw [hsel t]
      simp [List.getD_eq_getElem?_getD, List.getElem?_eq_getElem (hidx i)]
    simp only [h2]
    exact ev_continuousAt hev hH hA (i1 _ (List.getElem_mem _))
  have h1 : ∀ t i, lenSq (v t i) = 1 := fun t i => by
    have := g4 t i i
    rw [if_pos rfl, ← lenSq_eq] at this
    exact_mod_cast this
  have hsimple : ∀ i : Fin (c.numEig.getD n), Simple (modelMatrix s (M0 θ) (M θ) (x θ)) ((e θ).getD i 0) := fun i => by
    have hi : i.val < (e θ).length := by rw [hlenE]; exact i.2
    refine hs _ ?_
    rw [hre, List.getD_eq_getElem?_getD, List.getElem?_eq_getElem hi]
    exact List.getElem_mem hi
  have hherm : ∀ k m i j, ContinuousAt (fun t => herm (Ds t k m) i j) θ := fun k m i j => by
    simp only [herm, Matrix.smul_apply, Matrix.add_apply, Matrix.conjTranspose_apply, smul_eq_mul]
    exact continuousAt_const.mul ((hD k m i j).add (Complex.continuous_conj.continuousAt.comp (hD k m j i)))
  rw [ContinuousAt, tendsto_pi_nhds]
  intro k
  rw [tendsto_iff_ultrafilter]
  intro g hg
  obtain ⟨a, ha, hlim⟩ := vectors_limit hA he h1 g5 hsimple g hg
  have hform : ∀ m i j, Tendsto (fun t => star (v t i) ⬝ᵥ herm (Ds t k m) *ᵥ v t j) g (𝓝 (star (a i • v θ i) ⬝ᵥ herm (Ds θ k m) *ᵥ (a j • v θ j))) := fun m i j =>
    tendsto_finsetSum Finset.univ fun u _ => ((Complex.continuous_conj.tendsto _).comp (hlim i u)).mul
      (mulVec_tendsto (fun i j => (hherm k m i j).tendsto.mono_left hg) (hlim j) u)
  simp only [← hyy, g6]
  refine (Tendsto.sub ?_ ?_).add ?_
  · cases useExp
    · simp only [Bool.false_eq_true, if_false]
      refine tendsto_finsetSum _ fun m _ => tendsto_finsetSum _ fun i _ => tendsto_finsetSum _ fun j _ => ?_
      rw [← amp_phase _ _ _ (ha i) (ha j)]
      exact (Complex.continuous_normSq.tendsto _).comp (hform m i j)
    · simp only [if_true]
      refine tendsto_finsetSum _ fun m _ => tendsto_finsetSum _ fun i _ => ?_
      rw [← energy_phase _ _ (ha i)]
      exact (Complex.continuous_re.tendsto _).comp (hform m i i)
  · cases centered
    · exact tendsto_const_nhds
    · simp only [if_true]
      refine Tendsto.div_const (tendsto_finsetSum _ fun m _ => Tendsto.pow ?_ 2) _
      refine ((hn rfl).tendsto _).comp ?_
      exact tendsto_pi_nhds.2 fun i => tendsto_pi_nhds.2 fun j => (hherm k m i j).tendsto.mono_left hg
  · cases b with
    | none => exact tendsto_const_nhds
    | some f => exact (tendsto_pi_nhds.1 ((hb f rfl).tendsto.mono_left hg)) k

/-- **C130 (features).** The observables a model predicts change continuously with the features, wherever the selected eigenvalues are simple. -/
theorem C130_features (eigh : Matrix (Fin n) (Fin n) ℂ → List ℝ × List (Fin n → ℂ)) (heigh : IsEigh eigh) (nrm : Matrix (Fin n) (Fin n) ℂ → ℝ)
    (c : Eigen.Cfg) {part : Part} (hw : parseWhich c.which = .ok (part, .algebraic)) (hk : c.numEig.getD n ≤ n) (s : ℝ) (useExp centered : Bool)
    (M0 : Option (Matrix (Fin n) (Fin n) ℂ)) (M : Fin p → Matrix (Fin n) (Fin n) ℂ) (Ds : Fin q → Fin l → Matrix (Fin n) (Fin n) ℂ) (b : Option (Fin q → ℝ))
    (y : (Fin p → ℝ) → Fin q → ℝ)
    (hy : ∀ x, observableCall eigh nrm c M0.isSome s useExp centered (M0.toList ++ List.ofFn M) Ds b (.leaf [sample x]) = .ok (.leaf [y x]))
    (x : Fin p → ℝ) (r : List ℝ) (hr : eigenvalueCall (fun A => (eigh A).1) c M0.isSome s (M0.toList ++ List.ofFn M) (.leaf [sample x]) = .ok (.leaf [r]))
    (hs : ∀ e ∈ r, Simple (modelMatrix s M0 M x) e) : ContinuousAt y x := by
  -- `nrm` enters only through a constant, so its continuity is not needed: shift by it
  have hA : ∀ i k, ContinuousAt (fun t => modelMatrix s M0 M t i k) x := fun i k => by
    have : (fun t => modelMatrix s M0 M t i k) = fun t => modelMatrix s M0 M 0 i k + ∑ q, (t q : ℂ) * herm (M q) i k := by
      funext t
      exact model_entry s M0 M t i k
    rw [this]
    exact continuousAt_const.add (tendsto_finsetSum _ fun q _ =>
      (Complex.continuous_ofReal.continuousAt.comp (continuous_apply q).continuousAt).mul continuousAt_const)
  choose z e v g1 g2 g3 g4 g5 g6 using fun t => obs_prediction eigh heigh nrm c hw hk s useExp false M0 M Ds b t
  have hz : ContinuousAt z x := C130_continuous eigh heigh nrm c hw hk s useExp false (fun h => by cases h) (fun _ => M0) (fun _ => M) (fun _ => Ds)
    (b.map fun f _ => f) (fun t => t) z (fun t => by have := g1 t; cases b <;> exact this) x hA (fun _ _ _ _ => continuousAt_const)
    (fun f hf => by
      cases b with
      | none => cases hf
      | some g => cases hf; exact continuousAt_const) r hr hs
  have hyz : y = fun t k => z t k - (if centered then (∑ m, nrm (herm (Ds k m)) ^ 2) / 2 else 0) := by
    funext t k
    have h1 := hy t
    have h2 := g1 t
    rw [single_obs eigh nrm c _ s useExp _ _ Ds b _ (affine_model s M0 M t)] at h1 h2
    cases hp : pairsOf eigh c (modelMatrix s M0 M t) with
    | error e => rw [hp] at h1; cases h1
    | ok EV =>
      rw [hp] at h1 h2
      simp only [Except.ok.injEq, Tree.leaf.injEq, List.cons.injEq, and_true] at h1 h2
      rw [← h1, ← h2]
      have hc := C57_centered nrm Ds (columns (c.numEig.getD n) EV.2) k
      unfold readout
      cases centered
      · simp
      · cases useExp
        · simp only [Bool.false_eq_true, if_false, if_true, hc.2.1]
          ring
        · simp only [if_true, hc.1]
          ring
  rw [hyz, ContinuousAt, tendsto_pi_nhds]
  intro k
  exact (tendsto_pi_nhds.1 hz k).sub tendsto_const_nhds

/-- **C130 (jumps).** Where eigenvalues cross, predicted observables jump, whatever the eigenvalue solver does: a model of two levels that cross at 0, asked for the occupation of the first level in the lowest state,
predicts 1 on one side and 0 on the other. -/
theorem C130_jump (eigh : Matrix (Fin 2) (Fin 2) ℂ → List ℝ × List (Fin 2 → ℂ)) (heigh : IsEigh eigh) (nrm : Matrix (Fin 2) (Fin 2) ℂ → ℝ) (y : (Fin 1 → ℝ) → Fin 1 → ℝ)
    (hy : ∀ x, observableCall eigh nrm ⟨some 1, "SA".toList⟩ false 0 true false [crossMatrix] (fun _ : Fin 1 => fun _ : Fin 1 => Matrix.diagonal ![1, 0]) Option.none
      (.leaf [sample x]) = .ok (.leaf [y x])) :
    (∀ x, 0 < x 0 → y x 0 = 0) ∧ (∀ x, x 0 < 0 → y x 0 = 1) ∧ ¬ ContinuousAt y 0 := by
  have hw : parseWhich (⟨some 1, "SA".toList⟩ : Eigen.Cfg).which = .ok (.smallest, .algebraic) := by decide
  have key : ∀ x, ∃ (e0 : ℝ) (v : Fin 2 → ℂ), lenSq v = 1 ∧ (x 0 : ℂ) * v 0 = e0 * v 0 ∧ -(x 0 : ℂ) * v 1 = e0 * v 1 ∧ e0 ≤ x 0 ∧ e0 ≤ -x 0 ∧ y x 0 = Complex.normSq (v 0) := by
    intro x
    obtain ⟨y', e, v, h1, -, h3, h4, h5, h6⟩ := obs_prediction eigh heigh nrm ⟨some 1, "SA".toList⟩ hw (by decide) 0 true false Option.none (fun _ : Fin 1 => crossMatrix)
      (fun _ : Fin 1 => fun _ : Fin 1 => Matrix.diagonal ![1, 0]) Option.none x
    have hyy : y' = y x := by
      have := h1.symm.trans (hy x)
      simpa using this
    obtain ⟨e0, k1, k2, -⟩ := C75_ground_state (fun A => (eigh A).1) (eigh_eigvalsh heigh) ⟨some 1, "SA".toList⟩ hw rfl (by norm_num) 0 Option.none (fun _ : Fin 1 => crossMatrix) x
    have he : e = [e0] := by
      rw [single_call _ _ _ 0 _ _ (affine_model 0 Option.none (fun _ : Fin 1 => crossMatrix) x), h3] at k1
      simpa using k1
    have hm : modelMatrix 0 Option.none (fun _ : Fin 1 => crossMatrix) x = Matrix.diagonal ![(x 0 : ℂ), -(x 0 : ℂ)] := by
      ext i k
      fin_cases i <;> fin_cases k <;> simp [modelMatrix, herm, crossMatrix, Matrix.conjTranspose, Matrix.diagonal] <;> ring
    rw [hm] at h5 k2
    have h50 := h5 ⟨0, by decide⟩
    rw [he] at h50
    have a0 := k2 ![1, 0]
    have a1 := k2 ![0, 1]
    simp [energy, lenSq, Matrix.mulVec_diagonal, dotProduct, Fin.sum_univ_two] at a0 a1
    refine ⟨e0, v ⟨0, by decide⟩, ?_, ?_, ?_, a0, a1, ?_⟩
    · have := h4 ⟨0, by decide⟩ ⟨0, by decide⟩
      rw [if_pos rfl, ← lenSq_eq] at this
      exact_mod_cast this
    · simpa [Matrix.mulVec_diagonal] using congrFun h50 0
    · simpa [Matrix.mulVec_diagonal] using congrFun h50 1
    · rw [← hyy, h6]
      have hd : herm (Matrix.diagonal ![1, 0] : Matrix (Fin 2) (Fin 2) ℂ) = Matrix.diagonal ![1, 0] := by
        ext i k
        fin_cases i <;> fin_cases k <;> simp [herm, Matrix.conjTranspose, Matrix.diagonal] <;> norm_num
      have hsum : ∀ f : Fin ((some 1 : Option Nat).getD 2) → ℝ, ∑ i, f i = f ⟨0, by decide⟩ := fun f => Fin.sum_univ_one f
      simp only [if_true, hd, Finset.univ_unique, Finset.sum_singleton]
      rw [hsum]
      simp [energy, Matrix.mulVec_diagonal, dotProduct, Fin.sum_univ_two, Complex.normSq_apply]
  have hpos : ∀ x, 0 < x 0 → y x 0 = 0 := fun x hx => by
    obtain ⟨e0, v, -, h1, -, -, h2, h3⟩ := key x
    have : v 0 = 0 := by
      have h4 : ((x 0 - e0 : ℝ) : ℂ) * v 0 = 0 := by push_cast; linear_combination h1
      rcases mul_eq_zero.1 h4 with h | h
      · have := Complex.ofReal_eq_zero.1 h
        linarith
      · exact h
    rw [h3, this, map_zero]
  have hneg : ∀ x, x 0 < 0 → y x 0 = 1 := fun x hx => by
    obtain ⟨e0, v, h0, -, h1, h2, -, h3⟩ := key x
    have : v 1 = 0 := by
      have h4 : ((-x 0 - e0 : ℝ) : ℂ) * v 1 = 0 := by push_cast; linear_combination h1
      rcases mul_eq_zero.1 h4 with h | h
      · have := Complex.ofReal_eq_zero.1 h
        linarith
      · exact h
    simpa [h3, lenSq, Fin.sum_univ_two, this] using h0
  refine ⟨hpos, hneg, fun hc => ?_⟩
  have h1 : Tendsto (fun t : ℝ => y (fun _ => t) 0) (𝓝 0) (𝓝 (y 0 0)) :=
    (tendsto_pi_nhds.1 (hc.tendsto) 0).comp (tendsto_pi_nhds.2 fun _ => tendsto_id)
  obtain ⟨δ, hδ, hd⟩ := Metric.tendsto_nhds_nhds.1 h1 (1 / 2) (by norm_num)
  have h2 := hd (x := δ / 2) (by rw [Real.dist_eq, sub_zero, abs_of_pos] <;> linarith)
  have h3 := hd (x := -(δ / 2)) (by rw [Real.dist_eq, sub_zero, abs_neg, abs_of_pos] <;> linarith)
  rw [hpos _ (by simpa using hδ), Real.dist_eq] at h2
  rw [hneg _ (by simpa using hδ), Real.dist_eq] at h3
  have := abs_lt.1 h2
  have := abs_lt.1 h3
  linarith

/-- The hypotheses hold of the model of the last theorem at every point with a positive feature: its lowest eigenvalue is simple there. -/
example (eigh : Matrix (Fin 2) (Fin 2) ℂ → List ℝ × List (Fin 2 → ℂ)) (heigh : IsEigh eigh) (x : Fin 1 → ℝ) (hx : 0 < x 0) :
    eigenvalueCall (fun A => (eigh A).1) ⟨some 1, "SA".toList⟩ false 0 [crossMatrix] (.leaf [sample x]) = .ok (.leaf [[-x 0]]) ∧
      Simple (modelMatrix 0 Option.none (fun _ : Fin 1 => crossMatrix) x) (-x 0) := by
  have hm : modelMatrix 0 Option.none (fun _ : Fin 1 => crossMatrix) x = Matrix.diagonal ![(x 0 : ℂ), -(x 0 : ℂ)] := by
    ext i k
    fin_cases i <;> fin_cases k <;> simp [modelMatrix, herm, crossMatrix, Matrix.conjTranspose, Matrix.diagonal] <;> ring
  obtain ⟨e0, k1, k2, v, k3, k4⟩ := C75_ground_state (fun A => (eigh A).1) (eigh_eigvalsh heigh) ⟨some 1, "SA".toList⟩ (by decide) rfl (by norm_num) 0 Option.none
    (fun _ : Fin 1 => crossMatrix) x
  refine ⟨?_, fun u w hu h1 h2 => ?_⟩
  · have a1 := k2 ![0, 1]
    rw [hm] at a1 k4
    simp [energy, lenSq, Matrix.mulVec_diagonal, dotProduct, Fin.sum_univ_two] at a1 k3 k4
    have : e0 = -x 0 := by
      simp only [Complex.normSq_apply] at k3
      nlinarith [mul_self_nonneg (v 0).re, mul_self_nonneg (v 0).im, mul_self_nonneg (v 1).re, mul_self_nonneg (v 1).im]
    rw [← this]
    simpa using k1
  · rw [hm] at h1 h2
    have h0 : ∀ z : Fin 2 → ℂ, Matrix.diagonal ![(x 0 : ℂ), -(x 0 : ℂ)] *ᵥ z = ((-x 0 : ℝ) : ℂ) • z → z 0 = 0 := fun z hz => by
      have h3 := congrFun hz 0
      rw [Matrix.mulVec_diagonal, Pi.smul_apply, smul_eq_mul] at h3
      change (x 0 : ℂ) * z 0 = _ at h3
      have h4 : ((2 * x 0 : ℝ) : ℂ) * z 0 = 0 := by
        push_cast at h3 ⊢
        linear_combination h3
      rcases mul_eq_zero.1 h4 with h | h
      · have := Complex.ofReal_eq_zero.1 h
        linarith
      · exact h
    have hu1 : u 1 ≠ 0 := fun h => hu (by
      funext i
      fin_cases i
      · exact h0 u h1
      · exact h)
    refine ⟨w 1 / u 1, ?_⟩
    funext i
    fin_cases i
    · simp [h0 w h2, h0 u h1]
    · simp [hu1]

end Verif.Props
