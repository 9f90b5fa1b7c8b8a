import Verif.Lemmas.Spectrum
import Mathlib.Analysis.Calculus.FDeriv.Basic
import Mathlib.Analysis.Calculus.FDeriv.Add
import Mathlib.Analysis.Calculus.FDeriv.Mul
import Mathlib.Analysis.Calculus.FDeriv.Comp
import Mathlib.Analysis.Complex.Basic

/-! # Derivatives of simple eigenvalues of Hermitian matrices -/

namespace Verif.Pmm
open Matrix PmmSpec

variable {n : Nat}

/-- The sum of the absolute values of the entries. -/
noncomputable def absSum (W : Matrix (Fin n) (Fin n) ℂ) : ℝ := ∑ i, ∑ j, ‖W i j‖

theorem absSum_nonneg (W : Matrix (Fin n) (Fin n) ℂ) : 0 ≤ absSum W :=
  Finset.sum_nonneg fun _ _ => Finset.sum_nonneg fun _ _ => norm_nonneg _

theorem norm_le_len (v : Fin n → ℂ) (i : Fin n) : ‖v i‖ ≤ √(lenSq v) := by
  refine Real.le_sqrt_of_sq_le ?_
  rw [← Complex.normSq_eq_norm_sq]
  exact Finset.single_le_sum (f := fun i => Complex.normSq (v i)) (fun i _ => Complex.normSq_nonneg _) (Finset.mem_univ i)

theorem mulVec_bound (W : Matrix (Fin n) (Fin n) ℂ) (b : Fin n → ℂ) (i : Fin n) :
    ‖(W *ᵥ b) i‖ ≤ (∑ j, ‖W i j‖) * √(lenSq b) := by
  rw [mulVec, dotProduct, Finset.sum_mul]
  refine (norm_sum_le _ _).trans (Finset.sum_le_sum fun j _ => ?_)
  rw [norm_mul]
  exact mul_le_mul_of_nonneg_left (norm_le_len b j) (norm_nonneg _)

theorem form_bound (W : Matrix (Fin n) (Fin n) ℂ) (a b : Fin n → ℂ) :
    ‖star a ⬝ᵥ W *ᵥ b‖ ≤ absSum W * (√(lenSq a) * √(lenSq b)) := by
  rw [dotProduct, absSum, Finset.sum_mul]
  refine (norm_sum_le _ _).trans (Finset.sum_le_sum fun i _ => ?_)
  rw [norm_mul, Pi.star_apply, norm_star]
  calc ‖a i‖ * ‖(W *ᵥ b) i‖ ≤ √(lenSq a) * ((∑ j, ‖W i j‖) * √(lenSq b)) :=
        mul_le_mul (norm_le_len a i) (mulVec_bound W b i) (norm_nonneg _) (Real.sqrt_nonneg _)
    _ = _ := by ring

theorem energy_bound (W : Matrix (Fin n) (Fin n) ℂ) (v : Fin n → ℂ) : |energy W v| ≤ absSum W * lenSq v := by
  have h := (Complex.abs_re_le_norm (star v ⬝ᵥ W *ᵥ v)).trans (form_bound W v v)
  rwa [Real.mul_self_sqrt (lenSq_nonneg v)] at h

theorem lenSq_mulVec (W : Matrix (Fin n) (Fin n) ℂ) {u : Fin n → ℂ} (hu : lenSq u = 1) : lenSq (W *ᵥ u) ≤ absSum W ^ 2 := by
  have h1 : ∀ i, ‖(W *ᵥ u) i‖ ≤ ∑ j, ‖W i j‖ := fun i => by
    have := mulVec_bound W u i
    rwa [hu, Real.sqrt_one, mul_one] at this
  calc lenSq (W *ᵥ u) = ∑ i, ‖(W *ᵥ u) i‖ ^ 2 := Finset.sum_congr rfl fun i _ => Complex.normSq_eq_norm_sq _
    _ ≤ ∑ i, (∑ j, ‖W i j‖) * absSum W := Finset.sum_le_sum fun i _ => by
        rw [sq]
        refine mul_le_mul (h1 i) ((h1 i).trans ?_) (norm_nonneg _) (Finset.sum_nonneg fun _ _ => norm_nonneg _)
        exact Finset.single_le_sum (f := fun i => ∑ j, ‖W i j‖) (fun i _ => Finset.sum_nonneg fun _ _ => norm_nonneg _) (Finset.mem_univ i)
    _ = absSum W ^ 2 := by rw [← Finset.sum_mul, sq]; rfl

/-- Taking away the part along a unit vector. -/
theorem lenSq_proj {v : Fin n → ℂ} (hv : lenSq v = 1) (y : Fin n → ℂ) :
    lenSq (y - (star v ⬝ᵥ y) • v) = lenSq y - Complex.normSq (star v ⬝ᵥ y) := by
  have hvv : star v ⬝ᵥ v = 1 := by rw [← lenSq_eq, hv]; simp
  have hyv : star y ⬝ᵥ v = (starRingEnd ℂ) (star v ⬝ᵥ y) := by
    have := star_dotProduct_star y (star v)
    rw [star_star] at this
    rw [this]; rfl
  have h : ((lenSq (y - (star v ⬝ᵥ y) • v) : ℝ) : ℂ) = ((lenSq y - Complex.normSq (star v ⬝ᵥ y) : ℝ) : ℂ) := by
    push_cast
    rw [lenSq_eq, lenSq_eq, star_sub, star_smul, sub_dotProduct, dotProduct_sub, dotProduct_sub, smul_dotProduct, smul_dotProduct,
      dotProduct_smul, dotProduct_smul, hvv, hyv, Complex.normSq_eq_conj_mul_self]
    simp only [smul_eq_mul, RCLike.star_def, mul_one]
    ring
  exact_mod_cast h

theorem ev_vector {ev : Matrix (Fin n) (Fin n) ℂ → List ℝ} (hev : IsEigvalsh ev) {A : Matrix (Fin n) (Fin n) ℂ} (hA : A.IsHermitian) {e : ℝ}
    (he : e ∈ ev A) : ∃ u, lenSq u = 1 ∧ A *ᵥ u = (e : ℂ) • u := by
  obtain ⟨U, l, hU1, hU2, hUA, hl⟩ := exists_diag hA
  obtain ⟨i, rfl⟩ := (ev_mem hev hA hl e).1 he
  refine ⟨U *ᵥ Pi.single i 1, ?_, ?_⟩
  · have := lenSq_unitary (U := Uᴴ) (by rw [conjTranspose_conjTranspose]; exact hU2) (Pi.single i 1)
    rw [conjTranspose_conjTranspose] at this
    rw [this, lenSq, Finset.sum_eq_single i]
    · simp
    · intro j _ hj; simp [Pi.single_apply, hj]
    · simp
  · rw [hUA, mulVec_mulVec, Matrix.mul_assoc, hU2, Matrix.mul_one, ← mulVec_mulVec, ← mulVec_smul]
    congr 1
    funext j
    rw [mulVec_diagonal, Pi.smul_apply, smul_eq_mul]
    by_cases h : j = i
    · subst h; rfl
    · simp [Pi.single_apply, h]

/-- The other eigenvalues keep a distance from a simple one. -/
theorem gap {A : Matrix (Fin n) (Fin n) ℂ} (hA : A.IsHermitian) {e : ℝ} {v : Fin n → ℂ}
    (hs : ∀ w, A *ᵥ w = (e : ℂ) • w → ∃ c : ℂ, w = c • v) :
    ∃ g > 0, ∀ w, star v ⬝ᵥ w = 0 → ∀ μ : ℝ, |μ - e| ≤ g / 2 → (g / 2) ^ 2 * lenSq w ≤ lenSq (A *ᵥ w - (μ : ℂ) • w) := by
  obtain ⟨U, l, hU1, hU2, hUA, -⟩ := exists_diag hA
  have hg : ∃ g > 0, ∀ i, l i ≠ e → g ≤ |l i - e| := by
    by_cases hne : (Finset.univ.filter fun i => l i ≠ e).Nonempty
    · obtain ⟨i, hi, hm⟩ := Finset.exists_min_image _ (fun i => |l i - e|) hne
      exact ⟨|l i - e|, abs_pos.2 (sub_ne_zero.2 (Finset.mem_filter.1 hi).2),
        fun j hj => hm j (Finset.mem_filter.2 ⟨Finset.mem_univ _, hj⟩)⟩
    · exact ⟨1, one_pos, fun i hi => absurd ⟨i, Finset.mem_filter.2 ⟨Finset.mem_univ _, hi⟩⟩ hne⟩
  obtain ⟨g, hg, hl⟩ := hg
  refine ⟨g, hg, fun w hw μ hμ => ?_⟩
  rw [← lenSq_unitary hU1 w, ← lenSq_unitary hU1 (A *ᵥ w - (μ : ℂ) • w)]
  have hcoord : ∀ i, (Uᴴ *ᵥ (A *ᵥ w - (μ : ℂ) • w)) i = ((l i - μ : ℝ) : ℂ) * (Uᴴ *ᵥ w) i := by
    intro i
    rw [mulVec_sub, mulVec_mulVec, hUA, ← Matrix.mul_assoc, ← Matrix.mul_assoc, hU2, Matrix.one_mul, ← mulVec_mulVec, mulVec_smul, Pi.sub_apply,
      mulVec_diagonal, Pi.smul_apply, smul_eq_mul]
    push_cast
    ring
  have hzero : ∀ i, l i = e → (Uᴴ *ᵥ w) i = 0 := by
    intro i hi
    have hcol : A *ᵥ (U *ᵥ Pi.single i 1) = (e : ℂ) • (U *ᵥ Pi.single i 1) := by
      rw [hUA, mulVec_mulVec, Matrix.mul_assoc, hU2, Matrix.mul_one, ← mulVec_mulVec, ← mulVec_smul]
      congr 1
      funext j
      rw [mulVec_diagonal, Pi.smul_apply, smul_eq_mul]
      by_cases h : j = i
      · subst h; rw [hi]
      · simp [Pi.single_apply, h]
    obtain ⟨c, hc⟩ := hs _ hcol
    have h1 : (Uᴴ *ᵥ w) i = star (U *ᵥ Pi.single i 1) ⬝ᵥ w := by
      rw [star_mulVec, ← dotProduct_mulVec]
      simp [dotProduct, Pi.single_apply]
    rw [h1, hc, star_smul, smul_dotProduct, hw, smul_zero]
  rw [lenSq, lenSq, Finset.mul_sum]
  refine Finset.sum_le_sum fun i _ => ?_
  rw [hcoord]
  by_cases hi : l i = e
  · rw [hzero i hi]; simp
  · rw [Complex.normSq_mul, Complex.normSq_ofReal]
    refine mul_le_mul_of_nonneg_right ?_ (Complex.normSq_nonneg _)
    have h1 := hl i hi
    have h2 : g / 2 ≤ |l i - μ| := by
      have h3 : |l i - e| ≤ |l i - μ| + |μ - e| := abs_sub_le _ _ _
      linarith
    calc (g / 2) ^ 2 ≤ |l i - μ| ^ 2 := pow_le_pow_left₀ (by linarith) h2 2
      _ = (l i - μ) * (l i - μ) := by rw [sq_abs, sq]

/-- The first-order change of a simple eigenvalue is the energy of the perturbation, up to a quadratic error. -/
theorem perturb {ev : Matrix (Fin n) (Fin n) ℂ → List ℝ} (hev : IsEigvalsh ev) {A B : Matrix (Fin n) (Fin n) ℂ} (hA : A.IsHermitian)
    (hB : B.IsHermitian) {e e' : ℝ} {j : Nat} (he : (ev A)[j]? = some e) (he' : (ev B)[j]? = some e') {v : Fin n → ℂ} (hv : lenSq v = 1)
    (hAv : A *ᵥ v = (e : ℂ) • v) {g : ℝ} (hg : 0 < g)
    (hgap : ∀ w, star v ⬝ᵥ w = 0 → ∀ μ : ℝ, |μ - e| ≤ g / 2 → (g / 2) ^ 2 * lenSq w ≤ lenSq (A *ᵥ w - (μ : ℂ) • w))
    (hsmall : absSum (B - A) ≤ g / 4) : |e' - e - energy (B - A) v| ≤ 4 / g * absSum (B - A) ^ 2 := by
  set W := B - A with hW
  set κ := absSum W with hκ
  have hκ0 : 0 ≤ κ := absSum_nonneg W
  have hBA : B = A + W := by rw [hW]; abel
  -- the eigenvalue moves by at most κ
  have hweyl : |e' - e| ≤ κ := by
    have h1 := weyl hev hB hA (c := κ) (fun u => by
      rw [hBA, energy_add]; have := (abs_le.1 (energy_bound W u)).2; linarith) j _ _ he' he
    have h2 := weyl hev hA hB (c := κ) (fun u => by
      rw [hBA, energy_add]; have := (abs_le.1 (energy_bound W u)).1; linarith) j _ _ he he'
    rw [abs_le]; constructor <;> linarith
  obtain ⟨u, hu, hBu⟩ := ev_vector hev hB (List.mem_of_getElem? he')
  set α := star v ⬝ᵥ u with hα
  set w := u - α • v with hw
  have hvv : star v ⬝ᵥ v = 1 := by rw [← lenSq_eq, hv]; simp
  have hvw : star v ⬝ᵥ w = 0 := by rw [hw, dotProduct_sub, dotProduct_smul, hvv, smul_eq_mul, mul_one, sub_self]
  have hvA : ∀ y, star v ⬝ᵥ A *ᵥ y = (e : ℂ) * (star v ⬝ᵥ y) := by
    intro y
    rw [dotProduct_mulVec]
    have : star v ᵥ* A = star (A *ᵥ v) := by rw [star_mulVec, hA.eq]
    rw [this, hAv, star_smul, smul_dotProduct, smul_eq_mul]
    simp
  have hAu : A *ᵥ u = (e' : ℂ) • u - W *ᵥ u := by rw [← hBu, hBA, add_mulVec]; abel
  have hcross : α * ((e' : ℂ) - e) = star v ⬝ᵥ W *ᵥ u := by
    have h1 := hvA u
    rw [hAu, dotProduct_sub, dotProduct_smul, smul_eq_mul] at h1
    rw [← hα] at h1
    linear_combination h1
  have hz : A *ᵥ w - (e' : ℂ) • w = -(W *ᵥ u - (star v ⬝ᵥ W *ᵥ u) • v) := by
    rw [hw, mulVec_sub, mulVec_smul, hAv, hAu, ← hcross]
    funext k
    simp only [Pi.sub_apply, Pi.smul_apply, Pi.neg_apply, smul_eq_mul]
    ring
  have hlz : lenSq (A *ᵥ w - (e' : ℂ) • w) ≤ κ ^ 2 := by
    rw [hz]
    have hneg : ∀ y : Fin n → ℂ, lenSq (-y) = lenSq y := fun y => by simp [lenSq]
    rw [hneg, lenSq_proj hv]
    have := lenSq_mulVec W hu
    have := Complex.normSq_nonneg (star v ⬝ᵥ W *ᵥ u)
    linarith
  have hgw := (hgap w hvw e' (by linarith)).trans hlz
  set r := √(lenSq w) with hr
  have hr0 : 0 ≤ r := Real.sqrt_nonneg _
  have hr2 : r ^ 2 = lenSq w := Real.sq_sqrt (lenSq_nonneg w)
  rw [← hr2, ← mul_pow] at hgw
  have hgr : g / 2 * r ≤ κ := (pow_le_pow_iff_left₀ (by positivity) hκ0 two_ne_zero).1 hgw
  have hr1 : r ≤ 1 / 2 := by
    by_contra hc
    push Not at hc
    nlinarith
  have hα2 : ‖α‖ ^ 2 = 1 - r ^ 2 := by
    have := lenSq_proj hv u
    rw [← hα, ← hw, hu, Complex.normSq_eq_norm_sq] at this
    rw [hr2]; linarith
  have hα1 : 1 / 2 ≤ ‖α‖ := by
    by_contra hc
    push Not at hc
    have := norm_nonneg α
    nlinarith
  have hkey : α * ((e' : ℂ) - e - star v ⬝ᵥ W *ᵥ v) = star v ⬝ᵥ W *ᵥ w := by
    rw [hw, mulVec_sub, mulVec_smul, dotProduct_sub, dotProduct_smul, smul_eq_mul, ← hcross]
    ring
  have hb : ‖star v ⬝ᵥ W *ᵥ w‖ ≤ κ * r := by
    have := form_bound W v w
    rwa [hv, Real.sqrt_one, one_mul] at this
  have hn : ‖(e' : ℂ) - e - star v ⬝ᵥ W *ᵥ v‖ ≤ 2 * (κ * r) := by
    have h1 : ‖α‖ * ‖(e' : ℂ) - e - star v ⬝ᵥ W *ᵥ v‖ ≤ κ * r := by rw [← norm_mul, hkey]; exact hb
    have h2 := norm_nonneg ((e' : ℂ) - e - star v ⬝ᵥ W *ᵥ v)
    nlinarith
  have hre : e' - e - energy W v = ((e' : ℂ) - e - star v ⬝ᵥ W *ᵥ v).re := by simp [energy]
  rw [hre]
  refine (Complex.abs_re_le_norm _).trans (hn.trans ?_)
  have h5 : r ≤ 2 * κ / g := by rw [le_div_iff₀ hg]; linarith
  calc 2 * (κ * r) ≤ 2 * (κ * (2 * κ / g)) := by gcongr
    _ = 4 / g * κ ^ 2 := by ring

variable {Θ : Type} [NormedAddCommGroup Θ] [NormedSpace ℝ Θ]

/-- The energy at a fixed vector is differentiable along with the entries. -/
theorem hasFDerivAt_energy {A : Θ → Matrix (Fin n) (Fin n) ℂ} {A' : Fin n → Fin n → Θ →L[ℝ] ℂ} {θ : Θ}
    (hd : ∀ i k, HasFDerivAt (fun t => A t i k) (A' i k) θ) (v : Fin n → ℂ) :
    ∃ L : Θ →L[ℝ] ℝ, HasFDerivAt (fun t => energy (A t) v) L θ ∧ ∀ d, L d = energy (Matrix.of fun i k => A' i k d) v := by
  have h1 : ∀ i k, HasFDerivAt (fun t => ((starRingEnd ℂ) (v i) * v k) * A t i k) (((starRingEnd ℂ) (v i) * v k) • A' i k) θ :=
    fun i k => (hd i k).const_mul _
  have h2 : HasFDerivAt (fun t => ∑ i, ∑ k, ((starRingEnd ℂ) (v i) * v k) * A t i k)
      (∑ i, ∑ k, ((starRingEnd ℂ) (v i) * v k) • A' i k) θ :=
    HasFDerivAt.fun_sum fun i _ => HasFDerivAt.fun_sum fun k _ => h1 i k
  have h3 := Complex.reCLM.hasFDerivAt.comp θ h2
  have hform : ∀ B : Matrix (Fin n) (Fin n) ℂ, energy B v = (∑ i, ∑ k, ((starRingEnd ℂ) (v i) * v k) * B i k).re := by
    intro B
    unfold energy dotProduct mulVec dotProduct
    congr 1
    refine Finset.sum_congr rfl fun i _ => ?_
    rw [Finset.mul_sum]
    refine Finset.sum_congr rfl fun k _ => ?_
    rw [Pi.star_apply, RCLike.star_def]
    ring
  refine ⟨_, h3.congr_of_eventuallyEq (Filter.Eventually.of_forall fun t => hform (A t)), fun d => ?_⟩
  rw [hform]
  simp

/-- A simple eigenvalue is differentiable; its derivative is the energy of the derivative of the matrix. -/
theorem hasFDerivAt_ev {ev : Matrix (Fin n) (Fin n) ℂ → List ℝ} (hev : IsEigvalsh ev) {A : Θ → Matrix (Fin n) (Fin n) ℂ}
    (hA : ∀ t, (A t).IsHermitian) {A' : Fin n → Fin n → Θ →L[ℝ] ℂ} {θ : Θ} (hd : ∀ i k, HasFDerivAt (fun t => A t i k) (A' i k) θ)
    {j : Nat} (hj : j < n) {v : Fin n → ℂ} (hv : lenSq v = 1) (hAv : A θ *ᵥ v = (((ev (A θ)).getD j 0 : ℝ) : ℂ) • v)
    (hs : ∀ w, A θ *ᵥ w = (((ev (A θ)).getD j 0 : ℝ) : ℂ) • w → ∃ c : ℂ, w = c • v) :
    ∃ L : Θ →L[ℝ] ℝ, HasFDerivAt (fun t => (ev (A t)).getD j 0) L θ ∧ ∀ d, L d = energy (Matrix.of fun i k => A' i k d) v := by
  obtain ⟨L, hL, hLd⟩ := hasFDerivAt_energy hd v
  refine ⟨L, ?_, hLd⟩
  obtain ⟨g, hg, hgap⟩ := gap (hA θ) hs
  have hget : ∀ t, (ev (A t))[j]? = some ((ev (A t)).getD j 0) := fun t => by
    have : j < (ev (A t)).length := by rw [ev_length hev (hA t)]; exact hj
    simp [List.getD_eq_getElem?_getD, List.getElem?_eq_getElem this]
  have hO : (fun t => absSum (A t - A θ)) =O[nhds θ] fun t => t - θ := by
    unfold absSum
    refine Asymptotics.IsBigO.fun_sum fun i _ => Asymptotics.IsBigO.fun_sum fun k _ => ?_
    exact (hd i k).isBigO_sub.norm_left
  have hsmall : ∀ᶠ t in nhds θ, absSum (A t - A θ) ≤ g / 4 := by
    have hlim : Filter.Tendsto (fun t => absSum (A t - A θ)) (nhds θ) (nhds 0) :=
      hO.trans_tendsto (tendsto_sub_nhds_zero_iff.2 Filter.tendsto_id)
    exact (hlim.eventually_lt_const (by linarith : (0 : ℝ) < g / 4)).mono fun t ht => ht.le
  have hrem : (fun t => (ev (A t)).getD j 0 - (ev (A θ)).getD j 0 - energy (A t - A θ) v) =O[nhds θ] fun t => ‖t - θ‖ ^ 2 := by
    have h1 : (fun t => (ev (A t)).getD j 0 - (ev (A θ)).getD j 0 - energy (A t - A θ) v) =O[nhds θ] fun t => absSum (A t - A θ) ^ 2 := by
      refine Asymptotics.IsBigO.of_bound (4 / g) (hsmall.mono fun t ht => ?_)
      rw [Real.norm_eq_abs, Real.norm_eq_abs, abs_of_nonneg (sq_nonneg (absSum (A t - A θ)))]
      exact perturb hev (hA θ) (hA t) (hget θ) (hget t) hv hAv hg hgap ht
    exact h1.trans (hO.norm_right.pow 2)
  have hR := hrem.hasFDerivAt (𝕜 := ℝ) (by norm_num : 1 < 2)
  have hsub : ∀ t, energy (A t - A θ) v = energy (A t) v - energy (A θ) v := fun t => by
    have := energy_add (A t - A θ) (A θ) v
    rw [sub_add_cancel] at this
    linarith
  have := (hR.add hL).add_const ((ev (A θ)).getD j 0 - energy (A θ) v)
  rw [zero_add] at this
  refine this.congr_of_eventuallyEq (Filter.Eventually.of_forall fun t => ?_)
  simp only [Pi.add_apply, hsub]
  ring

end Verif.Pmm
