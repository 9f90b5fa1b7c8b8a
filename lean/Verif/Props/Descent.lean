import Verif.Props.Adam
import Verif.Props.Training
import Verif.Spec.Descent
import Mathlib.Analysis.Calculus.Deriv.Slope
import Mathlib.Analysis.Calculus.Deriv.Comp
import Mathlib.Analysis.Calculus.Deriv.Add
import Mathlib.Analysis.Calculus.Deriv.Mul
import Mathlib.Analysis.Calculus.FDeriv.Add
import Mathlib.Analysis.Normed.Module.Basic

/-! # A training step goes downhill (C120) -/

namespace Verif.Props

open Verif.Train Verif.TrainSpec Verif.Adam Verif.DescentSpec

section Clip

theorem clipR_mul_nonneg {clip : ℝ} (h : 0 < clip) (x : ℝ) : 0 ≤ x * clipR clip x := by
  unfold clipR
  rcases le_total 0 x with hx | hx
  · exact mul_nonneg hx (le_min (le_max_of_le_left hx) h.le)
  · exact mul_nonneg_of_nonpos_of_nonpos hx (min_le_of_left_le (max_le hx (by linarith)))

theorem clipR_mul_pos {clip : ℝ} (h : 0 < clip) {x : ℝ} (hx : x ≠ 0) : 0 < x * clipR clip x := by
  unfold clipR
  rcases lt_or_gt_of_ne hx with hx | hx
  · exact mul_pos_of_neg_of_neg hx (min_lt_of_left_lt (max_lt hx (by linarith)))
  · exact mul_pos hx (lt_min (lt_max_of_lt_left hx) h)

end Clip

section Arrays

variable {ι : Type}

/-- The states of a real array in which the direction of the next update is that of the gradient: no momentum has been
accumulated, or momentum is switched off. -/
def FreshR (b1 : ℝ) (s : OptState (ι → ℝ)) : Prop := (∀ j, 0 ≤ s.v j) ∧ (b1 = 0 ∨ ∀ j, s.m j = 0)

/-- The same for complex arrays. -/
def FreshC (b1 : ℝ) (s : OptState (ι → ℂ)) : Prop :=
  (∀ j, ∃ r : ℝ, 0 ≤ r ∧ s.v j = r) ∧ (b1 = 0 ∨ ∀ j, s.m j = 0)

/-- What the learning rate is multiplied with in the update of a real array. -/
noncomputable def dirR (b1 b2 eps clip : ℝ) (g : ι → ℝ) (s : OptState (ι → ℝ)) : ι → ℝ :=
  s.params - (update (fun _ => 1) b1 b2 eps clip g s).params

/-- What the learning rate is multiplied with in the update of a complex array. -/
noncomputable def dirC (b1 b2 eps clip : ℝ) (g : ι → ℂ) (s : OptState (ι → ℂ)) : ι → ℂ :=
  s.params - (updateC (fun _ => 1) b1 b2 eps clip g s).params

theorem update_dirR (lr : Nat → ℝ) (b1 b2 eps clip : ℝ) (g : ι → ℝ) (s : OptState (ι → ℝ)) :
    (update lr b1 b2 eps clip g s).params = s.params - lr s.epoch • dirR b1 b2 eps clip g s := by
  funext j
  simp only [update, dirR, Pi.sub_apply, Pi.smul_apply, smul_eq_mul]
  ring

theorem update_dirC (lr : Nat → ℝ) (b1 b2 eps clip : ℝ) (g : ι → ℂ) (s : OptState (ι → ℂ)) :
    (updateC lr b1 b2 eps clip g s).params = s.params - lr s.epoch • dirC b1 b2 eps clip g s := by
  funext j
  simp only [updateC, dirC, Pi.sub_apply, Pi.smul_apply, Complex.real_smul]
  push_cast
  ring

/-- In a fresh state the direction is a positive multiple of the clipped gradient, in each entry. -/
theorem dirR_fresh {b1 b2 eps clip : ℝ} (h1 : 0 ≤ b1) (h1' : b1 < 1) (he : 0 < eps)
    {s : OptState (ι → ℝ)} (hs : FreshR b1 s) (g : ι → ℝ) (j : ι) :
    ∃ r : ℝ, 0 < r ∧ dirR b1 b2 eps clip g s j = r * clipR clip (g j) := by
  have hp : 0 < 1 - b1 ^ (s.epoch + 1) := by
    have := pow_lt_one₀ h1 h1' (show s.epoch + 1 ≠ 0 by omega)
    linarith
  have hm : b1 * s.m j = 0 := by
    rcases hs.2 with h | h
    · rw [h, zero_mul]
    · rw [h j, mul_zero]
  set q := Real.sqrt ((b2 * s.v j + (1 - b2) * clipR clip (g j) ^ 2) / (1 - b2 ^ (s.epoch + 1))) + eps with hq
  have hq0 : 0 < q := by rw [hq]; have := Real.sqrt_nonneg ((b2 * s.v j + (1 - b2) * clipR clip (g j) ^ 2) / (1 - b2 ^ (s.epoch + 1))); linarith
  refine ⟨(1 - b1) / (1 - b1 ^ (s.epoch + 1)) / q, div_pos (div_pos (by linarith) hp) hq0, ?_⟩
  simp only [dirR, update, Pi.sub_apply, hm, zero_add, one_mul]
  rw [← hq]
  field_simp
  ring

theorem dirC_fresh {b1 b2 eps clip : ℝ} (h1 : 0 ≤ b1) (h1' : b1 < 1) (h2 : 0 ≤ b2) (h2' : b2 < 1) (he : 0 < eps)
    {s : OptState (ι → ℂ)} (hs : FreshC b1 s) (g : ι → ℂ) (j : ι) :
    ∃ r : ℝ, 0 < r ∧ dirC b1 b2 eps clip g s j = r * clipC clip (g j) := by
  have hp : 0 < 1 - b1 ^ (s.epoch + 1) := by
    have := pow_lt_one₀ h1 h1' (show s.epoch + 1 ≠ 0 by omega)
    linarith
  have hp2 : 0 < 1 - b2 ^ (s.epoch + 1) := by
    have := pow_lt_one₀ h2 h2' (show s.epoch + 1 ≠ 0 by omega)
    linarith
  have hm : (b1 : ℂ) * s.m j = 0 := by
    rcases hs.2 with h | h
    · rw [h, Complex.ofReal_zero, zero_mul]
    · rw [h j, mul_zero]
  obtain ⟨r, hr, hv⟩ := hs.1 j
  have hw : ((b2 : ℂ) * s.v j + (1 - b2) * (clipC clip (g j) * (starRingEnd ℂ) (clipC clip (g j)))) / (1 - (b2 : ℂ) ^ (s.epoch + 1))
      = (((b2 * r + (1 - b2) * Complex.normSq (clipC clip (g j))) / (1 - b2 ^ (s.epoch + 1)) : ℝ) : ℂ) := by
    rw [hv, Complex.mul_conj]
    push_cast
    rfl
  set w := (b2 * r + (1 - b2) * Complex.normSq (clipC clip (g j))) / (1 - b2 ^ (s.epoch + 1)) with hwd
  have hw0 : 0 ≤ w := by
    rw [hwd]
    refine div_nonneg (add_nonneg (mul_nonneg h2 hr) (mul_nonneg (by linarith) (Complex.normSq_nonneg _))) hp2.le
  have hsq : ((w : ℝ) : ℂ) ^ (1 / 2 : ℂ) = ((w ^ (1 / 2 : ℝ) : ℝ) : ℂ) := by
    rw [Complex.ofReal_cpow hw0]; push_cast; rfl
  set q := w ^ (1 / 2 : ℝ) + eps with hq
  have hq0 : 0 < q := by rw [hq]; have := Real.rpow_nonneg hw0 (1 / 2); linarith
  refine ⟨(1 - b1) / (1 - b1 ^ (s.epoch + 1)) / q, div_pos (div_pos (by linarith) hp) hq0, ?_⟩
  simp only [dirC, updateC, Pi.sub_apply, hm, zero_add]
  rw [hw, hsq]
  push_cast [hq]
  have hc : (1 - (b1 : ℂ) ^ (s.epoch + 1)) ≠ 0 := by
    have : ((1 - b1 ^ (s.epoch + 1) : ℝ) : ℂ) ≠ 0 := Complex.ofReal_ne_zero.2 hp.ne'
    push_cast at this; exact this
  have hc2 : ((w ^ (1 / 2 : ℝ) : ℝ) : ℂ) + (eps : ℂ) ≠ 0 := by
    have : ((q : ℝ) : ℂ) ≠ 0 := Complex.ofReal_ne_zero.2 hq0.ne'
    rw [hq] at this
    push_cast at this; exact this
  push_cast at hc2
  field_simp
  ring

variable [Fintype ι] [DecidableEq ι]

theorem lin_sumR (l : (ι → ℝ) →L[ℝ] ℝ) (x : ι → ℝ) : l x = ∑ j, x j * gradR l j := by
  conv_lhs => rw [← Finset.univ_sum_single x, map_sum]
  refine Finset.sum_congr rfl fun j _ => ?_
  have : (Pi.single j (x j) : ι → ℝ) = x j • Pi.single j 1 := by
    rw [← Pi.single_smul, smul_eq_mul, mul_one]
  rw [this, map_smul, smul_eq_mul, gradR]

theorem lin_sumC (l : (ι → ℂ) →L[ℝ] ℝ) (x : ι → ℂ) : l x = ∑ j, ((gradC l j) * x j).re := by
  conv_lhs => rw [← Finset.univ_sum_single x, map_sum]
  refine Finset.sum_congr rfl fun j _ => ?_
  have : (Pi.single j (x j) : ι → ℂ) = (x j).re • (Pi.single j 1 : ι → ℂ) + (x j).im • (Pi.single j Complex.I : ι → ℂ) := by
    rw [← Pi.single_smul, ← Pi.single_smul, ← Pi.single_add]
    congr 1
    rw [Complex.real_smul, Complex.real_smul, mul_one, Complex.re_add_im]
  rw [this, map_add, map_smul, map_smul, smul_eq_mul, smul_eq_mul, gradC]
  simp
  ring

theorem downR {b1 b2 eps clip : ℝ} (h1 : 0 ≤ b1) (h1' : b1 < 1) (he : 0 < eps) (hc : 0 < clip)
    {s : OptState (ι → ℝ)} (hs : FreshR b1 s) (l : (ι → ℝ) →L[ℝ] ℝ) :
    0 ≤ l (dirR b1 b2 eps clip (gradR l) s) ∧ (l ≠ 0 → 0 < l (dirR b1 b2 eps clip (gradR l) s)) := by
  choose r hr hd using fun j => dirR_fresh (b2 := b2) (clip := clip) h1 h1' he hs (gradR l) j
  have e : l (dirR b1 b2 eps clip (gradR l) s) = ∑ j, r j * (gradR l j * clipR clip (gradR l j)) := by
    rw [lin_sumR]
    exact Finset.sum_congr rfl fun j _ => by rw [hd]; ring
  rw [e]
  have h0 : ∀ j ∈ Finset.univ, 0 ≤ r j * (gradR l j * clipR clip (gradR l j)) := fun j _ =>
    mul_nonneg (hr j).le (clipR_mul_nonneg hc _)
  refine ⟨Finset.sum_nonneg h0, fun hl => ?_⟩
  have : ∃ j, gradR l j ≠ 0 := by
    by_contra hn
    push Not at hn
    exact hl (ContinuousLinearMap.ext fun x => by rw [lin_sumR]; simp [hn])
  obtain ⟨j, hj⟩ := this
  exact Finset.sum_pos' h0 ⟨j, Finset.mem_univ _, mul_pos (hr j) (clipR_mul_pos hc hj)⟩

theorem downC {b1 b2 eps clip : ℝ} (h1 : 0 ≤ b1) (h1' : b1 < 1) (h2 : 0 ≤ b2) (h2' : b2 < 1) (he : 0 < eps) (hc : 0 < clip)
    {s : OptState (ι → ℂ)} (hs : FreshC b1 s) (l : (ι → ℂ) →L[ℝ] ℝ) :
    0 ≤ l (dirC b1 b2 eps clip (gradC l) s) ∧ (l ≠ 0 → 0 < l (dirC b1 b2 eps clip (gradC l) s)) := by
  choose r hr hd using fun j => dirC_fresh (clip := clip) h1 h1' h2 h2' he hs (gradC l) j
  have e : l (dirC b1 b2 eps clip (gradC l) s) = ∑ j, r j * ((gradC l j).re * clipR clip (gradC l j).re +
      (gradC l j).im * clipR clip (gradC l j).im) := by
    rw [lin_sumC]
    refine Finset.sum_congr rfl fun j _ => ?_
    rw [hd, clipC]
    simp
    ring
  rw [e]
  have hz : ∀ j, 0 ≤ (gradC l j).re * clipR clip (gradC l j).re + (gradC l j).im * clipR clip (gradC l j).im := fun j =>
    add_nonneg (clipR_mul_nonneg hc _) (clipR_mul_nonneg hc _)
  have h0 : ∀ j ∈ Finset.univ, 0 ≤ r j * ((gradC l j).re * clipR clip (gradC l j).re +
      (gradC l j).im * clipR clip (gradC l j).im) := fun j _ => mul_nonneg (hr j).le (hz j)
  refine ⟨Finset.sum_nonneg h0, fun hl => ?_⟩
  have : ∃ j, gradC l j ≠ 0 := by
    by_contra hn
    push Not at hn
    exact hl (ContinuousLinearMap.ext fun x => by rw [lin_sumC]; simp [hn])
  obtain ⟨j, hj⟩ := this
  refine Finset.sum_pos' h0 ⟨j, Finset.mem_univ _, mul_pos (hr j) ?_⟩
  by_cases hre : (gradC l j).re = 0
  · have him : (gradC l j).im ≠ 0 := fun him => hj (Complex.ext hre him)
    exact add_pos_of_nonneg_of_pos (clipR_mul_nonneg hc _) (clipR_mul_pos hc him)
  · exact add_pos_of_pos_of_nonneg (clipR_mul_pos hc hre) (clipR_mul_nonneg hc _)

end Arrays

section Step

variable {P : Type} [NormedAddCommGroup P] [NormedSpace ℝ P] {n : Nat} {α S K F : Type}

theorem lin_sum_part (D : (Fin n → P) →L[ℝ] ℝ) (x : Fin n → P) : D x = ∑ k, part D k (x k) := by
  conv_lhs => rw [← Finset.univ_sum_single x, map_sum]
  rfl

/-- The vector by which a step moves the parameters, per unit of learning rate. -/
noncomputable def stepDir (dir : P → OptState P → P) (grad : (P →L[ℝ] ℝ) → P) (flags : List Bool) (D : (Fin n → P) →L[ℝ] ℝ)
    (as : List (OptState P)) : Fin n → P := fun k =>
  match flags[k.val]?, as[k.val]? with
  | some true, some a => dir (grad (part D k)) a
  | _, _ => 0

theorem step_moves {c : Cfg α P S K F} {lr : Nat → ℝ} {dir : P → OptState P → P} {grad : (P →L[ℝ] ℝ) → P}
    (hu : ∀ d a, (c.update d a).params = a.params - lr a.epoch • dir d a) {epoch : Nat} {i i' : Inner P S K} {b : Data α}
    (hn : i.adam.length = n) (hl : c.flags.length = i.adam.length) {D : (Fin n → P) →L[ℝ] ℝ}
    (hg : IsGrad grad c.flags D (c.grad epoch b i.mstate (c.split i.mrng).2 (i.adam.map (·.params))).1)
    (h : trainStep c epoch i b = .ok i') (k : Fin n) :
    vec n i'.adam k = vec n i.adam k - ((i.adam[k.val]?).elim 0 fun a => lr a.epoch) • stepDir dir grad c.flags D i.adam k := by
  unfold trainStep at h
  simp only [bind, Except.bind, pure, Except.pure] at h
  split at h
  · cases h
  · rename_i out ho
    cases h
    obtain ⟨-, hi⟩ := applyGrads_inv hl ho
    obtain ⟨a, ha⟩ : ∃ a, i.adam[k.val]? = some a := ⟨_, List.getElem?_eq_getElem (by rw [hn]; exact k.2)⟩
    obtain ⟨t, ht⟩ : ∃ t, c.flags[k.val]? = some t := ⟨_, List.getElem?_eq_getElem (by rw [hl, hn]; exact k.2)⟩
    obtain ⟨hf, htr⟩ := hi k.val a ha
    cases t with
    | false => simp [vec, stepDir, ha, hf ht, ht]
    | true =>
      obtain ⟨d, hd, ho'⟩ := htr ht
      rw [hg k ht] at hd
      cases hd
      simp [vec, stepDir, ha, ho', ht, hu]

/-- The general form: if no array goes uphill, the step does not, and it goes downhill if a trainable gradient is not zero. -/
theorem step_descends {c : Cfg α P S K F} {lr : Nat → ℝ} {dir : P → OptState P → P} {grad : (P →L[ℝ] ℝ) → P}
    {Ok : OptState P → Prop} (hlr : ∀ t, 0 ≤ lr t)
    (hu : ∀ d a, (c.update d a).params = a.params - lr a.epoch • dir d a)
    (hd : ∀ a (l : P →L[ℝ] ℝ), Ok a → 0 ≤ l (dir (grad l) a) ∧ (l ≠ 0 → 0 < l (dir (grad l) a))) {epoch : Nat} {i i' : Inner P S K}
    {b : Data α} (hn : i.adam.length = n) (hl : c.flags.length = i.adam.length) (hok : ∀ a ∈ i.adam, Ok a)
    {D : (Fin n → P) →L[ℝ] ℝ}
    (hg : IsGrad grad c.flags D (c.grad epoch b i.mstate (c.split i.mrng).2 (i.adam.map (·.params))).1)
    (h : trainStep c epoch i b = .ok i') :
    D (vec n i'.adam - vec n i.adam) ≤ 0 ∧ ((∀ t, 0 < lr t) → (∃ k : Fin n, c.flags[k.val]? = some true ∧ part D k ≠ 0) →
      D (vec n i'.adam - vec n i.adam) < 0) := by
  have hm := step_moves hu hn hl hg h
  have e : D (vec n i'.adam - vec n i.adam) =
      - ∑ k, ((i.adam[k.val]?).elim 0 fun a => lr a.epoch) * part D k (stepDir dir grad c.flags D i.adam k) := by
    rw [lin_sum_part, ← Finset.sum_neg_distrib]
    refine Finset.sum_congr rfl fun k _ => ?_
    rw [Pi.sub_apply, hm k, sub_sub_cancel_left, map_neg, map_smul, smul_eq_mul]
  have h0 : ∀ k ∈ (Finset.univ : Finset (Fin n)),
      0 ≤ ((i.adam[k.val]?).elim 0 fun a => lr a.epoch) * part D k (stepDir dir grad c.flags D i.adam k) := by
    intro k _
    cases ha : i.adam[k.val]? with
    | none => simp
    | some a =>
      refine mul_nonneg (hlr _) ?_
      unfold stepDir
      rw [ha]
      split
      · rename_i a' _ ha'
        cases ha'
        exact (hd a _ (hok a (List.mem_of_getElem? ha))).1
      · rw [map_zero]
  rw [e]
  refine ⟨neg_nonpos.2 (Finset.sum_nonneg h0), fun hlr' ⟨k, ht, hk⟩ => neg_neg_of_pos ?_⟩
  refine Finset.sum_pos' h0 ⟨k, Finset.mem_univ _, ?_⟩
  have ha : i.adam[k.val]? = some (i.adam[k.val]'(by rw [hn]; exact k.2)) := List.getElem?_eq_getElem _
  rw [ha]
  refine mul_pos (hlr' _) ?_
  unfold stepDir
  rw [ha, ht]
  exact (hd _ _ (hok _ (List.mem_of_getElem? ha))).2 hk

/-- A differentiable function gets smaller along a direction with negative derivative, for all small enough steps. -/
theorem decreases_along {E : Type} [NormedAddCommGroup E] [NormedSpace ℝ E] {f : E → ℝ} {f' : E →L[ℝ] ℝ} {x v : E}
    (hf : HasFDerivAt f f' x) (hv : 0 < f' v) : ∃ η₀ > 0, ∀ η : ℝ, 0 < η → η < η₀ → f (x - η • v) < f x := by
  have hd : HasDerivAt (fun t : ℝ => f (x - t • v)) (-(f' v)) 0 := by
    have h1 : HasDerivAt (fun t : ℝ => x - t • v) (-v) 0 := by
      have := ((hasDerivAt_id (0 : ℝ)).smul_const v).const_sub x
      simpa using this
    have h2 : HasFDerivAt f f' ((fun t : ℝ => x - t • v) 0) := by simpa using hf
    have := h2.comp_hasDerivAt (0 : ℝ) h1
    rw [map_neg] at this
    exact this
  have ht := hd.tendsto_slope_zero_right
  have hev := ht.eventually_lt_const (show -(f' v) < 0 by linarith)
  rw [eventually_nhdsWithin_iff, Metric.eventually_nhds_iff] at hev
  obtain ⟨e, he, hh⟩ := hev
  refine ⟨e, he, fun η h0 h1 => ?_⟩
  have h3 := hh (y := η) (by rw [Real.dist_eq, sub_zero, abs_of_pos h0]; exact h1) h0
  simp only [zero_add, zero_smul, sub_zero, smul_eq_mul] at h3
  have h4 : f (x - η • v) - f x < 0 := by
    by_contra hc
    push Not at hc
    exact absurd h3 (not_lt.2 (mul_nonneg (inv_nonneg.2 h0.le) hc))
  linarith

theorem step_decreases {c : Cfg α P S K F} {u : ℝ → P → OptState P → OptState P} {dir : P → OptState P → P}
    {grad : (P →L[ℝ] ℝ) → P} {Ok : OptState P → Prop} (hu : ∀ η d a, (u η d a).params = a.params - η • dir d a)
    (hd : ∀ a (l : P →L[ℝ] ℝ), Ok a → 0 ≤ l (dir (grad l) a) ∧ (l ≠ 0 → 0 < l (dir (grad l) a))) {epoch : Nat} {i : Inner P S K}
    {b : Data α} (hn : i.adam.length = n) (hl : c.flags.length = i.adam.length) (hok : ∀ a ∈ i.adam, Ok a)
    {f : (Fin n → P) → ℝ} {D : (Fin n → P) →L[ℝ] ℝ} (hf : HasFDerivAt f D (vec n i.adam))
    (hg : IsGrad grad c.flags D (c.grad epoch b i.mstate (c.split i.mrng).2 (i.adam.map (·.params))).1)
    (hk : ∃ k : Fin n, c.flags[k.val]? = some true ∧ part D k ≠ 0) :
    ∃ η₀ > 0, ∀ η : ℝ, 0 < η → η < η₀ → ∀ i', trainStep { c with update := u η } epoch i b = .ok i' →
      f (vec n i'.adam) < f (vec n i.adam) := by
  have hpos : 0 < D (stepDir dir grad c.flags D i.adam) := by
    rw [lin_sum_part]
    obtain ⟨k, ht, hk⟩ := hk
    refine Finset.sum_pos' (fun k _ => ?_) ⟨k, Finset.mem_univ _, ?_⟩
    · unfold stepDir
      split
      · rename_i a _ ha
        exact (hd a _ (hok a (List.mem_of_getElem? ha))).1
      · rw [map_zero]
    · have ha : i.adam[k.val]? = some (i.adam[k.val]'(by rw [hn]; exact k.2)) := List.getElem?_eq_getElem _
      unfold stepDir
      rw [ha, ht]
      exact (hd _ _ (hok _ (List.mem_of_getElem? ha))).2 hk
  obtain ⟨η₀, h0, hh⟩ := decreases_along hf hpos
  refine ⟨η₀, h0, fun η h1 h2 i' h => ?_⟩
  have hm := step_moves (c := { c with update := u η }) (lr := fun _ => η) (dir := dir) (grad := grad) (hu η) hn hl hg h
  have : vec n i'.adam = vec n i.adam - η • stepDir dir grad c.flags D i.adam := by
    funext k
    rw [hm k, List.getElem?_eq_getElem (by rw [hn]; exact k.2)]
    rfl
  rw [this]
  exact hh η h1 h2

end Step

variable {ι : Type} [Fintype ι] [DecidableEq ι] {n : Nat} {α S K F : Type}

/-- **C120** A step of the real optimiser on states without accumulated momentum (in particular the first step of a training)
moves the parameters in a direction in which the loss of the batch does not increase, and in which it decreases if the gradient of
a trainable array is not zero; for a small enough constant learning rate the loss after the step is smaller. -/
theorem C120_step_real (c : Cfg α (ι → ℝ) S K F) (lr : Nat → ℝ) (b1 b2 eps clip : ℝ) (h1 : 0 ≤ b1) (h1' : b1 < 1)
    (he : 0 < eps) (hc : 0 < clip) (epoch : Nat) (i : Inner (ι → ℝ) S K) (b : Data α) (hn : i.adam.length = n)
    (hl : c.flags.length = i.adam.length) (hok : ∀ a ∈ i.adam, FreshR b1 a)
    (f : (Fin n → ι → ℝ) → ℝ) (D : (Fin n → ι → ℝ) →L[ℝ] ℝ) (hf : HasFDerivAt f D (vec n i.adam))
    (hg : IsGrad gradR c.flags D (c.grad epoch b i.mstate (c.split i.mrng).2 (i.adam.map (·.params))).1) :
    ((∀ t, 0 ≤ lr t) → ∀ i', trainStep { c with update := update lr b1 b2 eps clip } epoch i b = .ok i' →
      D (vec n i'.adam - vec n i.adam) ≤ 0 ∧ ((∀ t, 0 < lr t) → (∃ k : Fin n, c.flags[k.val]? = some true ∧ part D k ≠ 0) →
        D (vec n i'.adam - vec n i.adam) < 0)) ∧
    ((∃ k : Fin n, c.flags[k.val]? = some true ∧ part D k ≠ 0) →
      ∃ η₀ > 0, ∀ η : ℝ, 0 < η → η < η₀ → ∀ i',
        trainStep { c with update := update (fun _ => η) b1 b2 eps clip } epoch i b = .ok i' →
          f (vec n i'.adam) < f (vec n i.adam)) :=
  ⟨fun hlr i' h => step_descends (c := { c with update := update lr b1 b2 eps clip }) (lr := lr)
      (dir := dirR b1 b2 eps clip) (grad := gradR) (Ok := FreshR b1) hlr
      (fun d a => update_dirR lr b1 b2 eps clip d a) (fun a l ha => downR h1 h1' he hc ha l) hn hl hok hg h,
    fun hk => step_decreases (c := c) (u := fun η => update (fun _ => η) b1 b2 eps clip) (dir := dirR b1 b2 eps clip)
      (grad := gradR) (Ok := FreshR b1)
      (fun η d a => update_dirR (fun _ => η) b1 b2 eps clip d a) (fun a l ha => downR h1 h1' he hc ha l) hn hl hok hf hg hk⟩

/-- **C120** The same for the complex optimiser, on complex arrays: the gradient of `jax.grad` is conjugated, so that the step goes
downhill. -/
theorem C120_step_complex (c : Cfg α (ι → ℂ) S K F) (lr : Nat → ℝ) (b1 b2 eps clip : ℝ) (h1 : 0 ≤ b1) (h1' : b1 < 1)
    (h2 : 0 ≤ b2) (h2' : b2 < 1)
    (he : 0 < eps) (hc : 0 < clip) (epoch : Nat) (i : Inner (ι → ℂ) S K) (b : Data α) (hn : i.adam.length = n)
    (hl : c.flags.length = i.adam.length) (hok : ∀ a ∈ i.adam, FreshC b1 a)
    (f : (Fin n → ι → ℂ) → ℝ) (D : (Fin n → ι → ℂ) →L[ℝ] ℝ) (hf : HasFDerivAt f D (vec n i.adam))
    (hg : IsGrad gradC c.flags D (c.grad epoch b i.mstate (c.split i.mrng).2 (i.adam.map (·.params))).1) :
    ((∀ t, 0 ≤ lr t) → ∀ i', trainStep { c with update := updateC lr b1 b2 eps clip } epoch i b = .ok i' →
      D (vec n i'.adam - vec n i.adam) ≤ 0 ∧ ((∀ t, 0 < lr t) → (∃ k : Fin n, c.flags[k.val]? = some true ∧ part D k ≠ 0) →
        D (vec n i'.adam - vec n i.adam) < 0)) ∧
    ((∃ k : Fin n, c.flags[k.val]? = some true ∧ part D k ≠ 0) →
      ∃ η₀ > 0, ∀ η : ℝ, 0 < η → η < η₀ → ∀ i',
        trainStep { c with update := updateC (fun _ => η) b1 b2 eps clip } epoch i b = .ok i' →
          f (vec n i'.adam) < f (vec n i.adam)) :=
  ⟨fun hlr i' h => step_descends (c := { c with update := updateC lr b1 b2 eps clip }) (lr := lr)
      (dir := dirC b1 b2 eps clip) (grad := gradC) (Ok := FreshC b1) hlr
      (fun d a => update_dirC lr b1 b2 eps clip d a) (fun a l ha => downC h1 h1' h2 h2' he hc ha l) hn hl hok hg h,
    fun hk => step_decreases (c := c) (u := fun η => updateC (fun _ => η) b1 b2 eps clip) (dir := dirC b1 b2 eps clip)
      (grad := gradC) (Ok := FreshC b1)
      (fun η d a => update_dirC (fun _ => η) b1 b2 eps clip d a) (fun a l ha => downC h1 h1' h2 h2' he hc ha l)
      hn hl hok hf hg hk⟩

/-- **C120** The same for real arrays in the complex optimiser. -/
theorem C120_step_real_in_complex (c : Cfg α (ι → ℝ) S K F) (lr : Nat → ℝ) (b1 b2 eps clip : ℝ) (h1 : 0 ≤ b1) (h1' : b1 < 1)
    (he : 0 < eps) (hc : 0 < clip) (epoch : Nat) (i : Inner (ι → ℝ) S K) (b : Data α) (hn : i.adam.length = n)
    (hl : c.flags.length = i.adam.length) (hok : ∀ a ∈ i.adam, FreshR b1 a)
    (f : (Fin n → ι → ℝ) → ℝ) (D : (Fin n → ι → ℝ) →L[ℝ] ℝ) (hf : HasFDerivAt f D (vec n i.adam))
    (hg : IsGrad gradR c.flags D (c.grad epoch b i.mstate (c.split i.mrng).2 (i.adam.map (·.params))).1) :
    ((∀ t, 0 ≤ lr t) → ∀ i', trainStep { c with update := updateRinC lr b1 b2 eps clip } epoch i b = .ok i' →
      D (vec n i'.adam - vec n i.adam) ≤ 0 ∧ ((∀ t, 0 < lr t) → (∃ k : Fin n, c.flags[k.val]? = some true ∧ part D k ≠ 0) →
        D (vec n i'.adam - vec n i.adam) < 0)) ∧
    ((∃ k : Fin n, c.flags[k.val]? = some true ∧ part D k ≠ 0) →
      ∃ η₀ > 0, ∀ η : ℝ, 0 < η → η < η₀ → ∀ i',
        trainStep { c with update := updateRinC (fun _ => η) b1 b2 eps clip } epoch i b = .ok i' →
          f (vec n i'.adam) < f (vec n i.adam)) :=
  ⟨fun hlr i' h => step_descends (c := { c with update := updateRinC lr b1 b2 eps clip }) (lr := lr)
      (dir := dirR b1 b2 eps clip) (grad := gradR) (Ok := FreshR b1) hlr
      (fun d a => update_dirR lr b1 b2 eps clip d a) (fun a l ha => downR h1 h1' he hc ha l) hn hl hok hg h,
    fun hk => step_decreases (c := c) (u := fun η => updateRinC (fun _ => η) b1 b2 eps clip) (dir := dirR b1 b2 eps clip)
      (grad := gradR) (Ok := FreshR b1)
      (fun η d a => update_dirR (fun _ => η) b1 b2 eps clip d a) (fun a l ha => downR h1 h1' he hc ha l) hn hl hok hf hg hk⟩

omit [Fintype ι] [DecidableEq ι] in
/-- **C120** The states training starts with are of this kind; without momentum all states of a training are. -/
theorem C120_reachable (lr : Nat → ℝ) (b1 b2 eps clip : ℝ) (h2 : 0 ≤ b2) (h2' : b2 ≤ 1) :
    (∀ x0 : ι → ℝ, FreshR b1 (Adam.init x0)) ∧ (∀ x0 : ι → ℂ, FreshC b1 (Adam.initC x0)) ∧
    (∀ (g : ι → ℝ) (s : OptState (ι → ℝ)), FreshR 0 s → FreshR 0 (update lr 0 b2 eps clip g s) ∧
      FreshR 0 (updateRinC lr 0 b2 eps clip g s)) ∧
    ∀ (g : ι → ℂ) (s : OptState (ι → ℂ)), FreshC 0 s → FreshC 0 (updateC lr 0 b2 eps clip g s) := by
  have hv : ∀ (g : ι → ℝ) (s : OptState (ι → ℝ)), FreshR 0 s → ∀ j, 0 ≤ b2 * s.v j + (1 - b2) * clipR clip (g j) ^ 2 :=
    fun g s hs j => add_nonneg (mul_nonneg h2 (hs.1 j)) (mul_nonneg (by linarith) (sq_nonneg _))
  refine ⟨fun x0 => ⟨fun _ => le_rfl, .inr fun _ => rfl⟩, fun x0 => ⟨fun _ => ⟨0, le_rfl, by simp [initC]⟩, .inr fun _ => rfl⟩,
    fun g s hs => ⟨⟨hv g s hs, .inl rfl⟩, ⟨hv g s hs, .inl rfl⟩⟩, fun g s hs => ⟨fun j => ?_, .inl rfl⟩⟩
  obtain ⟨r, hr, he⟩ := hs.1 j
  refine ⟨b2 * r + (1 - b2) * Complex.normSq (clipC clip (g j)),
    add_nonneg (mul_nonneg h2 hr) (mul_nonneg (by linarith) (Complex.normSq_nonneg _)), ?_⟩
  simp only [updateC]
  rw [he, Complex.mul_conj]
  push_cast
  rfl

/-- **C120, contrast**: with momentum a later step may go uphill: after a step with gradient 1, the step with gradient -1/10 moves
the parameter down, although the loss grows in this direction. -/
theorem C120_momentum_can_climb : ∃ s : OptState (Unit → ℝ),
    s = update (fun _ => 1) (9 / 10) 0 1 1 (fun _ => 1) (Adam.init fun _ => 0) ∧
    0 < (fun _ : Unit => -1 / 10 : Unit → ℝ) () *
      ((update (fun _ => 1) (9 / 10) 0 1 1 (fun _ => -1 / 10) s).params () - s.params ()) := by
  refine ⟨_, rfl, ?_⟩
  have e : clipR 1 1 = 1 ∧ clipR 1 (-1 / 10) = -1 / 10 := by constructor <;> norm_num [clipR]
  simp only [update, Adam.init, e.1, e.2]
  have h : Real.sqrt ((0 * (0 * 0 + (1 - 0) * 1 ^ 2) + (1 - 0) * (-1 / 10) ^ 2) / (1 - 0 ^ (0 + 1))) = 1 / 10 := by
    rw [show ((0 * (0 * 0 + (1 - 0) * 1 ^ 2) + (1 - 0) * (-1 / 10) ^ 2) / (1 - 0 ^ (0 + 1)) : ℝ) = (1 / 10) ^ 2 by norm_num]
    exact Real.sqrt_sq (by norm_num)
  rw [h]
  norm_num

/-- A linear loss of two arrays with one entry each: twice the first plus the second. -/
noncomputable def demoLoss : (Fin 2 → Unit → ℝ) →L[ℝ] ℝ :=
  (2 : ℝ) • (ContinuousLinearMap.proj (R := ℝ) (φ := fun _ : Unit => ℝ) ()).comp
      (ContinuousLinearMap.proj (R := ℝ) (φ := fun _ : Fin 2 => Unit → ℝ) 0) +
    (ContinuousLinearMap.proj (R := ℝ) (φ := fun _ : Unit => ℝ) ()).comp
      (ContinuousLinearMap.proj (R := ℝ) (φ := fun _ : Fin 2 => Unit → ℝ) 1)

/-- A training with this loss in which the second array is frozen; its gradient list has one entry. -/
noncomputable def descentCfg : Cfg Nat (Unit → ℝ) Unit Nat (Option Int) :=
  { demoCfg with
    grad := fun _ _ s _ _ => ([fun _ => 2], s)
    valLoss := fun _ _ _ _ _ => none
    update := update (fun _ => 1) (9 / 10) (999 / 1000) 1 1
    callback := fun k _ ps => (k, ps) }

example : IsGrad gradR descentCfg.flags demoLoss (descentCfg.grad 0 ⟨[], none, none⟩ () 0 []).1 ∧
    (∃ k : Fin 2, descentCfg.flags[k.val]? = some true ∧ part demoLoss k ≠ 0) ∧
    descentCfg.flags.length = 2 ∧ HasFDerivAt demoLoss demoLoss (fun _ _ => 0) ∧
    (∃ i', trainStep descentCfg 0 ⟨[Adam.init fun _ => 0, Adam.init fun _ => 0], (), 0⟩ ⟨[], none, none⟩ = .ok i') := by
  refine ⟨fun k hk => ?_, ⟨0, rfl, fun h => ?_⟩, rfl, demoLoss.hasFDerivAt, ⟨_, rfl⟩⟩
  · fin_cases k
    · have : gradR (part demoLoss 0) = fun _ => (2 : ℝ) := by
        funext j
        simp [gradR, part, demoLoss]
      simp [descentCfg, demoCfg, this]
    · simp [descentCfg, demoCfg] at hk
  · have := congrArg (fun l => l (fun _ => (1 : ℝ))) h
    simp [part, demoLoss] at this

end Verif.Props
