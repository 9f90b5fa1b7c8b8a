import Verif.Model.Adam
import Verif.Spec.Adam
import Verif.Lemmas.TrainLoop
import Mathlib.Tactic.Linarith
import Mathlib.Tactic.NormNum
import Mathlib.Tactic.Positivity

/-! # Properties of the Adam optimisers (C32-C34) -/

namespace Verif.Props

open Verif.Train Verif.TrainSpec Verif.Adam Verif.AdamSpec

/-! ## C33 -/

/-- **C33** A clipped gradient never exceeds the bound, and a gradient within the bound is unchanged. -/
theorem C33_clip_real (clip x : ℝ) (h : 0 ≤ clip) : |clipR clip x| ≤ clip ∧ (|x| ≤ clip → clipR clip x = x) := by
  unfold clipR
  constructor
  · rw [abs_le]
    exact ⟨le_min (le_max_right _ _) (by linarith), min_le_right _ _⟩
  · intro hx
    obtain ⟨a, b⟩ := abs_le.1 hx
    rw [max_eq_left a, min_eq_left b]

/-- **C33 (partial)** In the complex optimiser the bound holds for the real and the imaginary part separately; a gradient
whose parts are within the bound is only conjugated. Missing: a bound on the magnitude, see `C33_magnitude_refuted`. -/
theorem C33_clip_complex_partial (clip : ℝ) (z : ℂ) (h : 0 ≤ clip) :
    |(clipC clip z).re| ≤ clip ∧ |(clipC clip z).im| ≤ clip ∧
      (|z.re| ≤ clip → |z.im| ≤ clip → clipC clip z = (starRingEnd ℂ) z) := by
  have e1 : (clipC clip z).re = clipR clip z.re := by simp [clipC]
  have e2 : (clipC clip z).im = - clipR clip z.im := by simp [clipC]
  refine ⟨by rw [e1]; exact (C33_clip_real clip z.re h).1, by rw [e2, abs_neg]; exact (C33_clip_real clip z.im h).1, ?_⟩
  intro h1 h2
  apply Complex.ext
  · rw [e1, (C33_clip_real clip z.re h).2 h1]; simp
  · rw [e2, (C33_clip_real clip z.im h).2 h2]; simp

/-- **C33, refuted for complex magnitudes**: the gradient `1 + i` passes a bound of 1 although its magnitude is √2. -/
theorem C33_magnitude_refuted : ∃ (clip : ℝ) (z : ℂ), 0 < clip ∧ clip ^ 2 < Complex.normSq (clipC clip z) := by
  refine ⟨1, ⟨1, 1⟩, one_pos, ?_⟩
  simp [clipC, clipR, Complex.normSq_apply]

example : clipR 2 5 = 2 ∧ clipR 2 (-7) = -2 ∧ clipR 2 1 = 1 := by
  refine ⟨?_, ?_, ?_⟩ <;> norm_num [clipR]

/-! ## C34 -/

theorem expAvg_append {R : Type} [Ring R] (b m0 : R) (gs : List R) (g : R) :
    expAvg b m0 (gs ++ [g]) = b * expAvg b m0 gs + (1 - b) * g := by
  have hs : (gs.mapIdx fun t x => b ^ (gs.length - t) * x).sum = b * (gs.mapIdx fun t x => b ^ (gs.length - 1 - t) * x).sum := by
    have hm : ∀ l : List R, b * l.sum = (l.map (b * ·)).sum := by
      intro l
      induction l with
      | nil => simp
      | cons a l ih => simp [mul_add, ih]
    rw [hm]
    congr 1
    refine List.ext_getElem (by simp) fun i h1 h2 => ?_
    simp only [List.getElem_mapIdx, List.getElem_map]
    have hi : i < gs.length := by simpa using h1
    have : gs.length - i = (gs.length - 1 - i) + 1 := by omega
    rw [this, pow_succ', mul_assoc]
  unfold expAvg
  rw [List.mapIdx_append]
  simp only [List.length_append, List.length_cons, List.length_nil, List.sum_append, List.mapIdx_cons, List.mapIdx_nil,
    List.sum_cons, List.sum_nil]
  have e : (gs.length + (0 + 1) - 1) = gs.length := by omega
  simp only [e, Nat.zero_add, Nat.add_sub_cancel, hs]
  simp only [Nat.sub_self, pow_zero, one_mul, add_zero, pow_succ', mul_assoc]
  have hc : (1 - b) * (b * (gs.mapIdx fun t x => b ^ (gs.length - 1 - t) * x).sum) =
      b * ((1 - b) * (gs.mapIdx fun t x => b ^ (gs.length - 1 - t) * x).sum) := by
    rw [← mul_assoc, ← mul_assoc]
    congr 1
    rw [sub_mul, mul_sub, one_mul, mul_one]
  rw [mul_add, mul_add, hc]
  rw [add_assoc]

variable {ι : Type}

/-- **C34** After any sequence of updates of the real optimiser the first moment is the exponential average of the clipped
gradients and the second moment that of their squares; started nonnegative, the second moment is nonnegative. -/
theorem C34_moments_real (lr : Nat → ℝ) (b1 b2 eps clip : ℝ) (hb2 : 0 ≤ b2) (hb2' : b2 ≤ 1) (s : OptState (ι → ℝ))
    (gs : List (ι → ℝ)) (j : ι) :
    (updates (update lr b1 b2 eps clip) gs s).m j = expAvg b1 (s.m j) (gs.map fun g => clipR clip (g j)) ∧
    (updates (update lr b1 b2 eps clip) gs s).v j = expAvg b2 (s.v j) (gs.map fun g => clipR clip (g j) ^ 2) ∧
    (0 ≤ s.v j → 0 ≤ (updates (update lr b1 b2 eps clip) gs s).v j) := by
  induction gs using List.reverseRecOn with
  | nil => simp [updates, expAvg]
  | append_singleton gs g ih =>
    obtain ⟨h1, h2, h3⟩ := ih
    have e : updates (update lr b1 b2 eps clip) (gs ++ [g]) s =
        update lr b1 b2 eps clip g (updates (update lr b1 b2 eps clip) gs s) := by simp [updates]
    rw [e, List.map_append, List.map_append]
    simp only [List.map_cons, List.map_nil, expAvg_append]
    refine ⟨?_, ?_, fun h0 => ?_⟩
    · simp only [update]; rw [h1]
    · simp only [update]; rw [h2]
    · simp only [update]
      have := h3 h0
      have h1b : 0 ≤ 1 - b2 := by linarith
      positivity

/-- **C34** The same for the complex optimiser: the second moment is real and nonnegative. -/
theorem C34_moments_complex (lr : Nat → ℝ) (b1 b2 eps clip : ℝ) (hb2 : 0 ≤ b2) (hb2' : b2 ≤ 1) (s : OptState (ι → ℂ))
    (gs : List (ι → ℂ)) (j : ι) :
    (updates (updateC lr b1 b2 eps clip) gs s).m j = expAvg (b1 : ℂ) (s.m j) (gs.map fun g => clipC clip (g j)) ∧
    (updates (updateC lr b1 b2 eps clip) gs s).v j =
      expAvg (b2 : ℂ) (s.v j) (gs.map fun g => (Complex.normSq (clipC clip (g j)) : ℂ)) ∧
    ((∃ r : ℝ, 0 ≤ r ∧ s.v j = r) → ∃ r : ℝ, 0 ≤ r ∧ (updates (updateC lr b1 b2 eps clip) gs s).v j = r) := by
  induction gs using List.reverseRecOn with
  | nil => simp [updates, expAvg]
  | append_singleton gs g ih =>
    obtain ⟨h1, h2, h3⟩ := ih
    have e : updates (updateC lr b1 b2 eps clip) (gs ++ [g]) s =
        updateC lr b1 b2 eps clip g (updates (updateC lr b1 b2 eps clip) gs s) := by simp [updates]
    rw [e, List.map_append, List.map_append]
    simp only [List.map_cons, List.map_nil, expAvg_append]
    refine ⟨?_, ?_, fun h0 => ?_⟩
    · simp only [updateC]; rw [h1]
    · simp only [updateC]; rw [h2, Complex.mul_conj]
    · obtain ⟨r, hr, hv⟩ := h3 h0
      refine ⟨b2 * r + (1 - b2) * Complex.normSq (clipC clip (g j)), ?_, ?_⟩
      · have h1b : 0 ≤ 1 - b2 := by linarith
        have := Complex.normSq_nonneg (clipC clip (g j))
        positivity
      · simp only [updateC]
        rw [hv, Complex.mul_conj]
        push_cast
        ring

/-- **C34** The update is well defined: with betas in `[0,1)` and `eps > 0` the bias corrections are nonzero, the square
root is taken of a nonnegative number and the denominator is positive, in every state reached from the initial one. -/
theorem C34_well_defined (lr : Nat → ℝ) (b1 b2 eps clip : ℝ) (h1 : 0 ≤ b1) (h1' : b1 < 1) (h2 : 0 ≤ b2) (h2' : b2 < 1)
    (heps : 0 < eps) (x0 : ι → ℝ) (gs : List (ι → ℝ)) (i : Nat) (j : ι) :
    0 < 1 - b1 ^ (i + 1) ∧ 0 < 1 - b2 ^ (i + 1) ∧
    0 ≤ (updates (update lr b1 b2 eps clip) gs (Adam.init x0)).v j / (1 - b2 ^ (i + 1)) ∧
    0 < Real.sqrt ((updates (update lr b1 b2 eps clip) gs (Adam.init x0)).v j / (1 - b2 ^ (i + 1))) + eps := by
  have p1 : 0 < 1 - b1 ^ (i + 1) := by
    have := pow_lt_one₀ h1 h1' (n := i + 1) (by omega); linarith
  have p2 : 0 < 1 - b2 ^ (i + 1) := by
    have := pow_lt_one₀ h2 h2' (n := i + 1) (by omega); linarith
  have hv := (C34_moments_real lr b1 b2 eps clip h2 h2'.le (Adam.init x0) gs j).2.2 (by simp [Adam.init])
  exact ⟨p1, p2, div_nonneg hv p2.le, by positivity⟩

/-- **C34** In the complex optimiser the principal square root is the real square root of a nonnegative real number, so the
denominator is a positive real number. -/
theorem C34_well_defined_complex (lr : Nat → ℝ) (b1 b2 eps clip : ℝ) (h2 : 0 ≤ b2) (h2' : b2 < 1) (heps : 0 < eps)
    (x0 : ι → ℂ) (gs : List (ι → ℂ)) (i : Nat) (j : ι) :
    ∃ r : ℝ, 0 ≤ r ∧ (updates (updateC lr b1 b2 eps clip) gs (initC x0)).v j / (1 - (b2 : ℂ) ^ (i + 1)) = r ∧
      ((updates (updateC lr b1 b2 eps clip) gs (initC x0)).v j / (1 - (b2 : ℂ) ^ (i + 1))) ^ (1 / 2 : ℂ) + eps =
        ((Real.sqrt r + eps : ℝ) : ℂ) ∧ 0 < Real.sqrt r + eps := by
  obtain ⟨v, hv, he⟩ := (C34_moments_complex lr b1 b2 eps clip h2 h2'.le (initC x0) gs j).2.2 ⟨0, le_rfl, by simp [initC]⟩
  have p2 : 0 < 1 - b2 ^ (i + 1) := by
    have := pow_lt_one₀ h2 h2' (n := i + 1) (by omega); linarith
  have hr : 0 ≤ v / (1 - b2 ^ (i + 1)) := div_nonneg hv p2.le
  refine ⟨v / (1 - b2 ^ (i + 1)), hr, by rw [he]; push_cast; rfl, ?_, by positivity⟩
  have e : (updates (updateC lr b1 b2 eps clip) gs (initC x0)).v j / (1 - (b2 : ℂ) ^ (i + 1)) =
      ((v / (1 - b2 ^ (i + 1)) : ℝ) : ℂ) := by rw [he]; push_cast; rfl
  rw [e, Real.sqrt_eq_rpow]
  push_cast
  congr 1
  have := Complex.ofReal_cpow hr (1 / 2)
  push_cast at this
  rw [this]

/-- **C34** The moments stay bounded by the clipping bound. -/
theorem C34_moments_bounded (lr : Nat → ℝ) (b1 b2 eps clip : ℝ) (hc : 0 ≤ clip) (h1 : 0 ≤ b1) (h1' : b1 ≤ 1) (h2 : 0 ≤ b2)
    (h2' : b2 ≤ 1) (x0 : ι → ℝ) (gs : List (ι → ℝ)) (j : ι) :
    |(updates (update lr b1 b2 eps clip) gs (Adam.init x0)).m j| ≤ clip ∧
      (updates (update lr b1 b2 eps clip) gs (Adam.init x0)).v j ≤ clip ^ 2 := by
  induction gs using List.reverseRecOn with
  | nil => simpa [updates, Adam.init] using ⟨hc, by positivity⟩
  | append_singleton gs g ih =>
    obtain ⟨i1, i2⟩ := ih
    have e : updates (update lr b1 b2 eps clip) (gs ++ [g]) (Adam.init x0) =
        update lr b1 b2 eps clip g (updates (update lr b1 b2 eps clip) gs (Adam.init x0)) := by simp [updates]
    have hg := (C33_clip_real clip (g j) hc).1
    obtain ⟨g1, g2⟩ := abs_le.1 hg
    obtain ⟨m1, m2⟩ := abs_le.1 i1
    have hsq : clipR clip (g j) ^ 2 ≤ clip ^ 2 := sq_le_sq' g1 g2
    rw [e]
    simp only [update]
    refine ⟨abs_le.2 ⟨?_, ?_⟩, ?_⟩
    · have a := mul_le_mul_of_nonneg_left m1 h1
      have b := mul_le_mul_of_nonneg_left g1 (by linarith : 0 ≤ 1 - b1)
      nlinarith
    · have a := mul_le_mul_of_nonneg_left m2 h1
      have b := mul_le_mul_of_nonneg_left g2 (by linarith : 0 ≤ 1 - b1)
      nlinarith
    · have a := mul_le_mul_of_nonneg_left i2 h2
      have b := mul_le_mul_of_nonneg_left hsq (by linarith : 0 ≤ 1 - b2)
      nlinarith

example : (0 : ℝ) ≤ 0.9 ∧ (0.9 : ℝ) < 1 ∧ (0 : ℝ) ≤ 0.999 ∧ (0.999 : ℝ) < 1 ∧ (0 : ℝ) < 1e-8 ∧ (0 : ℝ) ≤ 1e3 := by norm_num

/-- The parameter after one more update: the bias-corrected averages `m / (1 - b1^(t+1))` and `v / (1 - b2^(t+1))` of the whole
history of clipped gradients, where `t` is the counter of the state, give the step `lr(t) m̂ / (√v̂ + eps)`. -/
theorem C34_step_real (lr : Nat → ℝ) (b1 b2 eps clip : ℝ) (hb2 : 0 ≤ b2) (hb2' : b2 ≤ 1) (s : OptState (ι → ℝ))
    (gs : List (ι → ℝ)) (g : ι → ℝ) (j : ι) :
    let t := (updates (update lr b1 b2 eps clip) gs s).epoch
    let hist := (gs ++ [g]).map fun g => clipR clip (g j)
    (updates (update lr b1 b2 eps clip) (gs ++ [g]) s).params j =
      (updates (update lr b1 b2 eps clip) gs s).params j -
        lr t * (expAvg b1 (s.m j) hist / (1 - b1 ^ (t + 1))) /
          (Real.sqrt (expAvg b2 (s.v j) (hist.map (· ^ 2)) / (1 - b2 ^ (t + 1))) + eps) := by
  intro t hist
  have hm := (C34_moments_real lr b1 b2 eps clip hb2 hb2' s (gs ++ [g]) j).1
  have hv := (C34_moments_real lr b1 b2 eps clip hb2 hb2' s (gs ++ [g]) j).2.1
  have e : updates (update lr b1 b2 eps clip) (gs ++ [g]) s =
      update lr b1 b2 eps clip g (updates (update lr b1 b2 eps clip) gs s) := by simp [updates]
  have hist2 : hist.map (· ^ 2) = (gs ++ [g]).map fun g => clipR clip (g j) ^ 2 := by
    simp [hist]
  rw [hist2, ← hm, ← hv, e]
  rfl

/-- **C34** The same for the complex optimiser. -/
theorem C34_step_complex (lr : Nat → ℝ) (b1 b2 eps clip : ℝ) (hb2 : 0 ≤ b2) (hb2' : b2 ≤ 1) (s : OptState (ι → ℂ))
    (gs : List (ι → ℂ)) (g : ι → ℂ) (j : ι) :
    let t := (updates (updateC lr b1 b2 eps clip) gs s).epoch
    let hist := (gs ++ [g]).map fun g => clipC clip (g j)
    (updates (updateC lr b1 b2 eps clip) (gs ++ [g]) s).params j =
      (updates (updateC lr b1 b2 eps clip) gs s).params j -
        lr t * (expAvg (b1 : ℂ) (s.m j) hist / (1 - (b1 : ℂ) ^ (t + 1))) /
          ((expAvg (b2 : ℂ) (s.v j) (hist.map fun z => (Complex.normSq z : ℂ)) / (1 - (b2 : ℂ) ^ (t + 1))) ^ (1 / 2 : ℂ) +
            eps) := by
  intro t hist
  have hm := (C34_moments_complex lr b1 b2 eps clip hb2 hb2' s (gs ++ [g]) j).1
  have hv := (C34_moments_complex lr b1 b2 eps clip hb2 hb2' s (gs ++ [g]) j).2.1
  have e : updates (updateC lr b1 b2 eps clip) (gs ++ [g]) s =
      updateC lr b1 b2 eps clip g (updates (updateC lr b1 b2 eps clip) gs s) := by simp [updates]
  have hist2 : hist.map (fun z => (Complex.normSq z : ℂ)) =
      (gs ++ [g]).map fun g => (Complex.normSq (clipC clip (g j)) : ℂ) := by
    simp [hist]
  rw [hist2, ← hm, ← hv, e]
  rfl

theorem expAvg_const (b c : ℝ) (n : Nat) : expAvg b 0 (List.replicate n c) = (1 - b ^ n) * c := by
  induction n with
  | zero => simp [expAvg]
  | succ n ih =>
    rw [List.replicate_succ', expAvg_append, ih]
    ring

/-- **C34** What the bias correction is for: when the counter advances with every update (as it does in the complex optimiser, and
in the real one with one batch per epoch), a constant gradient `c` moves the parameter by exactly `lr(i) c / (|c| + eps)` in every
step from the first on; in particular by at most `lr(i)`. -/
theorem C34_constant_gradient (lr : Nat → ℝ) (b1 b2 eps clip : ℝ) (h1 : 0 ≤ b1) (h1' : b1 < 1) (h2 : 0 ≤ b2) (h2' : b2 < 1)
    (g : ι → ℝ) (j : ι) (hg : |g j| ≤ clip) (x0 : ι → ℝ) (n : Nat) :
    (updates (updateRinC lr b1 b2 eps clip) (List.replicate n g) (Adam.init x0)).params j =
      x0 j - ((List.range n).map fun i => lr i * g j / (|g j| + eps)).sum := by
  have hclip : clipR clip (g j) = g j := by
    unfold clipR
    obtain ⟨a, b⟩ := abs_le.1 hg
    rw [max_eq_left a, min_eq_left b]
  have key : ∀ n, (updates (updateRinC lr b1 b2 eps clip) (List.replicate n g) (Adam.init x0)).epoch = n ∧
      (updates (updateRinC lr b1 b2 eps clip) (List.replicate n g) (Adam.init x0)).m j = (1 - b1 ^ n) * g j ∧
      (updates (updateRinC lr b1 b2 eps clip) (List.replicate n g) (Adam.init x0)).v j = (1 - b2 ^ n) * g j ^ 2 ∧
      (updates (updateRinC lr b1 b2 eps clip) (List.replicate n g) (Adam.init x0)).params j =
        x0 j - ((List.range n).map fun i => lr i * g j / (|g j| + eps)).sum := by
    intro n
    induction n with
    | zero => simp [updates, Adam.init]
    | succ n ih =>
      obtain ⟨i1, i2, i3, i4⟩ := ih
      have e : updates (updateRinC lr b1 b2 eps clip) (List.replicate (n + 1) g) (Adam.init x0) =
          updateRinC lr b1 b2 eps clip g (updates (updateRinC lr b1 b2 eps clip) (List.replicate n g) (Adam.init x0)) := by
        rw [List.replicate_succ']; simp [updates]
      have p1 : (1 - b1 ^ (n + 1)) ≠ 0 := by
        have := pow_lt_one₀ h1 h1' (n := n + 1) (by omega); linarith
      have p2 : (1 - b2 ^ (n + 1)) ≠ 0 := by
        have := pow_lt_one₀ h2 h2' (n := n + 1) (by omega); linarith
      have em : b1 * ((1 - b1 ^ n) * g j) + (1 - b1) * g j = (1 - b1 ^ (n + 1)) * g j := by ring
      have ev : b2 * ((1 - b2 ^ n) * g j ^ 2) + (1 - b2) * g j ^ 2 = (1 - b2 ^ (n + 1)) * g j ^ 2 := by ring
      rw [e]
      simp only [updateRinC, update, i1, i2, i3, i4, hclip, em, ev]
      refine ⟨trivial, trivial, trivial, ?_⟩
      rw [mul_div_cancel_left₀ _ p1, mul_div_cancel_left₀ _ p2, Real.sqrt_sq_eq_abs, List.range_succ, List.map_append,
        List.sum_append]
      simp
      ring
  exact (key n).2.2.2

/-- **C34** The first complex update moves the parameter by `lr(0) z / (|z| + eps)`, `z` the clipped conjugated gradient: against
the gradient, by at most `lr(0)`. -/
theorem C34_first_step_complex (lr : Nat → ℝ) (b1 b2 eps clip : ℝ) (h1' : b1 < 1) (h2' : b2 < 1) (g x0 : ι → ℂ) (j : ι) :
    (updateC lr b1 b2 eps clip g (initC x0)).params j =
      x0 j - lr 0 * clipC clip (g j) / ((‖clipC clip (g j)‖ + eps : ℝ) : ℂ) := by
  have p1 : (1 - (b1 : ℂ)) ≠ 0 := by
    intro h
    have : (1 : ℂ) = b1 := sub_eq_zero.1 h
    have : (1 : ℝ) = b1 := by exact_mod_cast this
    linarith
  have p2 : (1 - (b2 : ℂ)) ≠ 0 := by
    intro h
    have : (1 : ℂ) = b2 := sub_eq_zero.1 h
    have : (1 : ℝ) = b2 := by exact_mod_cast this
    linarith
  simp only [updateC, initC, mul_zero, zero_add, pow_one]
  rw [mul_div_cancel_left₀ _ p1, mul_div_cancel_left₀ _ p2, Complex.mul_conj]
  have : ((Complex.normSq (clipC clip (g j)) : ℂ)) ^ (1 / 2 : ℂ) = (‖clipC clip (g j)‖ : ℝ) := by
    have h := Complex.ofReal_cpow (Complex.normSq_nonneg (clipC clip (g j))) (1 / 2)
    push_cast at h
    rw [← h, ← Real.sqrt_eq_rpow]
    rfl
  rw [this]
  push_cast
  rfl

example : |((fun _ => 2 : Unit → ℝ)) ()| ≤ 1e3 ∧ (0 : ℝ) ≤ 0.9 ∧ (0.9 : ℝ) < 1 := by norm_num

/-! ## C32 -/

variable {α P S K F : Type}

/-- The counter of trainable parameter `j` after training steps that raise it by `κ` each. -/
theorem steps_counter {c : Cfg α P S K F} {κ : Nat} (hu : ∀ d a, (c.update d a).epoch = a.epoch + κ) {epoch : Nat}
    {bs : List (Data α)} {i i' : Inner P S K} (hl : c.flags.length = i.adam.length) (h : Steps c epoch bs i i') {j : Nat}
    (hj : c.flags[j]? = some true) :
    (i'.adam[j]?).map (·.epoch) = (i.adam[j]?).map fun a => a.epoch + κ * bs.length := by
  induction h with
  | nil i => simp
  | @cons b bs i i' adam ha _ ih =>
    obtain ⟨h1, h2⟩ := applyGrads_inv hl ha
    have hjl : j < i.adam.length := by rw [← hl]; exact (List.getElem?_eq_some_iff.1 hj).1
    have e : i.adam[j]? = some i.adam[j] := List.getElem?_eq_getElem hjl
    obtain ⟨d, -, hd⟩ := (h2 j _ e).2 hj
    rw [ih (by simp [h1, hl])]
    simp only [hd, e, Option.map_some, hu]
    congr 1
    simp [Nat.mul_add]; omega

/-- **C32 (partial)** What the counter of a trainable parameter does: if each update raises it by `κ` (0 for the real
optimiser, 1 for the complex one) then an epoch with `nb` training steps raises it by `κ nb + 1`. Missing: the step count
is not the same in both variants, see `C32_counter_refuted`. -/
theorem C32_counter_partial (c : Cfg α P S K F) (κ : Nat) (hu : ∀ d a, (c.update d a).epoch = a.epoch + κ)
    (s s' : TState P S K F) (hl : c.flags.length = s.inner.adam.length) (h : epochBody c s = .ok s') (j : Nat)
    (hj : c.flags[j]? = some true) :
    ∃ bs, batches (c.train.shuffle c.perm c.splitN (c.split s.batchRng).2) c.batchSize = .ok bs ∧
      (s'.inner.adam[j]?).map (·.epoch) = (s.inner.adam[j]?).map fun a => a.epoch + κ * bs.length + 1 := by
  simp only [epochBody, bind, Except.bind] at h
  split at h
  · cases h
  · rename_i r hr
    obtain ⟨k, snap⟩ := r
    obtain ⟨bs, hb, hst, -⟩ := epochTrain_inv hr
    refine ⟨bs, hb, ?_⟩
    obtain ⟨h1, h2⟩ := epochFinish_inv h
    simp only at h1
    have hc := steps_counter hu hl hst hj
    have hlen := (steps_frozen hl hst).1
    have hjl : j < s.inner.adam.length := by rw [← hl]; exact (List.getElem?_eq_some_iff.1 hj).1
    have e : snap.inner.adam[j]? = some (snap.inner.adam[j]'(by omega)) := List.getElem?_eq_getElem (by omega)
    have hp : (c.callback k s.epoch (snap.inner.adam.map (·.params))).2[j]? =
        some ((c.callback k s.epoch (snap.inner.adam.map (·.params))).2[j]'(by omega)) := List.getElem?_eq_getElem (by omega)
    rw [h2]
    simp only [List.getElem?_zipWith, hj, hp, e, Option.map_some]
    have e' : s.inner.adam[j]? = some s.inner.adam[j] := List.getElem?_eq_getElem hjl
    rw [e, e'] at hc
    rw [e']
    simp only [Option.map_some, Option.some.injEq] at hc ⊢
    simp [hc]

/-- The increments of the two optimisers, and of real arrays inside the complex one. -/
theorem C32_increments (lr : Nat → ℝ) (b1 b2 eps clip : ℝ) :
    (∀ (d : ι → ℝ) a, (update lr b1 b2 eps clip d a).epoch = a.epoch + 0) ∧
    (∀ (d : ι → ℂ) a, (updateC lr b1 b2 eps clip d a).epoch = a.epoch + 1) ∧
    (∀ (d : ι → ℝ) a, (updateRinC lr b1 b2 eps clip d a).epoch = a.epoch + 1) :=
  ⟨fun _ _ => rfl, fun _ _ => rfl, fun _ _ => rfl⟩

/-- **C32, refuted**: one and the same real gradient history of `n > 0` updates advances the counter, and with it the bias
correction, differently in the two optimisers, although everything else in the first update agrees. -/
theorem C32_counter_refuted (lr : Nat → ℝ) (b1 b2 eps clip : ℝ) (gs : List (ι → ℝ)) (hgs : gs ≠ []) (x0 : ι → ℝ) :
    (updates (update lr b1 b2 eps clip) gs (Adam.init x0)).epoch ≠
      (updates (updateRinC lr b1 b2 eps clip) gs (Adam.init x0)).epoch := by
  have h1 : ∀ (gs : List (ι → ℝ)) s, (updates (update lr b1 b2 eps clip) gs s).epoch = s.epoch := by
    intro gs
    induction gs with
    | nil => intro s; rfl
    | cons g gs ih => intro s; simp only [updates, List.foldl_cons] at ih ⊢; rw [ih]; rfl
  have h2 : ∀ (gs : List (ι → ℝ)) s, (updates (updateRinC lr b1 b2 eps clip) gs s).epoch = s.epoch + gs.length := by
    intro gs
    induction gs with
    | nil => intro s; rfl
    | cons g gs ih =>
      intro s; simp only [updates, List.foldl_cons] at ih ⊢; rw [ih]; simp only [updateRinC, List.length_cons]; omega
  rw [h1, h2]
  have := List.length_pos_of_ne_nil hgs
  omega

/-- Two updates: counter 0 in the real optimiser, 2 in the complex one. -/
example : (updates (update (fun _ => 1) 0.9 0.999 1 1) [fun _ : Unit => 1, fun _ => 2] (Adam.init fun _ => 0)).epoch = 0 ∧
    (updates (updateRinC (fun _ => 1) 0.9 0.999 1 1) [fun _ : Unit => 1, fun _ => 2] (Adam.init fun _ => 0)).epoch = 2 :=
  ⟨rfl, rfl⟩

end Verif.Props
