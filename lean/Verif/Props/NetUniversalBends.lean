import Verif.Props.NetUniversalSig

/-! # C145: universal approximation with activations that bend once -/

namespace Verif.Props
open Prebuilt NetworkSpec Network

variable (draw : Nat → List Nat → ℝ) (drawB : List Nat → List Nat → ℝ)

/-- Two units of an activation with two slopes make a rectifier, up to a small error. -/
theorem two_slopes (φ : ℝ → ℝ) (p q C : ℝ) (hpq : p ≠ q) (hφ : ∀ v, |φ v - (p * max v 0 + q * min v 0)| ≤ C) (R t : ℝ) (ht : 0 < t) (v : ℝ) (hv : v ≤ R) :
    |(φ (t * v) / t - φ (t * (v - R)) / t - q * R) / (p - q) - max v 0| ≤ 2 * C / t / |p - q| := by
  have hd : p - q ≠ 0 := sub_ne_zero.2 hpq
  have h1 := hφ (t * v)
  have h2 := hφ (t * (v - R))
  have e1 : max (t * v) 0 = t * max v 0 := by rw [mul_max_of_nonneg _ _ ht.le, mul_zero]
  have e2 : min (t * v) 0 = t * min v 0 := by rw [mul_min_of_nonneg _ _ ht.le, mul_zero]
  have h3 : t * (v - R) ≤ 0 := mul_nonpos_of_nonneg_of_nonpos ht.le (by linarith)
  rw [e1, e2] at h1
  rw [max_eq_right h3, min_eq_left h3, mul_zero, zero_add] at h2
  have e3 : (φ (t * v) / t - φ (t * (v - R)) / t - q * R) / (p - q) - max v 0 =
      ((φ (t * v) - (p * (t * max v 0) + q * (t * min v 0))) - (φ (t * (v - R)) - q * (t * (v - R)))) / t / (p - q) := by
    have := max_add_min v 0
    have hm : min v 0 = v - max v 0 := by linarith
    rw [hm]
    field_simp
    ring
  rw [e3, abs_div, abs_div, abs_of_pos ht]
  refine div_le_div_of_nonneg_right (div_le_div_of_nonneg_right ?_ ht.le) (abs_nonneg _)
  have := abs_sub (φ (t * v) - (p * (t * max v 0) + q * (t * min v 0))) (φ (t * (v - R)) - q * (t * (v - R)))
  linarith

/-- **C145 (two slopes).** Networks with one hidden layer of an activation that stays within a fixed distance of a function with two different slopes, one for negative and one for positive numbers, approximate every continuous function on a compact set. -/
theorem C145_universal_slopes (φ : ℝ → ℝ) (p q C : ℝ) (hpq : p ≠ q) (hC : 0 ≤ C) (hφ : ∀ v, |φ v - (p * max v 0 + q * min v 0)| ≤ C)
    (f m : Nat) (K : Set (Fin f → ℝ)) (hK : IsCompact K) (g : Fin m → (Fin f → ℝ) → ℝ) (hg : ∀ r, ContinuousOn (g r) K) (ε : ℝ) (hε : 0 < ε) :
    ∃ L M : Layer, L.act = some φ ∧ M.out = m ∧ M.act = Option.none ∧
      ∀ x : Nat → ℝ, (fun j : Fin f => x j) ∈ K → ∃ y, predictNet draw drawB f [L, M] x = some y ∧ ∀ r : Fin m, |y r - g r fun j => x j| ≤ ε := by
  have hD : 0 < |p - q| := abs_pos.2 (sub_ne_zero.2 hpq)
  have unit : ∀ (w : Fin f → ℝ) (b δ : ℝ), 0 < δ → ∃ h, Units φ h ∧ ∀ z ∈ K, |h z - max (∑ j, w j * z j + b) 0| ≤ δ := fun w b δ hδ => by
    have hc : Continuous fun z : Fin f → ℝ => ∑ j, w j * z j + b := by fun_prop
    obtain ⟨R, hR⟩ := (hK.image hc).isBounded.exists_norm_le
    set t : ℝ := (2 * C + 1) / (δ * |p - q|) with htd
    have ht : 0 < t := by positivity
    refine ⟨_, units_of φ (ι := Fin 2) ![1 / t / (p - q), -(1 / t / (p - q))] (fun _ j => t * w j) ![t * b, t * (b - |R|)] (-(q * |R| / (p - q))), fun z hz => ?_⟩
    have h1 := hR _ (Set.mem_image_of_mem _ hz)
    rw [Real.norm_eq_abs] at h1
    have h2 := two_slopes φ p q C hpq hφ |R| t ht (∑ j, w j * z j + b) ((le_abs_self _).trans (h1.trans (le_abs_self R)))
    have e1 : ∑ j, t * w j * z j + t * b = t * (∑ j, w j * z j + b) := by
      rw [mul_add, Finset.mul_sum]
      simp only [mul_assoc]
    have e2 : ∑ j, t * w j * z j + t * (b - |R|) = t * (∑ j, w j * z j + b - |R|) := by
      rw [add_sub_assoc, mul_add, Finset.mul_sum]
      simp only [mul_assoc]
    have e3 : 2 * C / t / |p - q| ≤ δ := by
      rw [div_div, div_le_iff₀ (by positivity), htd]
      have : δ * ((2 * C + 1) / (δ * |p - q|) * |p - q|) = 2 * C + 1 := by field_simp
      linarith
    rw [Fin.sum_univ_two]
    simp only [Matrix.cons_val_zero, Matrix.cons_val_one]
    rw [e1, e2]
    refine le_trans (le_of_eq ?_) (h2.trans e3)
    congr 1
    ring
  have hu : ∀ r, ∃ h, Units φ h ∧ ∀ z ∈ K, |h z - g r z| ≤ ε := fun r => by
    obtain ⟨h, ⟨n, c, w, b, d, e⟩, hd⟩ := ramps_dense K hK (g r) (hg r) (ε / 2) (by linarith)
    set S := ∑ i, |c i| with hS
    have hS0 : 0 ≤ S := Finset.sum_nonneg fun i _ => abs_nonneg _
    have hδ : 0 < ε / 2 / (S + 1) := by positivity
    have hr := fun i => unit (w i) (b i) _ hδ
    choose k hk hke using hr
    obtain ⟨n', c', w', b', d', e'⟩ := units_sum φ c k hk
    refine ⟨fun z => d + ∑ i, c i * k i z, ⟨n', c', w', b', d + d', fun z => by rw [add_assoc, ← e' z]⟩, fun z hz => ?_⟩
    have h1 : |d + ∑ i, c i * k i z - h z| ≤ ε / 2 := by
      rw [e z, add_sub_add_left_eq_sub, ← Finset.sum_sub_distrib]
      refine (Finset.abs_sum_le_sum_abs _ _).trans ?_
      calc ∑ i, |c i * k i z - c i * max (∑ j, w i j * z j + b i) 0| ≤ ∑ i, |c i| * (ε / 2 / (S + 1)) := by
            refine Finset.sum_le_sum fun i _ => ?_
            rw [← mul_sub, abs_mul]
            exact mul_le_mul_of_nonneg_left (hke i z hz) (abs_nonneg _)
        _ = S * (ε / 2 / (S + 1)) := by rw [← Finset.sum_mul]
        _ ≤ (S + 1) * (ε / 2 / (S + 1)) := mul_le_mul_of_nonneg_right (by linarith) hδ.le
        _ = ε / 2 := mul_div_cancel₀ _ (by positivity)
    have h2 := hd z hz
    have := abs_sub_le (d + ∑ i, c i * k i z) (h z) (g r z)
    simp only
    linarith
  choose h hh hd using hu
  obtain ⟨L, M, h1, h2, h3, h4⟩ := units_net draw drawB φ h hh
  refine ⟨L, M, h1, h2, h3, fun x hx => ?_⟩
  obtain ⟨y, h5, h6⟩ := h4 x
  exact ⟨y, h5, fun r => by rw [h6 r]; exact hd r _ hx⟩

/-- The activations of the library with two slopes that are not close to a rectifier by `NearRectifier`. -/
def TwoSlopes : Act → Prop
  | .abs | .logSigmoid | .mish => True
  | .leakyRelu a => a ≠ 1
  | _ => False

theorem two_slopes_library (a : Act) (ha : TwoSlopes a) : ∃ p q C : ℝ, p ≠ q ∧ 0 ≤ C ∧ ∀ v, |a.fn v - (p * max v 0 + q * min v 0)| ≤ C := by
  cases a with
  | abs =>
    refine ⟨1, -1, 0, by norm_num, le_rfl, fun v => ?_⟩
    simp only [Act.fn]
    rcases le_total v 0 with h | h
    · rw [abs_of_nonpos h, max_eq_right h, min_eq_left h]; simp
    · rw [abs_of_nonneg h, max_eq_left h, min_eq_right h]; simp
  | leakyRelu a =>
    refine ⟨1, a, 0, fun h => ha h.symm, le_rfl, fun v => ?_⟩
    simp only [Act.fn]
    rcases lt_or_ge v 0 with h | h
    · rw [if_neg (not_le.2 h), max_eq_right h.le, min_eq_left h.le]; simp
    · rw [if_pos h, max_eq_left h, min_eq_right h]; simp
  | logSigmoid =>
    obtain ⟨s, C, hs, hC, h⟩ := near_rectifier .softplus trivial
    refine ⟨0, s, C, hs.symm, hC, fun v => ?_⟩
    have h1 := h (-v)
    have e : max (-v) 0 = -min v 0 := by rw [← max_neg_neg, neg_zero]
    simp only [Act.fn] at h1 ⊢
    rw [e] at h1
    rw [← abs_neg]
    refine le_trans (le_of_eq ?_) h1
    congr 1
    ring
  | mish =>
    refine ⟨1, 0, 1, one_ne_zero, one_pos.le, fun v => ?_⟩
    have h1 : -1 < Act.fn .mish v := C136_range .mish v
    simp only [Act.fn] at h1 ⊢
    rw [mish_eq] at h1 ⊢
    have p := Real.exp_pos v
    have hq : 0 < (1 + Real.exp v) ^ 2 + 1 := by positivity
    rcases le_total v 0 with h | h
    · have h2 : 2 / ((1 + Real.exp v) ^ 2 + 1) ≤ 1 := by rw [div_le_one hq]; nlinarith
      rw [max_eq_right h, abs_le]
      constructor <;> nlinarith
    · rw [max_eq_left h]
      have e : v * (1 - 2 / ((1 + Real.exp v) ^ 2 + 1)) - (1 * v + 0 * min v 0) = -(2 * v / ((1 + Real.exp v) ^ 2 + 1)) := by ring
      rw [e, abs_neg, abs_of_nonneg (by positivity), div_le_one hq]
      nlinarith [Real.add_one_le_exp v]
  | _ => exact ha.elim

/-- **C145 (two slopes, library).** The same for Abs, LogSigmoid, Mish and LeakyReLU with every slope other than one. -/
theorem C145_universal_bends (a : Act) (ha : TwoSlopes a) (f m : Nat) (K : Set (Fin f → ℝ)) (hK : IsCompact K) (g : Fin m → (Fin f → ℝ) → ℝ) (hg : ∀ r, ContinuousOn (g r) K) (ε : ℝ) (hε : 0 < ε) :
    ∃ L M : Layer, L.act = some a.fn ∧ M.out = m ∧ M.act = Option.none ∧
      ∀ x : Nat → ℝ, (fun j : Fin f => x j) ∈ K → ∃ y, predictNet draw drawB f [L, M] x = some y ∧ ∀ r : Fin m, |y r - g r fun j => x j| ≤ ε := by
  obtain ⟨p, q, C, h1, h2, h3⟩ := two_slopes_library a ha
  exact C145_universal_slopes draw drawB a.fn p q C h1 h2 h3 f m K hK g hg ε hε

/-- The product of two features on the unit square, with LeakyReLU. -/
example : ∃ L M : Layer, L.act = some (Act.fn (.leakyRelu 0.01)) ∧ M.out = 1 ∧ M.act = Option.none ∧
    ∀ x : Nat → ℝ, (fun j : Fin 2 => x j) ∈ Set.Icc (0 : Fin 2 → ℝ) 1 → ∃ y, predictNet draw drawB 2 [L, M] x = some y ∧ ∀ r : Fin 1, |y r - x 0 * x 1| ≤ 1 / 100 :=
  C145_universal_bends draw drawB (.leakyRelu 0.01) (show (0.01 : ℝ) ≠ 1 by norm_num) 2 1 (Set.Icc 0 1) isCompact_Icc (fun _ z => z 0 * z 1) (fun _ => by fun_prop) (1 / 100) (by norm_num)

end Verif.Props
