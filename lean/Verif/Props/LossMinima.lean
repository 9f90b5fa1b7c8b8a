import Verif.Props.Loss
import Mathlib.Analysis.Convex.Jensen
import Mathlib.Analysis.Convex.Mul
import Mathlib.Analysis.Normed.Module.Convex
import Mathlib.Analysis.InnerProductSpace.Basic
import Mathlib.Analysis.SpecialFunctions.Pow.Real

/-! # C131: what the losses ask for -/

namespace Verif.Props
open Verif.Batch Verif.Loss

variable {𝕜 : Type} [RCLike 𝕜] {ι : Type} [Fintype ι]

/-- The losses whose divisor does not contain the prediction. -/
def FixedScale : Kind → Prop
  | .mrd => False
  | .mrdUnc => False
  | _ => True

theorem sqrt_average (w : ι → ℝ) (hw : ∀ i, 0 ≤ w i) (h1 : ∑ i, w i = 1) (t : ι → ℝ) :
    √(1 + (∑ i, w i * t i) ^ 2) ≤ ∑ i, w i * √(1 + t i ^ 2) := by
  set s := ∑ i, w i * t i with hs
  have h0 : 0 < √(1 + s ^ 2) := Real.sqrt_pos.2 (by positivity)
  have hc : ∀ i, 1 + t i * s ≤ √(1 + t i ^ 2) * √(1 + s ^ 2) := fun i => by
    rw [← Real.sqrt_mul (by positivity)]
    refine Real.le_sqrt_of_sq_le ?_
    nlinarith [sq_nonneg (t i - s)]
  have h2 : 1 + s ^ 2 ≤ (∑ i, w i * √(1 + t i ^ 2)) * √(1 + s ^ 2) := by
    calc 1 + s ^ 2 = ∑ i, w i * (1 + t i * s) := by
          simp only [mul_add, mul_one, Finset.sum_add_distrib, h1, ← mul_assoc, ← Finset.sum_mul, ← hs]
          ring
      _ ≤ ∑ i, w i * (√(1 + t i ^ 2) * √(1 + s ^ 2)) := Finset.sum_le_sum fun i _ => mul_le_mul_of_nonneg_left (hc i) (hw i)
      _ = _ := by simp only [← mul_assoc, Finset.sum_mul]
  have h3 : √(1 + s ^ 2) * √(1 + s ^ 2) = 1 + s ^ 2 := Real.mul_self_sqrt (by positivity)
  exact le_of_mul_le_mul_right (h3.le.trans h2) h0

/-- The error of an average is at most the average of the errors. -/
theorem entry_average {k : Kind} (hk : FixedScale k) (y u : 𝕜) (w : ι → ℝ) (hw : ∀ i, 0 ≤ w i) (h1 : ∑ i, w i = 1) (p : ι → 𝕜) (v : ι → ℝ)
    (hv : ∀ i, entryErr k (p i, y, u) = some (v i)) : ∃ e, entryErr k (∑ i, (w i : 𝕜) * p i, y, u) = some e ∧ e ≤ ∑ i, w i * v i := by
  have hne : Nonempty ι := by
    by_contra h
    rw [not_nonempty_iff] at h
    simp at h1
  have hdiff : (∑ i, (w i : 𝕜) * p i) - y = ∑ i, (w i : 𝕜) * (p i - y) := by
    simp only [mul_sub, Finset.sum_sub_distrib, ← Finset.sum_mul]
    rw [← RCLike.ofReal_sum, h1]
    simp
  have hnorm : ∀ d : 𝕜, ‖(∑ i, (w i : 𝕜) * (p i - y)) / d‖ ≤ ∑ i, w i * ‖(p i - y) / d‖ := fun d => by
    rw [Finset.sum_div]
    refine (norm_sum_le _ _).trans (le_of_eq (Finset.sum_congr rfl fun i _ => ?_))
    rw [mul_div_assoc, norm_mul, RCLike.norm_ofReal, abs_of_nonneg (hw i)]
  have hsq : ∀ d : 𝕜, ‖(∑ i, (w i : 𝕜) * (p i - y)) / d‖ ^ 2 ≤ ∑ i, w i * ‖(p i - y) / d‖ ^ 2 := fun d => by
    refine (pow_le_pow_left₀ (norm_nonneg _) (hnorm d) 2).trans ?_
    have := (convexOn_pow (𝕜 := ℝ) 2).map_sum_le (t := Finset.univ) (w := w) (p := fun i => ‖(p i - y) / d‖) (fun i _ => hw i) h1 (fun i _ => norm_nonneg _)
    simpa only [smul_eq_mul] using this
  have hdv : ∀ i, divisor k (p i, y, u) ≠ 0 := fun i h => by
    have := hv i
    rw [entryErr_none k _ h] at this
    cases this
  obtain ⟨i0⟩ := hne
  have h0 := hdv i0
  cases k with
  | mrd => exact hk.elim
  | mrdUnc => exact hk.elim
  | mse =>
    refine ⟨_, rfl, ?_⟩
    have hv' : ∀ i, v i = ‖p i - y‖ ^ 2 := fun i => (Option.some.inj (hv i)).symm
    simp only [hv', hdiff]
    simpa using hsq 1
  | mae =>
    refine ⟨_, rfl, ?_⟩
    have hv' : ∀ i, v i = ‖p i - y‖ := fun i => (Option.some.inj (hv i)).symm
    simp only [hv', hdiff]
    simpa using hnorm 1
  | huber δ =>
    have hd : ((δ : ℝ) : 𝕜) ≠ 0 := h0
    have hv' : ∀ i, v i = δ ^ 2 * (√(1 + ‖(p i - y) / ((δ : ℝ) : 𝕜)‖ ^ 2) - 1) := fun i => by
      have := hv i
      simp only [entryErr, fdiv_ne hd, Option.map_some, Option.some.injEq] at this
      exact this.symm
    refine ⟨_, by simp only [entryErr, fdiv_ne hd]; rfl, ?_⟩
    simp only [hv', hdiff]
    have e1 : ∑ i, w i * (δ ^ 2 * (√(1 + ‖(p i - y) / ((δ : ℝ) : 𝕜)‖ ^ 2) - 1)) = δ ^ 2 * (∑ i, w i * √(1 + ‖(p i - y) / ((δ : ℝ) : 𝕜)‖ ^ 2) - 1) := by
      have : ∀ i, w i * (δ ^ 2 * (√(1 + ‖(p i - y) / ((δ : ℝ) : 𝕜)‖ ^ 2) - 1)) = δ ^ 2 * (w i * √(1 + ‖(p i - y) / ((δ : ℝ) : 𝕜)‖ ^ 2)) - δ ^ 2 * w i := fun i => by ring
      simp only [this, Finset.sum_sub_distrib, ← Finset.mul_sum, h1]
      ring
    rw [e1]
    refine mul_le_mul_of_nonneg_left (sub_le_sub_right (le_trans ?_ (sqrt_average w hw h1 _)) _) (sq_nonneg _)
    exact Real.sqrt_le_sqrt (add_le_add_right (pow_le_pow_left₀ (norm_nonneg _) (hnorm _) 2) _)
  | mseUnc =>
    have hd : u ≠ 0 := h0
    have hv' : ∀ i, v i = ‖(p i - y) / u‖ ^ 2 := fun i => by
      have := hv i
      simp only [entryErr, fdiv_ne hd, Option.map_some, Option.some.injEq] at this
      exact this.symm
    refine ⟨_, by simp only [entryErr, fdiv_ne hd]; rfl, ?_⟩
    simp only [hv', hdiff]
    exact hsq u
  | maeUnc =>
    have hd : u ≠ 0 := h0
    have hv' : ∀ i, v i = ‖(p i - y) / u‖ := fun i => by
      have := hv i
      simp only [entryErr, fdiv_ne hd, Option.map_some, Option.some.injEq] at this
      exact this.symm
    refine ⟨_, by simp only [entryErr, fdiv_ne hd]; rfl, ?_⟩
    simp only [hv', hdiff]
    exact hnorm u
  | mre =>
    have hd : y + tiny ≠ 0 := h0
    have hv' : ∀ i, v i = ‖(p i - y) / (y + tiny)‖ := fun i => by
      have := hv i
      simp only [entryErr, fdiv_ne hd, Option.map_some, Option.some.injEq] at this
      exact this.symm
    refine ⟨_, by simp only [entryErr, fdiv_ne hd]; rfl, ?_⟩
    simp only [hv', hdiff]
    exact hnorm _
  | mreUnc =>
    have hd : (y + tiny) * u ≠ 0 := h0
    have hv' : ∀ i, v i = ‖(p i - y) / ((y + tiny) * u)‖ := fun i => by
      have := hv i
      simp only [entryErr, fdiv_ne hd, Option.map_some, Option.some.injEq] at this
      exact this.symm
    refine ⟨_, by simp only [entryErr, fdiv_ne hd]; rfl, ?_⟩
    simp only [hv', hdiff]
    exact hnorm _

/-- The predictions of several models, the targets and the uncertainties, entry by entry: those of one model. -/
def ofModel (i : ι) (T : Leaves ((ι → 𝕜) × 𝕜 × 𝕜)) : Leaves (𝕜 × 𝕜 × 𝕜) := map1 (fun t => (t.1 i, t.2)) T

/-- And those of the weighted average of the models. -/
def ofAverage (w : ι → ℝ) (T : Leaves ((ι → 𝕜) × 𝕜 × 𝕜)) : Leaves (𝕜 × 𝕜 × 𝕜) := map1 (fun t => (∑ i, (w i : 𝕜) * t.1 i, t.2)) T

theorem flatten_map1 {A B : Type} (f : A → B) (T : Leaves A) : (map1 f T).flatten = T.flatten.map f := by
  simp [map1, List.map_flatten]

/-- **C131** An average of models is never worse than the models on average: for all losses but the relative differences, the loss of the averaged predictions is at most the average of the losses. -/
theorem C131_average (k : Kind) (hk : FixedScale k) (T : Leaves ((ι → 𝕜) × 𝕜 × 𝕜)) (hT : ∀ δ, k = .huber δ → T.length = 1) (w : ι → ℝ) (hw : ∀ i, 0 ≤ w i)
    (h1 : ∑ i, w i = 1) (r : ι → ℝ) (hr : ∀ i, loss k (preds (ofModel i T)) (targets (ofModel i T)) (uncs (ofModel i T)) = .ok (some (r i))) :
    ∃ e, loss k (preds (ofAverage w T)) (targets (ofAverage w T)) (uncs (ofAverage w T)) = .ok (some e) ∧ e ≤ ∑ i, w i * r i := by
  unfold preds targets uncs at hr ⊢
  have hlen : ∀ {B : Type} (f : (ι → 𝕜) × 𝕜 × 𝕜 → B), (map1 f T).length = T.length := fun f => by simp [map1]
  have hr' : ∀ i, T.flatten ≠ [] ∧ ∃ g : (𝕜 × 𝕜 × 𝕜) → ℝ, (∀ t ∈ T.flatten, entryErr k (t.1 i, t.2) = some (g (t.1 i, t.2))) ∧
      r i = (T.flatten.map fun t => g (t.1 i, t.2)).sum / T.flatten.length := fun i => by
    have := hr i
    rw [loss_eq k _ (fun δ h => by rw [ofModel, hlen]; exact hT δ h)] at this
    obtain ⟨a, g, hg, e⟩ := (mean_iff _ _ _).1 (Except.ok.inj this)
    rw [ofModel, flatten_map1] at a hg e
    refine ⟨by simpa using a, g, fun t ht => hg _ (List.mem_map_of_mem ht), ?_⟩
    rw [e, List.map_map, List.length_map]
    rfl
  have hne : Nonempty ι := by
    by_contra h
    rw [not_nonempty_iff] at h
    simp at h1
  obtain ⟨i0⟩ := hne
  have hT0 := (hr' i0).1
  choose g hg hrg using fun i => (hr' i).2
  have hex : ∀ t ∈ T.flatten, ∃ e, entryErr k (∑ i, (w i : 𝕜) * t.1 i, t.2) = some e ∧ e ≤ ∑ i, w i * g i (t.1 i, t.2) := fun t ht =>
    entry_average hk t.2.1 t.2.2 w hw h1 t.1 _ fun i => hg i t ht
  have hex' : ∀ t, ∃ e, t ∈ T.flatten → entryErr k (∑ i, (w i : 𝕜) * t.1 i, t.2) = some e ∧ e ≤ ∑ i, w i * g i (t.1 i, t.2) := fun t => by
    by_cases ht : t ∈ T.flatten
    · obtain ⟨e, he⟩ := hex t ht
      exact ⟨e, fun _ => he⟩
    · exact ⟨0, fun h => absurd h ht⟩
  choose f hf using hex'
  refine ⟨(T.flatten.map f).sum / T.flatten.length, ?_, ?_⟩
  · rw [loss_eq k _ (fun δ h => by rw [ofAverage, hlen]; exact hT δ h)]
    have : map1 (entryErr k) (ofAverage w T) = map1 (fun t => entryErr k (∑ i, (w i : 𝕜) * t.1 i, t.2)) T := by
      simp [ofAverage, map1]
    rw [this]
    exact congrArg Except.ok ((mean_iff T _ _).2 ⟨hT0, f, fun t ht => (hf t ht).1, rfl⟩)
  · have hs : (T.flatten.map f).sum ≤ (T.flatten.map fun t => ∑ i, w i * g i (t.1 i, t.2)).sum :=
      List.sum_le_sum fun t ht => (hf t ht).2
    have hswap : (T.flatten.map fun t => ∑ i, w i * g i (t.1 i, t.2)).sum = ∑ i, w i * (T.flatten.map fun t => g i (t.1 i, t.2)).sum := by
      generalize T.flatten = L
      induction L with
      | nil => simp
      | cons a L ih => simp only [List.map_cons, List.sum_cons, ih, mul_add, Finset.sum_add_distrib]
    rw [hswap] at hs
    have : ∑ i, w i * r i = (∑ i, w i * (T.flatten.map fun t => g i (t.1 i, t.2)).sum) / T.flatten.length := by
      rw [Finset.sum_div]
      exact Finset.sum_congr rfl fun i _ => by rw [hrg i, mul_div_assoc]
    rw [this]
    exact div_le_div_of_nonneg_right hs (Nat.cast_nonneg _)

/-- **C131** Not so the mean relative difference: the average of an exact model and one with a loss of at most 2 has a loss of at least 10000. -/
theorem C131_mrd_average : ∃ (T : Leaves ((Fin 2 → ℝ) × ℝ × ℝ)) (r : Fin 2 → ℝ) (e : ℝ),
    (∀ i, loss .mrd (preds (ofModel i T)) (targets (ofModel i T)) (uncs (ofModel i T)) = .ok (some (r i))) ∧
    loss .mrd (preds (ofAverage (fun _ => 1 / 2) T)) (targets (ofAverage (fun _ => 1 / 2) T)) (uncs (ofAverage (fun _ => 1 / 2) T)) = .ok (some e) ∧
    r 0 = 0 ∧ r 1 ≤ 2 ∧ 10000 ≤ e := by
  have hval : ∀ p : ℝ, (1 + p) * 2 + 1e-4 ≠ 0 → loss .mrd (preds [[(p, (1 : ℝ), (1 : ℝ))]]) (targets [[(p, (1 : ℝ), (1 : ℝ))]]) (uncs [[(p, (1 : ℝ), (1 : ℝ))]]) =
      .ok (some (|(p - 1) / ((1 + p) * 2 + 1e-4)|)) := fun p hp => by
    unfold preds targets uncs
    rw [loss_eq _ _ (by simp)]
    refine congrArg Except.ok ((mean_iff _ _ _).2 ⟨by simp, fun t => |(t.1 - t.2.1) / ((t.2.1 + t.1) * 2 + 1e-4)|, fun t ht => ?_, by simp⟩)
    obtain rfl : t = (p, 1, 1) := by simpa using ht
    have hd : ((1 : ℝ) + p) * 2 + (tiny : ℝ) ≠ 0 := by simpa [tiny] using hp
    simp only [entryErr, fdiv_ne hd, Option.map_some, Real.norm_eq_abs]
    simp [tiny]
  refine ⟨[[(![1, -3], 1, 1)]], ![|(1 - 1) / ((1 + 1) * 2 + 1e-4)|, |(-3 - 1) / ((1 + -3) * 2 + 1e-4)|], |(-1 - 1) / ((1 + -1) * 2 + 1e-4)|, ?_, ?_, ?_, ?_, ?_⟩
  · intro i
    fin_cases i
    · exact hval 1 (by norm_num)
    · exact hval (-3) (by norm_num)
  · have : ofAverage (fun _ => 1 / 2) [[((![1, -3] : Fin 2 → ℝ), (1 : ℝ), (1 : ℝ))]] = [[(-1, 1, 1)]] := by
      simp [ofAverage, map1, Fin.sum_univ_two]
      norm_num
    rw [this]
    exact hval (-1) (by norm_num)
  · simp
  · simp only [Matrix.cons_val_one, Matrix.cons_val_fin_one]
    rw [abs_le]
    constructor <;> norm_num
  · rw [le_abs]
    right
    norm_num

/-- The entries of a constant prediction for given targets and uncertainties. -/
def constantly (a : 𝕜) (T : Leaves (𝕜 × 𝕜)) : Leaves (𝕜 × 𝕜 × 𝕜) := map1 (fun t => (a, t)) T

theorem weighted_sum (L : List (𝕜 × 𝕜)) (m : 𝕜) (hm : (L.map fun t => ((‖t.2‖ ^ 2)⁻¹ : ℝ) • (m - t.1)).sum = 0) (a : 𝕜) :
    (L.map fun t => ‖(a - t.1) / t.2‖ ^ 2).sum = (L.map fun t => ‖(m - t.1) / t.2‖ ^ 2).sum + (L.map fun t => (‖t.2‖ ^ 2)⁻¹).sum * ‖a - m‖ ^ 2 := by
  have key : ∀ L : List (𝕜 × 𝕜), (L.map fun t => ‖(a - t.1) / t.2‖ ^ 2).sum =
      (L.map fun t => ‖(m - t.1) / t.2‖ ^ 2).sum + (L.map fun t => (‖t.2‖ ^ 2)⁻¹).sum * ‖a - m‖ ^ 2 +
        2 * RCLike.re (inner 𝕜 (a - m) (L.map fun t => ((‖t.2‖ ^ 2)⁻¹ : ℝ) • (m - t.1)).sum) := fun L => by
    induction L with
    | nil => simp
    | cons t L ih =>
      simp only [List.map_cons, List.sum_cons, ih, inner_add_right, map_add]
      have h1 : ‖a - t.1‖ ^ 2 = ‖a - m‖ ^ 2 + 2 * RCLike.re (inner 𝕜 (a - m) (m - t.1)) + ‖m - t.1‖ ^ 2 := by
        rw [← norm_add_sq, sub_add_sub_cancel]
      have h2 : RCLike.re (inner 𝕜 (a - m) (((‖t.2‖ ^ 2)⁻¹ : ℝ) • (m - t.1))) = (‖t.2‖ ^ 2)⁻¹ * RCLike.re (inner 𝕜 (a - m) (m - t.1)) := by
        rw [RCLike.real_smul_eq_coe_smul (K := 𝕜), inner_smul_right, RCLike.re_ofReal_mul]
      rw [h2, norm_div, norm_div, div_pow, div_pow, h1]
      ring
  rw [key L, hm]
  simp

/-- **C131** What squared errors ask for: among constant predictions, the loss with uncertainties is least at the mean of the targets weighted with the inverse squares of the uncertainties, and nowhere else; it grows with the squared
distance from there. -/
theorem C131_mean (T : Leaves (𝕜 × 𝕜)) (hne : T.flatten ≠ []) (hu : ∀ t ∈ T.flatten, t.2 ≠ 0) (m : 𝕜)
    (hm : ((T.flatten.map fun t => (‖t.2‖ ^ 2)⁻¹).sum : ℝ) • m = (T.flatten.map fun t => ((‖t.2‖ ^ 2)⁻¹ : ℝ) • t.1).sum) :
    ∃ r c : ℝ, 0 < c ∧ ∀ a : 𝕜, loss .mseUnc (preds (constantly a T)) (targets (constantly a T)) (uncs (constantly a T)) = .ok (some (r + c * ‖a - m‖ ^ 2)) := by
  have hm' : (T.flatten.map fun t => ((‖t.2‖ ^ 2)⁻¹ : ℝ) • (m - t.1)).sum = 0 := by
    have : ∀ L : List (𝕜 × 𝕜), (L.map fun t => ((‖t.2‖ ^ 2)⁻¹ : ℝ) • (m - t.1)).sum = ((L.map fun t => (‖t.2‖ ^ 2)⁻¹).sum : ℝ) • m - (L.map fun t => ((‖t.2‖ ^ 2)⁻¹ : ℝ) • t.1).sum := fun L => by
      induction L with
      | nil => simp
      | cons t L ih =>
        rw [List.map_cons, List.sum_cons, ih, List.map_cons, List.sum_cons, List.map_cons, List.sum_cons, smul_sub, add_smul]
        abel
    rw [this, hm, sub_self]
  refine ⟨(T.flatten.map fun t => ‖(m - t.1) / t.2‖ ^ 2).sum / T.flatten.length, (T.flatten.map fun t => (‖t.2‖ ^ 2)⁻¹).sum / T.flatten.length, ?_, fun a => ?_⟩
  · refine div_pos (List.sum_pos _ (fun x hx => ?_) (by simpa using hne)) (by exact_mod_cast List.length_pos_of_ne_nil hne)
    obtain ⟨t, ht, rfl⟩ := List.mem_map.1 hx
    have := norm_pos_iff.2 (hu t ht)
    positivity
  · have h := (C36_values (constantly a T) (by rw [constantly, flatten_map1]; simpa using hne)).2.2.1 (by
      rw [constantly, flatten_map1]
      intro t ht
      obtain ⟨t', ht', rfl⟩ := List.mem_map.1 ht
      exact hu t' ht')
    rw [h, constantly, flatten_map1, List.map_map, List.length_map]
    have := weighted_sum T.flatten m hm' a
    simp only [Function.comp_def]
    rw [this]
    congr 2
    ring

theorem median_gap (L : List ℝ) (a : ℝ) : ∃ ε > 0, (∀ y ∈ L, a < y → a + ε ≤ y) ∧ ∀ y ∈ L, y < a → y ≤ a - ε := by
  induction L with
  | nil => exact ⟨1, one_pos, by simp, by simp⟩
  | cons y L ih =>
    obtain ⟨ε, h0, h1, h2⟩ := ih
    rcases lt_trichotomy a y with h | h | h
    · refine ⟨min ε (y - a), lt_min h0 (by linarith), fun z hz hlt => ?_, fun z hz hlt => ?_⟩
      · rcases List.mem_cons.1 hz with rfl | hz
        · linarith [min_le_right ε (z - a)]
        · linarith [min_le_left ε (y - a), h1 z hz hlt]
      · rcases List.mem_cons.1 hz with rfl | hz
        · linarith
        · linarith [min_le_left ε (y - a), h2 z hz hlt]
    · subst h
      refine ⟨ε, h0, fun z hz hlt => ?_, fun z hz hlt => ?_⟩
      · rcases List.mem_cons.1 hz with rfl | hz
        · exact absurd hlt (lt_irrefl _)
        · exact h1 z hz hlt
      · rcases List.mem_cons.1 hz with rfl | hz
        · exact absurd hlt (lt_irrefl _)
        · exact h2 z hz hlt
    · refine ⟨min ε (a - y), lt_min h0 (by linarith), fun z hz hlt => ?_, fun z hz hlt => ?_⟩
      · rcases List.mem_cons.1 hz with rfl | hz
        · linarith
        · linarith [min_le_left ε (a - y), h1 z hz hlt]
      · rcases List.mem_cons.1 hz with rfl | hz
        · linarith [min_le_right ε (a - z)]
        · linarith [min_le_left ε (a - y), h2 z hz hlt]

/-- Moving to the right by `d` changes the sum of distances by at least `d` times the number of points not to the right minus that of points to the right; exactly by that if no point is passed. -/
theorem move_right (L : List ℝ) (a d : ℝ) (hd : 0 ≤ d) :
    (L.map fun y => |a - y|).sum + d * (L.length - 2 * L.countP (fun y => decide (a < y))) ≤ (L.map fun y => |a + d - y|).sum ∧
    ((∀ y ∈ L, a < y → a + d ≤ y) → (L.map fun y => |a + d - y|).sum = (L.map fun y => |a - y|).sum + d * (L.length - 2 * L.countP (fun y => decide (a < y)))) := by
  induction L with
  | nil => simp
  | cons y L ih =>
    obtain ⟨i1, i2⟩ := ih
    by_cases hy : a < y
    · have hc : (y :: L).countP (fun y => decide (a < y)) = L.countP (fun y => decide (a < y)) + 1 := List.countP_cons_of_pos (by simpa using hy)
      rw [hc]
      push_cast [List.map_cons, List.sum_cons, List.length_cons]
      have e1 : |a - y| = y - a := by rw [abs_of_neg] <;> linarith
      refine ⟨?_, fun h => ?_⟩
      · have := neg_abs_le (a + d - y)
        rw [e1]
        nlinarith
      · have h3 := h y List.mem_cons_self hy
        rw [i2 fun z hz => h z (List.mem_cons_of_mem _ hz), e1, abs_of_nonpos (by linarith)]
        ring
    · have hc : (y :: L).countP (fun y => decide (a < y)) = L.countP (fun y => decide (a < y)) := List.countP_cons_of_neg (by simpa using hy)
      rw [hc]
      push_cast [List.map_cons, List.sum_cons, List.length_cons]
      have e1 : |a - y| = a - y := abs_of_nonneg (by linarith)
      have e2 : |a + d - y| = a + d - y := abs_of_nonneg (by linarith)
      rw [e1, e2]
      refine ⟨by nlinarith, fun h => ?_⟩
      rw [i2 fun z hz => h z (List.mem_cons_of_mem _ hz)]
      ring

theorem flip_sum (L : List ℝ) (a : ℝ) : ((L.map fun y => -y).map fun y => |-a - y|).sum = (L.map fun y => |a - y|).sum := by
  rw [List.map_map]
  congr 1
  refine List.map_congr_left fun y _ => ?_
  simp only [Function.comp]
  rw [← abs_neg]
  congr 1
  ring

theorem flip_count (L : List ℝ) (a : ℝ) : (L.map fun y => -y).countP (fun y => decide (-a < y)) = L.countP (fun y => decide (y < a)) := by
  rw [List.countP_map]
  exact List.countP_congr fun y _ => by simp

theorem median_iff (L : List ℝ) (a : ℝ) : (∀ b, (L.map fun y => |a - y|).sum ≤ (L.map fun y => |b - y|).sum) ↔
    2 * L.countP (fun y => decide (a < y)) ≤ L.length ∧ 2 * L.countP (fun y => decide (y < a)) ≤ L.length := by
  have right : ∀ (L : List ℝ) (a : ℝ), (∀ b, a ≤ b → (L.map fun y => |a - y|).sum ≤ (L.map fun y => |b - y|).sum) ↔ 2 * L.countP (fun y => decide (a < y)) ≤ L.length := fun L a => by
    constructor
    · intro h
      by_contra hc
      push Not at hc
      obtain ⟨ε, h0, h1, -⟩ := median_gap L a
      have h2 := h (a + ε) (by linarith)
      rw [(move_right L a ε h0.le).2 h1] at h2
      have h3 : ((L.length : ℝ) - 2 * L.countP (fun y => decide (a < y))) < 0 := by
        have : (L.length : ℝ) < 2 * (L.countP (fun y => decide (a < y)) : ℝ) := by exact_mod_cast hc
        linarith
      nlinarith
    · intro h b hb
      have h2 := (move_right L a (b - a) (by linarith)).1
      rw [add_sub_cancel] at h2
      have h3 : (2 * (L.countP (fun y => decide (a < y)) : ℝ)) ≤ L.length := by exact_mod_cast h
      nlinarith
  rw [← right L a]
  have left := right (L.map fun y => -y) (-a)
  rw [flip_count, List.length_map] at left
  rw [← left]
  constructor
  · refine fun h => ⟨fun b _ => h b, fun b _ => ?_⟩
    have := h (-b)
    rw [flip_sum, ← flip_sum L (-b), neg_neg] at *
    exact this
  · rintro ⟨h1, h2⟩ b
    rcases le_total a b with hb | hb
    · exact h1 b hb
    · have := h2 (-b) (by linarith)
      rwa [flip_sum, flip_sum] at this

/-- **C131** What absolute errors ask for: a constant prediction has the least loss exactly if it is a median of the targets: at most half of them are larger and at most half are smaller. How far they are away does not matter. -/
theorem C131_median (T : Leaves (ℝ × ℝ)) (hne : T.flatten ≠ []) (a : ℝ) :
    (∀ b ra rb, loss .mae (preds (constantly a T)) (targets (constantly a T)) (uncs (constantly a T)) = .ok (some ra) →
      loss .mae (preds (constantly b T)) (targets (constantly b T)) (uncs (constantly b T)) = .ok (some rb) → ra ≤ rb) ↔
    2 * T.flatten.countP (fun t => decide (a < t.1)) ≤ T.flatten.length ∧ 2 * T.flatten.countP (fun t => decide (t.1 < a)) ≤ T.flatten.length := by
  have hv : ∀ b, loss .mae (preds (constantly b T)) (targets (constantly b T)) (uncs (constantly b T)) =
      .ok (some (((T.flatten.map (·.1)).map fun y => |b - y|).sum / T.flatten.length)) := fun b => by
    rw [(C36_values (constantly b T) (by rw [constantly, flatten_map1]; simpa using hne)).2.1, constantly, flatten_map1, List.map_map, List.map_map, List.length_map]
    rfl
  have hpos : (0 : ℝ) < T.flatten.length := by exact_mod_cast List.length_pos_of_ne_nil hne
  have hm := median_iff (T.flatten.map (·.1)) a
  rw [List.countP_map, List.countP_map, List.length_map] at hm
  refine Iff.trans ?_ hm
  simp only [hv, Except.ok.injEq, Option.some.injEq]
  constructor
  · intro h b
    exact (div_le_div_iff_of_pos_right hpos).1 (h b _ _ rfl rfl)
  · rintro h b ra rb rfl rfl
    exact (div_le_div_iff_of_pos_right hpos).2 (h b)

/-- The hypotheses hold: three targets, the last one far off. The mean is 34, a median is 1. -/
example : (([[((0 : ℝ), (1 : ℝ)), (1, 1), (101, 1)]].flatten.map fun t : ℝ × ℝ => (‖t.2‖ ^ 2)⁻¹).sum : ℝ) • (34 : ℝ) =
      ([[((0 : ℝ), (1 : ℝ)), (1, 1), (101, 1)]].flatten.map fun t => ((‖t.2‖ ^ 2)⁻¹ : ℝ) • t.1).sum ∧
    2 * [[((0 : ℝ), (1 : ℝ)), (1, 1), (101, 1)]].flatten.countP (fun t => decide (1 < t.1)) ≤ 3 ∧
    FixedScale .mse ∧ FixedScale (.huber 1) := by
  refine ⟨by norm_num, ?_, trivial, trivial⟩
  simp [List.countP_cons]

/-- And two models, whose average is exact. -/
example : loss .mse (preds (ofModel (0 : Fin 2) [[(![1, 3], (2 : ℝ), (1 : ℝ))]])) (targets (ofModel (0 : Fin 2) [[(![1, 3], (2 : ℝ), (1 : ℝ))]]))
    (uncs (ofModel (0 : Fin 2) [[(![1, 3], (2 : ℝ), (1 : ℝ))]])) = .ok (some 1) := by
  rw [(C36_values _ (by simp [ofModel, map1])).1]
  simp [ofModel, map1]
  norm_num

end Verif.Props
