import Verif.Props.NetUniversal

/-! # C145: universal approximation with other activations than the rectifier -/

namespace Verif.Props
open Prebuilt NetworkSpec Network

variable (draw : Nat → List Nat → ℝ) (drawB : List Nat → List Nat → ℝ)

/-- The activations that differ from a multiple of the rectifier by a bounded function. -/
def NearRectifier : Act → Prop
  | .relu | .softplus | .silu | .hardSilu | .sparsePlus | .gelu | .elu _ | .selu => True
  | .celu a => 0 < a
  | .squarePlus b => 0 ≤ b
  | _ => False

theorem near_of_negative {φ : ℝ → ℝ} (hn : ∀ x, φ x - φ (-x) = x) {C : ℝ} (hC : ∀ x ≤ 0, |φ x| ≤ C) (x : ℝ) : |φ x - 1 * max x 0| ≤ C := by
  rw [one_mul]
  rcases le_total x 0 with h | h
  · rw [max_eq_right h, sub_zero]
    exact hC x h
  · rw [max_eq_left h, show φ x - x = φ (-x) by linarith [hn x]]
    exact hC (-x) (by linarith)

theorem near_rectifier (a : Act) (ha : NearRectifier a) : ∃ s C : ℝ, s ≠ 0 ∧ 0 ≤ C ∧ ∀ x, |a.fn x - s * max x 0| ≤ C := by
  have neg := fun x => (C136_negative x).1
  have exp1 : ∀ b x : ℝ, x ≤ 0 → |b * (Real.exp x - 1)| ≤ |b| := fun b x hx => by
    rw [abs_mul]
    refine mul_le_of_le_one_right (abs_nonneg b) ?_
    have h1 := Real.exp_pos x
    have h2 := Real.exp_le_one_iff.2 hx
    rw [abs_le]
    constructor <;> linarith
  have elu : ∀ b x : ℝ, |(if 0 < x then x else b * (Real.exp x - 1)) - 1 * max x 0| ≤ |b| := fun b x => by
    rw [one_mul]
    split
    · rename_i h
      rw [max_eq_left h.le, sub_self, abs_zero]
      exact abs_nonneg b
    · rename_i h
      rw [max_eq_right (by linarith), sub_zero]
      exact exp1 b x (by linarith)
  cases a with
  | relu => exact ⟨1, 0, one_ne_zero, le_rfl, fun x => by simp [Act.fn]⟩
  | softplus =>
    refine ⟨1, Act.fn .softplus 0, one_ne_zero, (C136_range .softplus 0).le, near_of_negative (fun x => neg x _ (by simp)) fun x hx => ?_⟩
    rw [abs_of_pos (C136_range .softplus x)]
    exact C136_monotone .softplus trivial hx
  | silu =>
    refine ⟨1, 1, one_ne_zero, zero_le_one, near_of_negative (fun x => neg x _ (by simp)) fun x hx => ?_⟩
    have h1 : -1 < Act.fn .silu x := C136_range .silu x
    have h2 : Act.fn .silu x ≤ 0 := mul_nonpos_of_nonpos_of_nonneg hx (C136_range .sigmoid x).1.le
    exact abs_le.2 ⟨h1.le, by linarith⟩
  | hardSilu =>
    refine ⟨1, 1, one_ne_zero, zero_le_one, near_of_negative (fun x => neg x _ (by simp)) fun x hx => ?_⟩
    have h1 : -(3 / 8) ≤ Act.fn .hardSilu x := C136_range .hardSilu x
    have h2 : Act.fn .hardSilu x ≤ 0 := mul_nonpos_of_nonpos_of_nonneg hx (C136_range .hardSigmoid x).1
    exact abs_le.2 ⟨by linarith, by linarith⟩
  | gelu =>
    refine ⟨1, 1, one_ne_zero, zero_le_one, near_of_negative (fun x => neg x _ (by simp)) fun x hx => ?_⟩
    have h1 : -1 < Act.fn .gelu x := C136_range .gelu x
    have h2 : Act.fn .gelu x ≤ 0 := by
      refine mul_nonpos_of_nonpos_of_nonneg hx ?_
      have h : -1 < Real.tanh (Real.sqrt (2 / Real.pi) * (x + 0.044715 * x ^ 3)) := (C136_range .tanh _).1
      linarith
    exact abs_le.2 ⟨h1.le, by linarith⟩
  | sparsePlus =>
    refine ⟨1, Act.fn .sparsePlus 0, one_ne_zero, C136_range .sparsePlus 0, near_of_negative (fun x => neg x _ (by simp)) fun x hx => ?_⟩
    rw [abs_of_nonneg (C136_range .sparsePlus x)]
    exact C136_monotone .sparsePlus trivial hx
  | squarePlus b =>
    have h0 : ∀ x, 0 ≤ Act.fn (.squarePlus b) x := fun x => by
      have hb : 0 ≤ b := ha
      have h1 : |x| ≤ Real.sqrt (x ^ 2 + b) := by
        rw [← Real.sqrt_sq_eq_abs]
        exact Real.sqrt_le_sqrt (by linarith)
      simp only [Act.fn]
      linarith [neg_abs_le x]
    refine ⟨1, Act.fn (.squarePlus b) 0, one_ne_zero, h0 0, near_of_negative (fun x => (C136_negative x).2.1 b) fun x hx => ?_⟩
    rw [abs_of_nonneg (h0 x)]
    exact C136_monotone (.squarePlus b) ha hx
  | elu b => exact ⟨1, |b|, one_ne_zero, abs_nonneg b, elu b⟩
  | celu b =>
    have hb : 0 < b := ha
    refine ⟨1, |b|, one_ne_zero, abs_nonneg b, fun x => ?_⟩
    simp only [Act.fn, one_mul]
    split
    · rename_i h
      rw [max_eq_left h.le, sub_self, abs_zero]
      exact abs_nonneg b
    · rename_i h
      rw [max_eq_right (by linarith), sub_zero]
      exact exp1 b _ (div_nonpos_of_nonpos_of_nonneg (by linarith) hb.le)
  | selu =>
    refine ⟨1.0507009873554804934193349852946, |1.0507009873554804934193349852946| * |1.6732632423543772848170429916717|, by norm_num, by positivity, fun x => ?_⟩
    simp only [Act.fn]
    rw [← mul_sub, abs_mul]
    have := elu 1.6732632423543772848170429916717 x
    rw [one_mul] at this
    exact mul_le_mul_of_nonneg_left this (abs_nonneg _)
  | _ => exact absurd ha (by simp [NearRectifier])

/-- **C145 (other activations).** The same holds for every activation that differs from a multiple of the rectifier by a bounded function. -/
theorem C145_universal_like (f m : Nat) (K : Set (Fin f → ℝ)) (hK : IsCompact K) (g : Fin m → (Fin f → ℝ) → ℝ) (hg : ∀ r, ContinuousOn (g r) K) (ε : ℝ) (hε : 0 < ε)
    (φ : ℝ → ℝ) (s C : ℝ) (hs : s ≠ 0) (hC : 0 ≤ C) (hφ : ∀ x, |φ x - s * max x 0| ≤ C) :
    ∃ L M : Layer, L.act = some φ ∧ M.out = m ∧ M.act = Option.none ∧
      ∀ x : Nat → ℝ, (fun j : Fin f => x j) ∈ K → ∃ y, predictNet draw drawB f [L, M] x = some y ∧ ∀ r : Fin m, |y r - g r fun j => x j| ≤ ε := by
  obtain ⟨L, M, hL, ho, hM, h⟩ := C145_universal draw drawB f m K hK g hg (ε / 2) (by linarith)
  set S := ∑ r ∈ Finset.range m, ∑ k ∈ Finset.range L.out, |M.W r k| with hS
  have hS0 : 0 ≤ S := Finset.sum_nonneg fun _ _ => Finset.sum_nonneg fun _ _ => abs_nonneg _
  have hs0 : 0 < |s| := abs_pos.2 hs
  set t : ℝ := 2 * S * C / (|s| * ε) + 1 with ht
  have ht0 : 0 < t := by positivity
  have hsmall : S * (C / (t * |s|)) ≤ ε / 2 := by
    rw [mul_div_assoc', div_le_iff₀ (by positivity)]
    have h1 : 2 * S * C / (|s| * ε) * (|s| * ε) = 2 * S * C := div_mul_cancel₀ _ (by positivity)
    have h2 : 0 < |s| * ε := by positivity
    have h3 : t * (|s| * ε) = 2 * S * C + |s| * ε := by rw [ht, add_mul, h1, one_mul]
    linarith [h3, show ε / 2 * (t * |s|) = t * (|s| * ε) / 2 by ring]
  let L' : Layer := ⟨L.out, fun k j => t * L.W k j, some fun k => t * L.b.elim 0 (· k), some φ⟩
  let M' : Layer := ⟨M.out, fun r k => M.W r k / (t * s), M.b, Option.none⟩
  refine ⟨L', M', rfl, ho, rfl, fun x hx => ?_⟩
  obtain ⟨y, h1, h2⟩ := h x hx
  obtain ⟨y₀, h3, h4⟩ := predictNet_eq draw drawB f [L, M] x
  obtain ⟨y', h5, h6⟩ := predictNet_eq draw drawB f [L', M'] x
  rw [h1, Option.some.injEq] at h3
  refine ⟨y', h5, fun r => ?_⟩
  have hr : r.1 < M.out := by rw [ho]; exact r.2
  have e := h4 r.1 hr
  rw [← h3] at e
  have hstep : ∀ k, |L'.at f x k / (t * s) - L.at f x k| ≤ C / (t * |s|) := fun k => by
    set u := ∑ j ∈ Finset.range f, L.W k j * x j + L.b.elim 0 (· k) with hu
    have e1 : L.at f x k = max u 0 := by
      simp only [Layer.at, Layer.fn, hL, Option.getD_some, Act.fn, hu]
    have e2 : L'.at f x k = φ (t * u) := by
      simp only [L', Layer.at, Layer.fn, Option.getD_some, Option.elim_some, hu, mul_add, Finset.mul_sum, mul_assoc]
    have e3 : max (t * u) 0 = t * max u 0 := by rw [mul_max_of_nonneg _ _ ht0.le, mul_zero]
    have e4 : φ (t * u) / (t * s) - max u 0 = (φ (t * u) - s * max (t * u) 0) / (t * s) := by
      rw [e3]
      field_simp
    rw [e1, e2, e4, abs_div, abs_mul, abs_of_pos ht0]
    exact div_le_div_of_nonneg_right (hφ _) (by positivity)
  have hdiff : |y' r.1 - y r.1| ≤ ε / 2 := by
    rw [h6 r.1 hr, e]
    have e5 : net f [L', M'] x r.1 - net f [L, M] x r.1 = ∑ k ∈ Finset.range L.out, M.W r.1 k * (L'.at f x k / (t * s) - L.at f x k) := by
      simp only [net]
      have a1 : M'.at L'.out (L'.at f x) r.1 = ∑ k ∈ Finset.range L.out, M.W r.1 k / (t * s) * L'.at f x k + M.b.elim 0 (· r.1) := rfl
      have a2 : M.at L.out (L.at f x) r.1 = ∑ k ∈ Finset.range L.out, M.W r.1 k * L.at f x k + M.b.elim 0 (· r.1) := by
        simp only [Layer.at, Layer.fn, hM, Option.getD_none, id_eq]
      rw [a1, a2, add_sub_add_right_eq_sub, ← Finset.sum_sub_distrib]
      refine Finset.sum_congr rfl fun k _ => by ring
    rw [e5]
    refine (Finset.abs_sum_le_sum_abs _ _).trans (le_trans ?_ hsmall)
    calc ∑ k ∈ Finset.range L.out, |M.W r.1 k * (L'.at f x k / (t * s) - L.at f x k)| ≤ ∑ k ∈ Finset.range L.out, |M.W r.1 k| * (C / (t * |s|)) := by
          refine Finset.sum_le_sum fun k _ => ?_
          rw [abs_mul]
          exact mul_le_mul_of_nonneg_left (hstep k) (abs_nonneg _)
      _ = (∑ k ∈ Finset.range L.out, |M.W r.1 k|) * (C / (t * |s|)) := by rw [Finset.sum_mul]
      _ ≤ S * (C / (t * |s|)) := by
          refine mul_le_mul_of_nonneg_right ?_ (by positivity)
          exact Finset.single_le_sum (f := fun r => ∑ k ∈ Finset.range L.out, |M.W r k|) (fun _ _ => Finset.sum_nonneg fun _ _ => abs_nonneg _) (Finset.mem_range.2 r.2)
  have := abs_sub_le (y' r.1) (y r.1) (g r fun j => x j)
  linarith [h2 r]

/-- **C145 (the library's activations).** So it holds for ReLU, Softplus, SiLU, HardSiLU, GELU, SparsePlus, SquarePlus, ELU, CELU and SELU. -/
theorem C145_universal_library (a : Act) (ha : NearRectifier a) (f m : Nat) (K : Set (Fin f → ℝ)) (hK : IsCompact K) (g : Fin m → (Fin f → ℝ) → ℝ) (hg : ∀ r, ContinuousOn (g r) K) (ε : ℝ) (hε : 0 < ε) :
    ∃ L M : Layer, L.act = some a.fn ∧ M.out = m ∧ M.act = Option.none ∧
      ∀ x : Nat → ℝ, (fun j : Fin f => x j) ∈ K → ∃ y, predictNet draw drawB f [L, M] x = some y ∧ ∀ r : Fin m, |y r - g r fun j => x j| ≤ ε := by
  obtain ⟨s, C, hs, hC, h⟩ := near_rectifier a ha
  exact C145_universal_like draw drawB f m K hK g hg ε hε a.fn s C hs hC h

/-- The product of two features on the unit square, with SiLU. -/
example : ∃ L M : Layer, L.act = some (Act.fn .silu) ∧ M.out = 1 ∧ M.act = Option.none ∧
    ∀ x : Nat → ℝ, (fun j : Fin 2 => x j) ∈ Set.Icc (0 : Fin 2 → ℝ) 1 → ∃ y, predictNet draw drawB 2 [L, M] x = some y ∧ ∀ r : Fin 1, |y r - x 0 * x 1| ≤ 1 / 100 :=
  C145_universal_library draw drawB .silu trivial 2 1 (Set.Icc 0 1) isCompact_Icc (fun _ z => z 0 * z 1) (fun _ => by fun_prop) (1 / 100) (by norm_num)

end Verif.Props
