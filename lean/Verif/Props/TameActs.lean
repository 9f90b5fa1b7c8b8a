import Verif.Props.NetStability
import Verif.Props.Activations

/-! # C142: the activations for which predictions change little -/

namespace Verif.Props
open Prebuilt NetworkSpec Network

/-- All activations of the library but `Exp`, `Square` and those with arguments out of range. -/
def Tame : Act → Prop
  | .exp | .square => False
  | .celu a => 0 < a
  | .squarePlus b => 0 ≤ b
  | _ => True

theorem lip_of_bound {g g' : ℝ → ℝ} {k : ℝ} (h : ∀ x, HasDerivAt g (g' x) x) (hb : ∀ x, |g' x| ≤ k) (x y : ℝ) : |g x - g y| ≤ k * |x - y| := by
  have := Convex.norm_image_sub_le_of_norm_hasDerivWithin_le (f := g) (f' := g') (C := k) (s := Set.univ) (x := y) (y := x) (fun z _ => (h z).hasDerivWithinAt)
    (fun z _ => by rw [Real.norm_eq_abs]; exact hb z) convex_univ trivial trivial
  simpa using this

theorem abs_mul_exp_le (x : ℝ) : |x| * Real.exp x ≤ (1 + Real.exp x) ^ 2 := by
  have p := Real.exp_pos x
  rcases le_total 0 x with h | h
  · rw [abs_of_nonneg h]
    nlinarith [Real.add_one_le_exp x]
  · rw [abs_of_nonpos h]
    have h1 := Real.add_one_le_exp (-x)
    have h2 : Real.exp (-x) * Real.exp x = 1 := by rw [← Real.exp_add]; simp
    nlinarith

theorem silu_lip (u v : ℝ) : |Act.fn .silu u - Act.fn .silu v| ≤ 2 * |u - v| := by
  refine lip_of_bound (g := Act.fn .silu) (g' := fun x => 1 * (1 - 1 / (1 + Real.exp x)) + x * (Real.exp x / (1 + Real.exp x) ^ 2)) (fun x => ?_) (fun x => ?_) u v
  · have p := Real.exp_pos x
    have e : Act.fn .silu = fun x => x * (1 - 1 / (1 + Real.exp x)) := by
      funext y
      have := Real.exp_pos y
      simp only [Act.fn, AxisActivations.sigmoid, Real.exp_neg]
      field_simp
      ring
    rw [e]
    have hq : HasDerivAt (fun x => 1 - 1 / (1 + Real.exp x)) (Real.exp x / (1 + Real.exp x) ^ 2) x := by
      have h := ((((Real.hasDerivAt_exp x).const_add 1).inv (by positivity)).const_sub 1)
      simp only [one_div]
      exact h.congr_deriv (by ring)
    exact (hasDerivAt_id' x).mul hq
  · have p := Real.exp_pos x
    have h1 : |1 * (1 - 1 / (1 + Real.exp x))| ≤ 1 := by
      rw [one_mul, abs_le]
      have : 0 < 1 / (1 + Real.exp x) := by positivity
      have : 1 / (1 + Real.exp x) ≤ 1 := by rw [div_le_one (by positivity)]; linarith
      constructor <;> linarith
    have h2 : |x * (Real.exp x / (1 + Real.exp x) ^ 2)| ≤ 1 := by
      rw [abs_mul, abs_of_pos (show 0 < Real.exp x / (1 + Real.exp x) ^ 2 by positivity), ← mul_div_assoc, div_le_one (by positivity)]
      exact abs_mul_exp_le x
    exact (abs_add_le _ _).trans (by linarith)

theorem mish_lip (u v : ℝ) : |Act.fn .mish u - Act.fn .mish v| ≤ 5 * |u - v| := by
  refine lip_of_bound (g := Act.fn .mish) (g' := fun x => 1 * (1 - 2 / ((1 + Real.exp x) ^ 2 + 1)) + x * (4 * (1 + Real.exp x) * Real.exp x / ((1 + Real.exp x) ^ 2 + 1) ^ 2))
    (fun x => ?_) (fun x => ?_) u v
  · have p := Real.exp_pos x
    have e : Act.fn .mish = fun x => x * (1 - 2 / ((1 + Real.exp x) ^ 2 + 1)) := by
      funext y
      simp only [Act.fn, mish_eq]
    rw [e]
    have hq : HasDerivAt (fun x => 1 - 2 / ((1 + Real.exp x) ^ 2 + 1)) (4 * (1 + Real.exp x) * Real.exp x / ((1 + Real.exp x) ^ 2 + 1) ^ 2) x := by
      have h := ((((((Real.hasDerivAt_exp x).const_add 1).fun_pow 2).add_const 1).inv (by positivity)).const_mul 2).const_sub 1
      simp only [div_eq_mul_inv (2 : ℝ)]
      exact h.congr_deriv (by push_cast; ring)
    exact (hasDerivAt_id' x).mul hq
  · have p := Real.exp_pos x
    have h1 : |1 * (1 - 2 / ((1 + Real.exp x) ^ 2 + 1))| ≤ 1 := by
      rw [one_mul, abs_le]
      have : 0 < 2 / ((1 + Real.exp x) ^ 2 + 1) := by positivity
      have : 2 / ((1 + Real.exp x) ^ 2 + 1) ≤ 2 := div_le_self (by norm_num) (by nlinarith)
      constructor <;> linarith
    have h2 : |x * (4 * (1 + Real.exp x) * Real.exp x / ((1 + Real.exp x) ^ 2 + 1) ^ 2)| ≤ 4 := by
      rw [abs_mul, abs_of_pos (show 0 < 4 * (1 + Real.exp x) * Real.exp x / ((1 + Real.exp x) ^ 2 + 1) ^ 2 by positivity), ← mul_div_assoc, div_le_iff₀ (by positivity)]
      have h3 := abs_mul_exp_le x
      have h4 : |x| * Real.exp x * (1 + Real.exp x) ≤ (1 + Real.exp x) ^ 2 * (1 + Real.exp x) := mul_le_mul_of_nonneg_right h3 (by positivity)
      have h5 : (1 + Real.exp x) ^ 2 * (1 + Real.exp x) ≤ (1 + Real.exp x) ^ 2 * (1 + Real.exp x) ^ 2 := mul_le_mul_of_nonneg_left (by nlinarith) (by positivity)
      have h6 : (1 + Real.exp x) ^ 2 * (1 + Real.exp x) ^ 2 ≤ ((1 + Real.exp x) ^ 2 + 1) ^ 2 := by nlinarith [sq_nonneg (1 + Real.exp x)]
      nlinarith
    exact (abs_add_le _ _).trans (by linarith)

theorem hardSilu_lip (u v : ℝ) : |Act.fn .hardSilu u - Act.fn .hardSilu v| ≤ 5 / 2 * |u - v| := by
  have e : ∀ x : ℝ, Act.fn .hardSilu x = min (max x (-3)) 3 * (min (max x (-3)) 3 + 3) / 6 + max (x - 3) 0 := fun x => by
    simp only [Act.fn]
    rcases le_total x (-3) with h | h
    · rw [max_eq_right h, max_eq_right (show x + 3 ≤ 0 by linarith), max_eq_right (show x - 3 ≤ 0 by linarith), min_eq_left (by norm_num : (0 : ℝ) ≤ 6), min_eq_left (by norm_num : (-3 : ℝ) ≤ 3)]
      ring
    · rw [max_eq_left h, max_eq_left (show 0 ≤ x + 3 by linarith)]
      rcases le_total x 3 with h' | h'
      · rw [min_eq_left h', min_eq_left (show x + 3 ≤ 6 by linarith), max_eq_right (show x - 3 ≤ 0 by linarith)]
        ring
      · rw [min_eq_right h', min_eq_right (show 6 ≤ x + 3 by linarith), max_eq_left (show 0 ≤ x - 3 by linarith)]
        ring
  have hc := C136_lipschitz (.clip (-3) 3) trivial u v
  have hr := C136_lipschitz .relu trivial (u - 3) (v - 3)
  have b : ∀ x : ℝ, -3 ≤ min (max x (-3)) 3 ∧ min (max x (-3)) 3 ≤ 3 := fun x => ⟨le_min (le_max_right _ _) (by norm_num), min_le_right _ _⟩
  rw [e u, e v]
  simp only [Act.fn, sub_sub_sub_cancel_right] at hc hr
  generalize hP : min (max u (-3)) 3 = P at *
  generalize hQ : min (max v (-3)) 3 = Q at *
  have bP := hP ▸ b u
  have bQ := hQ ▸ b v
  have h1 : |P * (P + 3) / 6 - Q * (Q + 3) / 6| ≤ 3 / 2 * |P - Q| := by
    rw [show P * (P + 3) / 6 - Q * (Q + 3) / 6 = (P + Q + 3) / 6 * (P - Q) by ring, abs_mul]
    exact mul_le_mul_of_nonneg_right (abs_le.2 ⟨by linarith [bP.1, bQ.1], by linarith [bP.2, bQ.2]⟩) (abs_nonneg _)
  rw [add_sub_add_comm]
  exact (abs_add_le _ _).trans (by linarith)

theorem one_sub_tanh_sq (w : ℝ) : 1 - Real.tanh w ^ 2 = 1 / Real.cosh w ^ 2 := by
  have := (Real.cosh_pos w).ne'
  rw [Real.tanh_eq_sinh_div_cosh]
  field_simp
  linarith [Real.cosh_sq_sub_sinh_sq w]

theorem gelu_lip (u v : ℝ) : |Act.fn .gelu u - Act.fn .gelu v| ≤ 2 * |u - v| := by
  set c := Real.sqrt (2 / Real.pi) with hc
  have hc0 : 0 ≤ c := Real.sqrt_nonneg _
  refine lip_of_bound (g := Act.fn .gelu) (g' := fun x => 1 * ((1 + Real.tanh (c * (x + 0.044715 * x ^ 3))) / 2) +
    x * (((1 - Real.tanh (c * (x + 0.044715 * x ^ 3)) ^ 2) * (c * (1 + 0.044715 * (3 * x ^ 2)))) / 2)) (fun x => ?_) (fun x => ?_) u v
  · have h1 : HasDerivAt (fun x : ℝ => c * (x + 0.044715 * x ^ 3)) (c * (1 + 0.044715 * (3 * x ^ 2))) x := by
      have := (((hasDerivAt_id' x).add ((hasDerivAt_pow 3 x).const_mul 0.044715)).const_mul c)
      exact this.congr_deriv (by norm_num)
    have h2 := (((hasDerivAt_tanh (c * (x + 0.044715 * x ^ 3))).comp x h1).const_add 1).div_const 2
    exact (hasDerivAt_id' x).mul h2
  · have ht := C136_range .tanh (c * (x + 0.044715 * x ^ 3))
    simp only [Act.fn, actRange, Set.mem_Ioo] at ht
    have h1 : |1 * ((1 + Real.tanh (c * (x + 0.044715 * x ^ 3))) / 2)| ≤ 1 := by
      rw [abs_le]
      constructor <;> linarith [ht.1, ht.2]
    have h2 : |x * (((1 - Real.tanh (c * (x + 0.044715 * x ^ 3)) ^ 2) * (c * (1 + 0.044715 * (3 * x ^ 2)))) / 2)| ≤ 3 / 4 := by
      have hs := one_sub_tanh_sq (c * (x + 0.044715 * x ^ 3))
      have hcosh := Real.cosh_sq' (c * (x + 0.044715 * x ^ 3))
      have hsinh : |c * (x + 0.044715 * x ^ 3)| ≤ |Real.sinh (c * (x + 0.044715 * x ^ 3))| := by
        rw [Real.abs_sinh]
        exact Real.self_le_sinh_iff.2 (abs_nonneg _)
      have hw : |c * (x + 0.044715 * x ^ 3)| = c * (|x| * (1 + 0.044715 * x ^ 2)) := by
        rw [show c * (x + 0.044715 * x ^ 3) = c * (x * (1 + 0.044715 * x ^ 2)) by ring, abs_mul, abs_mul, abs_of_nonneg hc0, abs_of_pos (show 0 < 1 + 0.044715 * x ^ 2 by positivity)]
      have hq : 2 * |c * (x + 0.044715 * x ^ 3)| ≤ Real.cosh (c * (x + 0.044715 * x ^ 3)) ^ 2 := by
        rw [hcosh, ← sq_abs (Real.sinh _)]
        nlinarith [sq_nonneg (|Real.sinh (c * (x + 0.044715 * x ^ 3))| - 1)]
      have hC : 0 < Real.cosh (c * (x + 0.044715 * x ^ 3)) ^ 2 := pow_pos (Real.cosh_pos _) 2
      rw [hs, abs_mul, abs_of_nonneg (show 0 ≤ 1 / Real.cosh (c * (x + 0.044715 * x ^ 3)) ^ 2 * (c * (1 + 0.044715 * (3 * x ^ 2))) / 2 by positivity)]
      rw [hw] at hq
      have h3 : |x| * (c * (1 + 0.044715 * (3 * x ^ 2))) ≤ 3 * (c * (|x| * (1 + 0.044715 * x ^ 2))) := by
        nlinarith [mul_nonneg hc0 (abs_nonneg x)]
      rw [show |x| * (1 / Real.cosh (c * (x + 0.044715 * x ^ 3)) ^ 2 * (c * (1 + 0.044715 * (3 * x ^ 2))) / 2) =
        |x| * (c * (1 + 0.044715 * (3 * x ^ 2))) / (2 * Real.cosh (c * (x + 0.044715 * x ^ 3)) ^ 2) by field_simp, div_le_iff₀ (by positivity)]
      linarith
    exact (abs_add_le _ _).trans (by linarith)

/-- Adding a rectifier and a multiple of the difference of a gentle function and a rectifier. -/
theorem mix_lip {g h : ℝ → ℝ} (a : ℝ) (hh : ∀ u v, |h u - h v| ≤ |u - v|) (e : ∀ x, g x = max x 0 + a * (h x - max x 0)) (u v : ℝ) : |g u - g v| ≤ (1 + 2 * |a|) * |u - v| := by
  have h1 := C136_lipschitz .relu trivial u v
  simp only [Act.fn] at h1
  have h2 := hh u v
  rw [e u, e v, show max u 0 + a * (h u - max u 0) - (max v 0 + a * (h v - max v 0)) = (max u 0 - max v 0) + a * ((h u - h v) - (max u 0 - max v 0)) by ring]
  refine (abs_add_le _ _).trans ?_
  rw [abs_mul]
  have h3 : |(h u - h v) - (max u 0 - max v 0)| ≤ 2 * |u - v| := (abs_sub _ _).trans (by linarith)
  have h4 := mul_le_mul_of_nonneg_left h3 (abs_nonneg a)
  linarith

theorem leaky_lip (a u v : ℝ) : |Act.fn (.leakyRelu a) u - Act.fn (.leakyRelu a) v| ≤ (1 + 2 * |a|) * |u - v| :=
  mix_lip (h := id) a (fun _ _ => le_rfl) (fun x => by
    simp only [Act.fn, id]
    split_ifs with h
    · rw [max_eq_left h]; ring
    · rw [max_eq_right (not_le.1 h).le]; ring) u v

theorem elu_lip (a u v : ℝ) : |Act.fn (.elu a) u - Act.fn (.elu a) v| ≤ (1 + 2 * |a|) * |u - v| :=
  mix_lip (h := Act.fn (.elu 1)) a (C136_lipschitz (.elu 1) ⟨zero_le_one, le_rfl⟩) (fun x => by
    simp only [Act.fn]
    split_ifs with h
    · rw [max_eq_left h.le]; ring
    · rw [max_eq_right (not_lt.1 h)]; ring) u v

/-- **C142 (activations).** Every activation of the library is Lipschitz continuous, but for `Exp`, `Square` and those with arguments out of range; `Exp` and `Square` are not. -/
theorem C142_activations : (∀ a : Act, Tame a → ∃ k : ℝ, 0 ≤ k ∧ ∀ u v, |a.fn u - a.fn v| ≤ k * |u - v|) ∧
    ∀ a ∈ [Act.exp, .square], ¬ ∃ k : ℝ, 0 ≤ k ∧ ∀ u v, |a.fn u - a.fn v| ≤ k * |u - v| := by
  constructor
  · intro a ha
    have gentle : Gentle a → ∃ k : ℝ, 0 ≤ k ∧ ∀ u v, |a.fn u - a.fn v| ≤ k * |u - v| := fun h => ⟨1, zero_le_one, fun u v => by rw [one_mul]; exact C136_lipschitz a h u v⟩
    cases a with
    | exp => exact ha.elim
    | square => exact ha.elim
    | silu => exact ⟨2, by norm_num, silu_lip⟩
    | mish => exact ⟨5, by norm_num, mish_lip⟩
    | gelu => exact ⟨2, by norm_num, gelu_lip⟩
    | hardSilu => exact ⟨5 / 2, by norm_num, hardSilu_lip⟩
    | leakyRelu a => exact ⟨_, by positivity, leaky_lip a⟩
    | elu a => exact ⟨_, by positivity, elu_lip a⟩
    | selu =>
      refine ⟨1.0507009873554804934193349852946 * (1 + 2 * |1.6732632423543772848170429916717|), by positivity, fun u v => ?_⟩
      have h := elu_lip 1.6732632423543772848170429916717 u v
      have e : ∀ x, Act.fn .selu x = 1.0507009873554804934193349852946 * Act.fn (.elu 1.6732632423543772848170429916717) x := fun x => rfl
      rw [e u, e v, ← mul_sub, abs_mul, abs_of_pos (by norm_num : (0 : ℝ) < 1.0507009873554804934193349852946), mul_assoc]
      exact mul_le_mul_of_nonneg_left h (by norm_num)
    | celu a => exact gentle ha
    | squarePlus b => exact gentle ha
    | _ => exact gentle trivial
  · intro a ha
    rintro ⟨k, hk, h⟩
    simp only [List.mem_cons, List.not_mem_nil, or_false] at ha
    rcases ha with rfl | rfl
    · have h1 := h (2 * k + 2) 0
      simp only [Act.fn, Real.exp_zero, sub_zero] at h1
      have h2 := Real.quadratic_le_exp_of_nonneg (show 0 ≤ 2 * k + 2 by linarith)
      rw [abs_of_pos (by nlinarith), abs_of_pos (by linarith)] at h1
      nlinarith
    · have h1 := h (k + 1) 0
      simp only [Act.fn] at h1
      rw [abs_of_pos (by nlinarith), abs_of_pos (by linarith)] at h1
      nlinarith

/-- **C142 (library).** So the predictions of networks with these activations change little when parameters do. -/
theorem C142_library (draw : Nat → List Nat → ℝ) (drawB : List Nat → List Nat → ℝ) (f : Nat) (Ls : List Layer) (hL : ∀ L ∈ Ls, ∀ φ, L.act = some φ → ∃ a : Act, Tame a ∧ φ = a.fn) (R : ℝ) (hR : 0 ≤ R) :
    ∃ C ≥ 0, ∀ δ, 0 ≤ δ → δ ≤ 1 → ∀ Ls', CloseNet δ f Ls Ls' → ∀ x : Nat → ℝ, (∀ j < f, |x j| ≤ R) →
      ∃ y y', predictNet draw drawB f Ls x = some y ∧ predictNet draw drawB f Ls' x = some y' ∧ ∀ r < width f Ls, |y r - y' r| ≤ C * δ :=
  C142_parameters draw drawB f Ls (fun L h => by
    unfold LipLayer Layer.fn
    cases e : L.act with
    | none => exact ⟨1, zero_le_one, fun u v => by simp⟩
    | some φ =>
      obtain ⟨a, ha, rfl⟩ := hL L h φ e
      exact C142_activations.1 a ha) R hR

/-- A network with a SiLU, a Mish, a SELU and a plain layer. -/
example : ∀ L ∈ [(⟨3, fun _ _ => 1, Option.none, some (Act.fn .silu)⟩ : Layer), ⟨2, fun r j => r + j, some fun _ => 1, some (Act.fn .mish)⟩, ⟨2, fun _ _ => 1, Option.none, some (Act.fn .selu)⟩,
    ⟨1, fun _ _ => 1, Option.none, Option.none⟩], ∀ φ, L.act = some φ → ∃ a : Act, Tame a ∧ φ = a.fn := by
  intro L hL φ h
  simp only [List.mem_cons, List.not_mem_nil, or_false] at hL
  rcases hL with rfl | rfl | rfl | rfl <;> simp only [Option.some.injEq, reduceCtorEq] at h
  · exact ⟨.silu, trivial, h.symm⟩
  · exact ⟨.mish, trivial, h.symm⟩
  · exact ⟨.selu, trivial, h.symm⟩

end Verif.Props
