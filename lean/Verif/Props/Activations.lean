import Verif.Props.Network
import Mathlib.Analysis.Complex.ExponentialBounds
import Mathlib.Analysis.SpecialFunctions.Trigonometric.ArctanDeriv
import Mathlib.Analysis.SpecialFunctions.Trigonometric.DerivHyp

/-! # C136: what the elementwise activations do to numbers -/

namespace Verif.Props
open Network

theorem tanh_sigmoid (x : ℝ) : Real.tanh x = 2 * AxisActivations.sigmoid (2 * x) - 1 := by
  have p := Real.exp_pos (-x)
  have e : Real.exp (-(2 * x)) = Real.exp (-x) * Real.exp (-x) := by rw [← Real.exp_add]; congr 1; ring
  have e2 : Real.exp x = 1 / Real.exp (-x) := by rw [Real.exp_neg]; simp
  rw [Real.tanh_eq_sinh_div_cosh, Real.sinh_eq, Real.cosh_eq, AxisActivations.sigmoid, e, e2]
  field_simp
  ring

theorem sigmoid_mathlib (x : ℝ) : AxisActivations.sigmoid x = Real.sigmoid x := by
  rw [AxisActivations.sigmoid, Real.sigmoid, one_div]

theorem mish_eq (x : ℝ) : Real.tanh (Real.log (1 + Real.exp x)) = 1 - 2 / ((1 + Real.exp x) ^ 2 + 1) := by
  have p : 0 < 1 + Real.exp x := by positivity
  rw [Real.tanh_eq_sinh_div_cosh, Real.sinh_eq, Real.cosh_eq, Real.exp_neg, Real.exp_log p]
  field_simp
  ring

theorem gelu_eq (x : ℝ) : Act.fn .gelu x = x * AxisActivations.sigmoid (2 * (Real.sqrt (2 / Real.pi) * (x + 0.044715 * x ^ 3))) := by
  simp only [Act.fn, tanh_sigmoid]
  ring

theorem gelu_factor : 1 / 2 ≤ Real.sqrt (2 / Real.pi) := by
  refine Real.le_sqrt_of_sq_le ?_
  rw [le_div_iff₀ Real.pi_pos]
  linarith [Real.pi_le_four]

/-- `GELU` falls from -10 to -1. -/
theorem gelu_falls : Act.fn .gelu (-1) < Act.fn .gelu (-10) := by
  have h := gelu_factor
  simp only [gelu_eq, AxisActivations.sigmoid]
  generalize Real.sqrt (2 / Real.pi) = c at *
  rw [show -(2 * (c * (-1 + 0.044715 * (-1) ^ 3))) = 2.08943 * c by ring, show -(2 * (c * (-10 + 0.044715 * (-10) ^ 3))) = 2.08943 * c + 107.34057 * c by ring, Real.exp_add]
  have h1 := Real.add_one_le_exp (2.08943 * c)
  have h2 := Real.add_one_le_exp (107.34057 * c)
  have h3 : Real.exp (2.08943 * c) * 50 ≤ Real.exp (2.08943 * c) * Real.exp (107.34057 * c) := mul_le_mul_of_nonneg_left (by linarith) (Real.exp_pos _).le
  rw [mul_one_div, mul_one_div, div_lt_div_iff₀ (by positivity) (by positivity)]
  linarith

/-- The activations that do not enlarge differences. (Arguments in the usual ranges.) -/
def Gentle : Act → Prop
  | .silu | .hardSilu | .selu | .mish | .exp | .square | .gelu => False
  | .leakyRelu a | .elu a => 0 ≤ a ∧ a ≤ 1
  | .celu a => 0 < a
  | .squarePlus b => 0 ≤ b
  | _ => True

/-- The monotone activations. -/
def Growing : Act → Prop
  | .silu | .hardSilu | .abs | .sin | .cos | .mish | .square | .gelu => False
  | .leakyRelu a | .elu a => 0 ≤ a
  | .celu a => 0 < a
  | .squarePlus b => 0 ≤ b
  | _ => True

/-- The activations that commute with positive factors. -/
def Homogeneous : Act → Prop
  | .relu | .leakyRelu _ | .identity | .abs => True
  | .squarePlus b => b = 0
  | _ => False

/-- Where the outputs of an activation lie. -/
def actRange : Act → Set ℝ
  | .relu | .abs | .sparsePlus | .square => Set.Ici 0
  | .relu6 => Set.Icc 0 6
  | .sigmoid => Set.Ioo 0 1
  | .softplus | .exp => Set.Ioi 0
  | .softSign | .tanh => Set.Ioo (-1) 1
  | .logSigmoid => Set.Iio 0
  | .hardSigmoid | .sparseSigmoid => Set.Icc 0 1
  | .hardTanh => Set.Icc (-1) 1
  | .elu a | .celu a => if 0 < a then Set.Ioi (-a) else Set.univ
  | .selu => Set.Ioi (-1.7581)
  | .arctan => Set.Ioo (-(Real.pi / 2)) (Real.pi / 2)
  | .squarePlus b => if 0 < b then Set.Ioi 0 else Set.univ
  | .clip lo hi => if lo ≤ hi then Set.Icc lo hi else Set.univ
  | .sin | .cos => Set.Icc (-1) 1
  | .silu | .mish | .gelu => Set.Ioi (-1)
  | .hardSilu => Set.Ici (-(3 / 8))
  | _ => Set.univ

/-- **C136 (ranges).** Every activation gives numbers in its range, whatever it is given: probabilities are between zero and one, rectified numbers are not negative, clipped numbers lie between the bounds. -/
theorem C136_range (a : Act) (x : ℝ) : a.fn x ∈ actRange a := by
  cases a with
  | relu => simp [Act.fn, actRange]
  | relu6 => simp [Act.fn, actRange]
  | sigmoid => exact ⟨by rw [Act.fn, sigmoid_mathlib]; exact Real.sigmoid_pos x, by rw [Act.fn, sigmoid_mathlib]; exact Real.sigmoid_lt_one x⟩
  | softplus => exact Real.log_pos (by linarith [Real.exp_pos x])
  | softSign =>
    have h : 0 < |x| + 1 := by positivity
    refine ⟨?_, ?_⟩
    · rw [Act.fn, lt_div_iff₀ h]; linarith [neg_abs_le x]
    · rw [Act.fn, div_lt_iff₀ h]; linarith [le_abs_self x]
  | silu =>
    have p := Real.exp_pos (-x)
    simp only [Act.fn, actRange, AxisActivations.sigmoid, Set.mem_Ioi]
    rw [mul_one_div, lt_div_iff₀ (by positivity)]
    linarith [Real.add_one_le_exp (-x)]
  | logSigmoid => exact neg_lt_zero.2 (Real.log_pos (by linarith [Real.exp_pos (-x)]))
  | leakyRelu a => trivial
  | hardSigmoid =>
    refine ⟨?_, ?_⟩
    · rw [Act.fn]; exact div_nonneg (le_min (le_max_right _ _) (by norm_num)) (by norm_num)
    · rw [Act.fn, div_le_one (by norm_num)]; exact min_le_right _ _
  | hardSilu =>
    simp only [Act.fn, actRange, Set.mem_Ici]
    rcases le_total x (-3) with h | h
    · rw [max_eq_right (by linarith), min_eq_left (by norm_num)]
      norm_num
    · rw [max_eq_left (by linarith)]
      rcases le_total x 3 with h' | h'
      · rw [min_eq_left (by linarith)]
        nlinarith [sq_nonneg (2 * x + 3)]
      · rw [min_eq_right (by linarith)]
        linarith
  | hardTanh =>
    simp only [Act.fn, actRange, Set.mem_Icc]
    split
    · norm_num
    · split
      · norm_num
      · constructor <;> linarith
  | elu a =>
    simp only [Act.fn, actRange]
    by_cases ha : 0 < a
    · simp only [if_pos ha, Set.mem_Ioi]
      split
      · linarith
      · have := mul_pos ha (Real.exp_pos x)
        linarith
    · simp [ha]
  | squarePlus b =>
    simp only [Act.fn, actRange]
    by_cases hb : 0 < b
    · simp only [if_pos hb, Set.mem_Ioi]
      have : |x| < Real.sqrt (x ^ 2 + b) := by
        rw [← Real.sqrt_sq_eq_abs]
        exact Real.sqrt_lt_sqrt (sq_nonneg x) (by linarith)
      linarith [neg_abs_le x]
    · simp [hb]
  | identity => trivial
  | abs => exact abs_nonneg x
  | clip lo hi =>
    simp only [Act.fn, actRange]
    by_cases h : lo ≤ hi
    · simp [h]
    · simp [h]
  | sin => exact ⟨Real.neg_one_le_sin x, Real.sin_le_one x⟩
  | cos => exact ⟨Real.neg_one_le_cos x, Real.cos_le_one x⟩
  | sparsePlus =>
    simp only [Act.fn, actRange, Set.mem_Ici]
    split_ifs
    · exact le_rfl
    · linarith
    · positivity
  | sparseSigmoid =>
    simp only [Act.fn, actRange, Set.mem_Icc]
    split_ifs <;> constructor <;> linarith
  | celu a =>
    simp only [Act.fn, actRange]
    by_cases ha : 0 < a
    · simp only [if_pos ha, Set.mem_Ioi]
      split
      · linarith
      · have := mul_pos ha (Real.exp_pos (x / a))
        linarith
    · simp [ha]
  | selu =>
    simp only [Act.fn, actRange, Set.mem_Ioi]
    split
    · rename_i h
      nlinarith
    · have := Real.exp_pos x
      nlinarith
  | mish =>
    have p := Real.exp_pos x
    have h : 0 < 1 + Real.exp x * x := by
      have e : Real.exp (-x) * Real.exp x = 1 := by rw [← Real.exp_add]; simp
      nlinarith [Real.add_one_le_exp (-x)]
    simp only [Act.fn, actRange, mish_eq, Set.mem_Ioi]
    rw [one_sub_div (by positivity), mul_div_assoc', lt_div_iff₀ (by positivity)]
    nlinarith [mul_pos p h]
  | exp => exact Real.exp_pos x
  | square => exact sq_nonneg x
  | tanh =>
    have h1 := Real.sigmoid_pos (2 * x)
    have h2 := Real.sigmoid_lt_one (2 * x)
    rw [← sigmoid_mathlib] at h1 h2
    simp only [Act.fn, actRange, Set.mem_Ioo, tanh_sigmoid]
    constructor <;> linarith
  | arctan => exact ⟨Real.neg_pi_div_two_lt_arctan x, Real.arctan_lt_pi_div_two x⟩
  | gelu =>
    have hc := gelu_factor
    simp only [gelu_eq, actRange, AxisActivations.sigmoid, Set.mem_Ioi]
    generalize Real.sqrt (2 / Real.pi) = c at *
    have p := Real.exp_pos (-(2 * (c * (x + 0.044715 * x ^ 3))))
    have h := Real.add_one_le_exp (-(2 * (c * (x + 0.044715 * x ^ 3))))
    rw [mul_one_div, lt_div_iff₀ (by positivity)]
    rcases le_total 0 x with h0 | h0
    · linarith
    · have h1 : 0 ≤ -x * x ^ 2 := mul_nonneg (by linarith) (sq_nonneg x)
      have h2 : 0 ≤ (2 * c - 1) * -x := mul_nonneg (by linarith) (by linarith)
      have h3 : 0 ≤ c * (-x * x ^ 2) := mul_nonneg (by linarith) h1
      nlinarith

/-- **C136 (positive factors).** Rectifiers, absolute values and `SquarePlus` with `b = 0` commute with positive factors. -/
theorem C136_homogeneous (a : Act) (ha : Homogeneous a) (s u : ℝ) (hs : 0 < s) : a.fn (s * u) = s * a.fn u := by
  cases a with
  | relu => simp only [Act.fn]; rw [mul_max_of_nonneg _ _ hs.le, mul_zero]
  | leakyRelu a =>
    simp only [Act.fn]
    by_cases h : 0 ≤ u
    · rw [if_pos h, if_pos (mul_nonneg hs.le h)]
    · rw [if_neg h, if_neg (by push Not at h ⊢; exact mul_neg_of_pos_of_neg hs h)]; ring
  | identity => rfl
  | abs => simp only [Act.fn]; rw [abs_mul, abs_of_pos hs]
  | squarePlus b =>
    cases ha
    simp only [Act.fn, add_zero, Real.sqrt_sq_eq_abs, abs_mul, abs_of_pos hs]
    ring
  | _ => cases ha

theorem mono_clip {lo hi : ℝ} : Monotone fun x : ℝ => min (max x lo) hi := fun _ _ h => min_le_min_right _ (max_le_max_right _ h)

theorem sqrt_step {b : ℝ} (hb : 0 ≤ b) (x y : ℝ) : Real.sqrt (x ^ 2 + b) ≤ Real.sqrt (y ^ 2 + b) + |x - y| := by
  rw [Real.sqrt_le_left (by positivity)]
  have h1 : Real.sqrt (y ^ 2 + b) ^ 2 = y ^ 2 + b := Real.sq_sqrt (by positivity)
  have h2 : |y| ≤ Real.sqrt (y ^ 2 + b) := by
    rw [← Real.sqrt_sq_eq_abs]
    exact Real.sqrt_le_sqrt (by linarith)
  have h3 : |x| ≤ |y| + |x - y| := by
    have := abs_add_le y (x - y)
    rwa [add_sub_cancel] at this
  have h4 : x ^ 2 ≤ (|y| + |x - y|) ^ 2 := by
    rw [← sq_abs x]
    exact pow_le_pow_left₀ (abs_nonneg x) h3 2
  have h5 : |y| ^ 2 = y ^ 2 := sq_abs y
  nlinarith [mul_le_mul_of_nonneg_right h2 (abs_nonneg (x - y))]

/-- **C136 (monotone).** The activations of `Growing` never give less for more. -/
theorem C136_monotone (a : Act) (ha : Growing a) : Monotone a.fn := by
  intro x y h
  cases a with
  | relu => exact max_le_max_right _ h
  | relu6 => exact mono_clip h
  | sigmoid => simp only [Act.fn, sigmoid_mathlib]; exact Real.sigmoid_monotone h
  | softplus => exact Real.log_le_log (by positivity) (by simpa using h)
  | softSign =>
    have hx : 0 < |x| + 1 := by positivity
    have hy : 0 < |y| + 1 := by positivity
    simp only [Act.fn]
    rw [div_le_div_iff₀ hx hy]
    rcases abs_cases x with ⟨h1, h2⟩ | ⟨h1, h2⟩ <;> rcases abs_cases y with ⟨h3, h4⟩ | ⟨h3, h4⟩ <;> rw [h1, h3] <;> nlinarith
  | logSigmoid => exact neg_le_neg (Real.log_le_log (by positivity) (by simpa using h))
  | leakyRelu a =>
    have h0 : 0 ≤ a := ha
    simp only [Act.fn]
    split <;> split
    · exact h
    · linarith
    · nlinarith
    · exact mul_le_mul_of_nonneg_left h h0
  | hardSigmoid => simp only [Act.fn]; exact div_le_div_of_nonneg_right (mono_clip (by linarith)) (by norm_num)
  | hardTanh => simp only [Act.fn]; split_ifs <;> linarith
  | elu a =>
    have h0 : 0 ≤ a := ha
    simp only [Act.fn]
    split <;> split
    · exact h
    · linarith
    · have : Real.exp x ≤ 1 := Real.exp_le_one_iff.2 (by linarith)
      nlinarith
    · exact mul_le_mul_of_nonneg_left (by linarith [Real.exp_le_exp.2 h]) h0
  | squarePlus b =>
    have h0 : 0 ≤ b := ha
    simp only [Act.fn]
    have := sqrt_step h0 x y
    rw [abs_of_nonpos (by linarith : x - y ≤ 0)] at this
    linarith
  | identity => exact h
  | clip lo hi => exact mono_clip h
  | sparsePlus =>
    simp only [Act.fn]
    split_ifs <;> nlinarith
  | sparseSigmoid =>
    simp only [Act.fn]
    split_ifs <;> linarith
  | celu a =>
    have h0 : 0 < a := ha
    simp only [Act.fn]
    split <;> split
    · exact h
    · linarith
    · have : Real.exp (x / a) ≤ 1 := Real.exp_le_one_iff.2 (div_nonpos_of_nonpos_of_nonneg (by linarith) h0.le)
      nlinarith
    · have := Real.exp_le_exp.2 (div_le_div_of_nonneg_right h h0.le)
      nlinarith
  | selu =>
    simp only [Act.fn]
    refine mul_le_mul_of_nonneg_left ?_ (by norm_num)
    split <;> split
    · exact h
    · linarith
    · have : Real.exp x ≤ 1 := Real.exp_le_one_iff.2 (by linarith)
      nlinarith
    · exact mul_le_mul_of_nonneg_left (by linarith [Real.exp_le_exp.2 h]) (by norm_num)
  | exp => exact Real.exp_le_exp.2 h
  | tanh =>
    have := Real.sigmoid_monotone (show 2 * x ≤ 2 * y by linarith)
    rw [← sigmoid_mathlib, ← sigmoid_mathlib] at this
    simp only [Act.fn, tanh_sigmoid]
    linarith
  | arctan => exact Real.arctan_strictMono.monotone h
  | _ => cases ha

theorem lip_of_mono {g : ℝ → ℝ} (h1 : Monotone g) (h2 : ∀ x y, x ≤ y → g y - g x ≤ y - x) (x y : ℝ) : |g x - g y| ≤ |x - y| := by
  rcases le_total x y with h | h
  · rw [abs_of_nonpos (sub_nonpos.2 (h1 h)), abs_of_nonpos (sub_nonpos.2 h)]
    linarith [h2 x y h]
  · rw [abs_of_nonneg (sub_nonneg.2 (h1 h)), abs_of_nonneg (sub_nonneg.2 h)]
    exact h2 y x h

theorem clip_step {lo hi x y : ℝ} (h : x ≤ y) : min (max y lo) hi - min (max x lo) hi ≤ y - x := by
  rcases le_total y lo with h1 | h1 <;> rcases le_total x lo with h2 | h2 <;> simp only [max_eq_left h1, max_eq_left h2, max_eq_right h1, max_eq_right h2] <;>
    simp only [min_def] <;> split_ifs <;> linarith

theorem softplus_step {x y : ℝ} (h : x ≤ y) : Real.log (1 + Real.exp y) - Real.log (1 + Real.exp x) ≤ y - x := by
  have : Real.log (1 + Real.exp y) ≤ Real.log ((1 + Real.exp x) * Real.exp (y - x)) := by
    refine Real.log_le_log (by positivity) ?_
    rw [add_mul, ← Real.exp_add, add_sub_cancel, one_mul]
    linarith [Real.one_le_exp (sub_nonneg.2 h)]
  rw [Real.log_mul (by positivity) (by positivity), Real.log_exp] at this
  linarith

theorem exp_step (x y : ℝ) : Real.exp y - Real.exp x ≤ Real.exp y * (y - x) := by
  have h := Real.add_one_le_exp (x - y)
  have : Real.exp x = Real.exp y * Real.exp (x - y) := by rw [← Real.exp_add, add_sub_cancel]
  rw [this]
  nlinarith [Real.exp_pos y]

theorem lip_of_deriv {g g' : ℝ → ℝ} (h : ∀ x, HasDerivAt g (g' x) x) (h0 : ∀ x, 0 ≤ g' x) (h1 : ∀ x, g' x ≤ 1) (x y : ℝ) : |g x - g y| ≤ |x - y| := by
  have := Convex.norm_image_sub_le_of_norm_hasDerivWithin_le (f := g) (f' := g') (C := 1) (s := Set.univ) (x := y) (y := x) (fun z _ => (h z).hasDerivWithinAt)
    (fun z _ => by rw [Real.norm_eq_abs, abs_of_nonneg (h0 z)]; exact h1 z) convex_univ trivial trivial
  simpa using this

theorem hasDerivAt_tanh (x : ℝ) : HasDerivAt Real.tanh (1 - Real.tanh x ^ 2) x := by
  have hc := (Real.cosh_pos x).ne'
  have h := (Real.hasDerivAt_sinh x).div (Real.hasDerivAt_cosh x) hc
  have e : (fun x => Real.sinh x / Real.cosh x) = Real.tanh := by funext y; exact (Real.tanh_eq_sinh_div_cosh y).symm
  have e2 : 1 - Real.tanh x ^ 2 = (Real.cosh x * Real.cosh x - Real.sinh x * Real.sinh x) / Real.cosh x ^ 2 := by
    rw [Real.tanh_eq_sinh_div_cosh]
    field_simp
  rw [e2, ← e]
  exact h

/-- **C136 (differences).** The activations of `Gentle` never enlarge differences. -/
theorem C136_lipschitz (a : Act) (ha : Gentle a) (x y : ℝ) : |a.fn x - a.fn y| ≤ |x - y| := by
  cases a with
  | abs => exact abs_abs_sub_abs_le x y
  | sin => simpa [Real.dist_eq, Act.fn] using Real.lipschitzWith_sin.dist_le_mul x y
  | cos => simpa [Real.dist_eq, Act.fn] using Real.lipschitzWith_cos.dist_le_mul x y
  | silu => cases ha
  | hardSilu => cases ha
  | selu => cases ha
  | mish => cases ha
  | exp => cases ha
  | square => cases ha
  | gelu => cases ha
  | tanh =>
    refine lip_of_deriv hasDerivAt_tanh (fun z => ?_) (fun z => ?_) x y
    · have h := C136_range .tanh z
      simp only [Act.fn, actRange, Set.mem_Ioo] at h
      nlinarith
    · nlinarith [sq_nonneg (Real.tanh z)]
  | arctan =>
    refine lip_of_deriv Real.hasDerivAt_arctan (fun z => by positivity) (fun z => ?_) x y
    rw [div_le_one (by positivity)]
    nlinarith [sq_nonneg z]
  | sparsePlus =>
    refine lip_of_mono (C136_monotone .sparsePlus trivial) (fun x y h => ?_) x y
    simp only [Act.fn]
    split_ifs <;> nlinarith
  | sparseSigmoid =>
    refine lip_of_mono (C136_monotone .sparseSigmoid trivial) (fun x y h => ?_) x y
    simp only [Act.fn]
    split_ifs <;> linarith
  | celu a =>
    have h0 : 0 < a := ha
    refine lip_of_mono (C136_monotone (.celu a) ha) (fun x y h => ?_) x y
    have e1 := exp_step (x / a) (y / a)
    have e2 := exp_step (x / a) 0
    rw [Real.exp_zero] at e2
    have ex : a * (x / a) = x := mul_div_cancel₀ x h0.ne'
    have ey : a * (y / a) = y := mul_div_cancel₀ y h0.ne'
    simp only [Act.fn]
    split_ifs with h2 h3 h3
    · exact le_rfl
    · nlinarith
    · linarith
    · have h4 : Real.exp (y / a) ≤ 1 := Real.exp_le_one_iff.2 (div_nonpos_of_nonpos_of_nonneg (by linarith) h0.le)
      have h5 : 0 ≤ y / a - x / a := by rw [← sub_div]; exact div_nonneg (by linarith) h0.le
      have h6 : Real.exp (y / a) - Real.exp (x / a) ≤ y / a - x / a := by nlinarith
      nlinarith
  | identity => exact le_rfl
  | relu =>
    refine lip_of_mono (C136_monotone .relu trivial) (fun x y h => ?_) x y
    simp only [Act.fn]
    rcases le_total y 0 with h1 | h1 <;> rcases le_total x 0 with h2 | h2 <;> simp only [max_eq_left h1, max_eq_left h2, max_eq_right h1, max_eq_right h2] <;> linarith
  | relu6 => exact lip_of_mono (C136_monotone .relu6 trivial) (fun x y h => clip_step h) x y
  | clip lo hi => exact lip_of_mono (C136_monotone (.clip lo hi) trivial) (fun x y h => clip_step h) x y
  | hardTanh => exact lip_of_mono (C136_monotone .hardTanh trivial) (fun x y h => by simp only [Act.fn]; split_ifs <;> linarith) x y
  | hardSigmoid =>
    refine lip_of_mono (C136_monotone .hardSigmoid trivial) (fun x y h => ?_) x y
    have := clip_step (lo := 0) (hi := 6) (add_le_add_left h 3)
    simp only [Act.fn]
    linarith
  | sigmoid =>
    refine lip_of_mono (C136_monotone .sigmoid trivial) (fun x y h => ?_) x y
    have h1 := exp_step (-y) (-x)
    have p1 := Real.exp_pos (-x)
    have p2 := Real.exp_pos (-y)
    have e : Act.fn .sigmoid y - Act.fn .sigmoid x = (Real.exp (-x) - Real.exp (-y)) / ((1 + Real.exp (-y)) * (1 + Real.exp (-x))) := by
      simp only [Act.fn, AxisActivations.sigmoid]
      field_simp
      ring
    rw [e, div_le_iff₀ (by positivity)]
    have hd : 0 ≤ y - x := by linarith
    nlinarith [mul_nonneg hd p1.le, mul_nonneg hd p2.le, mul_nonneg hd (mul_pos p1 p2).le]
  | softplus => exact lip_of_mono (C136_monotone .softplus trivial) (fun x y h => softplus_step h) x y
  | logSigmoid =>
    refine lip_of_mono (C136_monotone .logSigmoid trivial) (fun x y h => ?_) x y
    have := softplus_step (neg_le_neg h)
    simp only [Act.fn]
    linarith
  | softSign =>
    refine lip_of_mono (C136_monotone .softSign trivial) (fun x y h => ?_) x y
    have hx : 0 < |x| + 1 := by positivity
    have hy : 0 < |y| + 1 := by positivity
    simp only [Act.fn]
    rw [div_sub_div _ _ hy.ne' hx.ne', div_le_iff₀ (by positivity)]
    rcases abs_cases x with ⟨h1, h2⟩ | ⟨h1, h2⟩ <;> rcases abs_cases y with ⟨h3, h4⟩ | ⟨h3, h4⟩ <;> rw [h1, h3]
    · nlinarith [mul_nonneg (sub_nonneg.2 h) h2, mul_nonneg (sub_nonneg.2 h) h4, mul_nonneg (sub_nonneg.2 h) (mul_nonneg h2 h4)]
    · linarith
    · nlinarith [mul_nonneg (sub_nonneg.2 h) (neg_nonneg.2 h2.le), mul_nonneg (sub_nonneg.2 h) h4, mul_nonneg (sub_nonneg.2 h) (mul_nonneg (neg_nonneg.2 h2.le) h4), mul_nonneg (neg_nonneg.2 h2.le) h4]
    · nlinarith [mul_nonneg (sub_nonneg.2 h) (neg_nonneg.2 h2.le), mul_nonneg (sub_nonneg.2 h) (neg_nonneg.2 h4.le), mul_nonneg (sub_nonneg.2 h) (mul_nonneg (neg_nonneg.2 h2.le) (neg_nonneg.2 h4.le))]
  | leakyRelu a =>
    refine lip_of_mono (C136_monotone (.leakyRelu a) ha.1) (fun x y h => ?_) x y
    obtain ⟨h0, h1⟩ := ha
    simp only [Act.fn]
    split_ifs with h2 h3 h3
    · exact le_rfl
    · nlinarith
    · linarith
    · nlinarith
  | elu a =>
    refine lip_of_mono (C136_monotone (.elu a) ha.1) (fun x y h => ?_) x y
    obtain ⟨h0, h1⟩ := ha
    have e1 := exp_step x y
    have e2 := exp_step x 0
    rw [Real.exp_zero] at e2
    have hd : 0 ≤ y - x := by linarith
    simp only [Act.fn]
    split_ifs with h2 h3 h3
    · exact le_rfl
    · have : Real.exp x ≤ 1 := Real.exp_le_one_iff.2 (by linarith)
      nlinarith
    · linarith
    · have h4 : Real.exp y ≤ 1 := Real.exp_le_one_iff.2 (by linarith)
      have h5 : Real.exp x ≤ Real.exp y := Real.exp_le_exp.2 h
      nlinarith
  | squarePlus b =>
    refine lip_of_mono (C136_monotone (.squarePlus b) ha) (fun x y h => ?_) x y
    have := sqrt_step (b := b) ha y x
    rw [abs_of_nonneg (by linarith : 0 ≤ y - x)] at this
    simp only [Act.fn]
    linarith

/-- **C136 (the lists are complete).** The activations that are not in the lists are not there for a reason: `SiLU` and `HardSiLU` fall and then grow, as do `Abs`, `Sin` and `Cos`; both enlarge some differences; of the others each of `ReLU6`,
`Sigmoid`, `Softplus`, `SoftSign` and `LogSigmoid` does not commute with the factor 2 (or 8). -/
theorem C136_lists :
    (¬ Monotone (Act.fn .silu) ∧ ¬ Monotone (Act.fn .hardSilu) ∧ ¬ Monotone (Act.fn .abs) ∧ ¬ Monotone (Act.fn .sin) ∧ ¬ Monotone (Act.fn .cos)) ∧
    (∃ x y, |x - y| < |Act.fn .hardSilu x - Act.fn .hardSilu y|) ∧ (∃ x y, |x - y| < |Act.fn .silu x - Act.fn .silu y|) ∧
    (∀ a ∈ [Act.relu6, .sigmoid, .softplus, .softSign, .logSigmoid, .exp, .square, .sparsePlus, .sparseSigmoid], ∃ s u, 0 < s ∧ a.fn (s * u) ≠ s * a.fn u) ∧
    (¬ Monotone (Act.fn .mish) ∧ ¬ Monotone (Act.fn .square) ∧ ¬ Monotone (Act.fn .gelu)) ∧ ∀ a ∈ [Act.mish, .exp, .square, .selu, .gelu], ∃ x y, |x - y| < |a.fn x - a.fn y| := by
  refine ⟨⟨fun h => ?_, fun h => ?_, fun h => ?_, fun h => ?_, fun h => ?_⟩, ⟨3, 2, by norm_num [Act.fn]⟩, ⟨3, 2, ?_⟩, fun a ha => ?_, ⟨fun h => ?_, fun h => ?_, fun h => (h (show (-10 : ℝ) ≤ -1 by norm_num)).not_gt gelu_falls⟩, fun a ha => ?_⟩
  · have h1 := h (show (-4 : ℝ) ≤ -1 by norm_num)
    simp only [Act.fn, AxisActivations.sigmoid, neg_neg] at h1
    have e1 := Real.exp_one_gt_d9
    have e2 := Real.exp_one_lt_d9
    have e4 : Real.exp 4 = Real.exp 1 ^ 4 := by rw [← Real.exp_nat_mul]; norm_num
    rw [mul_one_div, mul_one_div, div_le_div_iff₀ (by positivity) (by positivity), e4] at h1
    nlinarith [pow_pos (Real.exp_pos 1) 2, pow_pos (Real.exp_pos 1) 3, sq_nonneg (Real.exp 1 ^ 2 - 4)]
  · have h1 := h (show (-3 : ℝ) ≤ -1 by norm_num)
    norm_num [Act.fn] at h1
  · have h1 := h (show (-1 : ℝ) ≤ 0 by norm_num)
    norm_num [Act.fn] at h1
  · have h1 := h (show Real.pi / 2 ≤ Real.pi by linarith [Real.pi_pos])
    norm_num [Act.fn] at h1
  · have h1 := h (show (0 : ℝ) ≤ Real.pi by linarith [Real.pi_pos])
    norm_num [Act.fn] at h1
  · have hq0 := Real.exp_pos (-1)
    have hq1 : Real.exp (-1) < 1 / 2 := by
      rw [Real.exp_neg, inv_eq_one_div]
      exact one_div_lt_one_div_of_lt (by norm_num) (by linarith [Real.exp_one_gt_d9])
    have e2 : Real.exp (-2) = Real.exp (-1) ^ 2 := by rw [← Real.exp_nat_mul]; norm_num
    have e3 : Real.exp (-3) = Real.exp (-1) ^ 3 := by rw [← Real.exp_nat_mul]; norm_num
    refine lt_of_lt_of_le ?_ (le_abs_self _)
    simp only [Act.fn, AxisActivations.sigmoid, e2, e3]
    generalize Real.exp (-1) = q at *
    rw [show |(3 : ℝ) - 2| = 1 by norm_num, mul_one_div, mul_one_div, div_sub_div _ _ (by positivity) (by positivity), lt_div_iff₀ (by positivity)]
    have h3 : q ^ 3 < q ^ 2 / 2 := by nlinarith [pow_pos hq0 2]
    have h5 : q ^ 5 < q ^ 2 / 8 := by nlinarith [pow_pos hq0 2, pow_pos hq0 3, pow_pos hq0 4]
    nlinarith [pow_pos hq0 2]
  · simp only [List.mem_cons, List.not_mem_nil, or_false] at ha
    rcases ha with rfl | rfl | rfl | rfl | rfl | rfl | rfl | rfl | rfl
    · exact ⟨2, 6, by norm_num, by norm_num [Act.fn]⟩
    · exact ⟨2, 0, by norm_num, by norm_num [Act.fn, AxisActivations.sigmoid]⟩
    · refine ⟨2, 0, by norm_num, ?_⟩
      have := Real.log_pos (show (1 : ℝ) < 2 by norm_num)
      norm_num [Act.fn]
    · exact ⟨2, 1, by norm_num, by norm_num [Act.fn]⟩
    · refine ⟨2, 0, by norm_num, ?_⟩
      have := Real.log_pos (show (1 : ℝ) < 2 by norm_num)
      norm_num [Act.fn]
    · exact ⟨2, 0, by norm_num, by norm_num [Act.fn]⟩
    · exact ⟨2, 1, by norm_num, by norm_num [Act.fn]⟩
    · exact ⟨2, 0, by norm_num, by norm_num [Act.fn]⟩
    · exact ⟨2, 0, by norm_num, by norm_num [Act.fn]⟩
  · have h1 := h (show (-4 : ℝ) ≤ -1 by norm_num)
    simp only [Act.fn, mish_eq] at h1
    have hq0 := Real.exp_pos (-1)
    have hq1 : Real.exp (-1) < 1 / 2 := by
      rw [Real.exp_neg, inv_eq_one_div]
      exact one_div_lt_one_div_of_lt (by norm_num) (by linarith [Real.exp_one_gt_d9])
    have e4 : Real.exp (-4) = Real.exp (-1) ^ 4 := by rw [← Real.exp_nat_mul]; norm_num
    rw [e4] at h1
    generalize Real.exp (-1) = q at *
    have h8 : 0 < q ^ 4 := pow_pos hq0 4
    have hA : 4 * (1 - 2 / ((1 + q ^ 4) ^ 2 + 1)) ≤ 2 * ((q ^ 4) ^ 2 + 2 * q ^ 4) := by
      rw [one_sub_div (by positivity), mul_div_assoc', div_le_iff₀ (by positivity)]
      nlinarith
    have hB : 2 * q / 3.25 ≤ 1 - 2 / ((1 + q) ^ 2 + 1) := by
      rw [one_sub_div (by positivity), div_le_div_iff₀ (by norm_num) (by positivity)]
      nlinarith [mul_pos hq0 (show 0 < 2.5 - 0.75 * q - 2 * q ^ 2 by nlinarith)]
    have hC : q ^ 4 ≤ q / 8 := by nlinarith [pow_pos hq0 2, pow_pos hq0 3]
    have hD : (q ^ 4) ^ 2 ≤ q ^ 4 / 16 := by nlinarith
    generalize 1 - 2 / ((1 + q ^ 4) ^ 2 + 1) = A at *
    generalize 1 - 2 / ((1 + q) ^ 2 + 1) = B at *
    generalize (q ^ 4) ^ 2 = C at *
    generalize q ^ 4 = D at *
    norm_num at hB
    linarith
  · have h1 := h (show (-1 : ℝ) ≤ 0 by norm_num)
    norm_num [Act.fn] at h1
  · simp only [List.mem_cons, List.not_mem_nil, or_false] at ha
    rcases ha with rfl | rfl | rfl | rfl | rfl
    · refine ⟨2, 1, lt_of_lt_of_le ?_ (le_abs_self _)⟩
      have e2 : Real.exp 2 = Real.exp 1 ^ 2 := by rw [← Real.exp_nat_mul]; norm_num
      have hr : 2 < Real.exp 1 := by linarith [Real.exp_one_gt_d9]
      simp only [Act.fn, mish_eq]
      rw [e2]
      generalize Real.exp 1 = r at *
      rw [show |(2 : ℝ) - 1| = 1 by norm_num]
      have : 4 / ((1 + r ^ 2) ^ 2 + 1) < 2 / ((1 + r) ^ 2 + 1) := by
        rw [div_lt_div_iff₀ (by positivity) (by positivity)]
        have h2 : 4 < r ^ 2 := by nlinarith
        nlinarith [mul_pos (sub_pos.2 h2) (sub_pos.2 h2)]
      have e : 4 / ((1 + r ^ 2) ^ 2 + 1) = 2 * (2 / ((1 + r ^ 2) ^ 2 + 1)) := by ring
      linarith
    · refine ⟨1, 0, lt_of_lt_of_le ?_ (le_abs_self _)⟩
      simp only [Act.fn, Real.exp_zero]
      norm_num
      linarith [Real.exp_one_gt_d9]
    · exact ⟨2, 1, by norm_num [Act.fn]⟩
    · exact ⟨1, 0, by norm_num [Act.fn]⟩
    · refine ⟨10, 1, lt_of_lt_of_le ?_ (le_abs_self _)⟩
      have h := gelu_falls
      have e : ∀ x, Act.fn .gelu (-x) = Act.fn .gelu x - x := fun x => by
        have : Real.sqrt (2 / Real.pi) * (-x + 0.044715 * (-x) ^ 3) = -(Real.sqrt (2 / Real.pi) * (x + 0.044715 * x ^ 3)) := by ring
        simp only [Act.fn, this, Real.tanh_neg]
        ring
      rw [e 1, e 10] at h
      rw [abs_of_pos (by norm_num)]
      linarith

theorem hasDerivAt_sparsePlus (x : ℝ) : HasDerivAt (Act.fn .sparsePlus) (Act.fn .sparseSigmoid x) x := by
  rw [hasDerivAt_iff_isLittleO]
  refine Asymptotics.IsBigO.trans_isLittleO (Asymptotics.IsBigO.of_bound 1 (Filter.Eventually.of_forall fun y => ?_)) (Asymptotics.isLittleO_pow_sub_sub x one_lt_two)
  rw [one_mul, Real.norm_eq_abs, Real.norm_eq_abs, Real.norm_eq_abs, sq_abs, abs_of_nonneg (sq_nonneg (y - x)), smul_eq_mul, abs_le]
  simp only [Act.fn]
  constructor <;> split_ifs <;> nlinarith

/-- **C136 (derivatives).** `Sigmoid` is the derivative of `Softplus`, as `SparseSigmoid` is of `SparsePlus`; that of `LogSigmoid` is one minus `Sigmoid`; and those of `Tanh`, `Exp` and `ArcTan`. -/
theorem C136_derivative (x : ℝ) : HasDerivAt (Act.fn .softplus) (Act.fn .sigmoid x) x ∧ HasDerivAt (Act.fn .logSigmoid) (1 - Act.fn .sigmoid x) x ∧
    HasDerivAt (Act.fn .tanh) (1 - Act.fn .tanh x ^ 2) x ∧ HasDerivAt (Act.fn .exp) (Act.fn .exp x) x ∧ HasDerivAt (Act.fn .arctan) (1 / (1 + Act.fn .square x)) x ∧
    HasDerivAt (Act.fn .sparsePlus) (Act.fn .sparseSigmoid x) x := by
  have p1 := Real.exp_pos x
  have p2 := Real.exp_pos (-x)
  refine ⟨?_, ?_, hasDerivAt_tanh x, Real.hasDerivAt_exp x, Real.hasDerivAt_arctan x, hasDerivAt_sparsePlus x⟩
  · have h := ((Real.hasDerivAt_exp x).const_add 1).log (by positivity)
    have e : Act.fn .sigmoid x = Real.exp x / (1 + Real.exp x) := by
      simp only [Act.fn, AxisActivations.sigmoid, Real.exp_neg]
      field_simp
      ring
    rw [e]
    exact h
  · have h := (((hasDerivAt_neg x).exp.const_add 1).log (by positivity)).neg
    have e : 1 - Act.fn .sigmoid x = -(Real.exp (-x) * -1 / (1 + Real.exp (-x))) := by
      simp only [Act.fn, AxisActivations.sigmoid]
      field_simp
      ring
    rw [e]
    exact h

/-- The numbers that an activation leaves as they are. -/
def fixedOn : Act → Set ℝ
  | .relu | .leakyRelu _ | .elu _ | .celu _ | .abs => Set.Ici 0
  | .sparsePlus => Set.Ici 1
  | .relu6 => Set.Icc 0 6
  | .hardTanh => Set.Icc (-1) 1
  | .hardSilu => Set.Ici 3
  | .clip lo hi => Set.Icc lo hi
  | .identity => Set.univ
  | _ => ∅

/-- **C136 (fixed numbers).** Rectifiers leave positive numbers as they are, clipping what lies between the bounds, and so on. -/
theorem C136_fixed (a : Act) (x : ℝ) (hx : x ∈ fixedOn a) : a.fn x = x := by
  cases a with
  | relu => exact max_eq_left hx
  | leakyRelu a => exact if_pos hx
  | elu a =>
    have h0 : 0 ≤ x := hx
    simp only [Act.fn]
    split
    · rfl
    · have : x = 0 := by linarith
      simp [this]
  | celu a =>
    have h0 : 0 ≤ x := hx
    simp only [Act.fn]
    split
    · rfl
    · have : x = 0 := by linarith
      simp [this]
  | sparsePlus =>
    have h0 : 1 ≤ x := hx
    simp only [Act.fn, if_pos h0, if_neg (by linarith : ¬ x ≤ -1)]
  | abs => exact abs_of_nonneg hx
  | relu6 => simp only [Act.fn, max_eq_left hx.1, min_eq_left hx.2]
  | hardTanh => simp only [Act.fn, if_neg (not_lt.2 hx.2), if_neg (not_lt.2 hx.1)]
  | hardSilu =>
    have h0 : 3 ≤ x := hx
    simp only [Act.fn, max_eq_left (by linarith : 0 ≤ x + 3), min_eq_right (by linarith : 6 ≤ x + 3)]
    norm_num
  | clip lo hi => simp only [Act.fn, max_eq_left hx.1, min_eq_left hx.2]
  | identity => rfl
  | _ => exact absurd hx (Set.notMem_empty x)

/-- **C136 (negative numbers).** What activations do to the negative of a number, in terms of what they do to the number. -/
theorem C136_negative (x : ℝ) :
    (∀ a ∈ [Act.relu, .softplus, .silu, .hardSilu, .sparsePlus, .gelu], a.fn x - a.fn (-x) = x) ∧ (∀ b, Act.fn (.squarePlus b) x - Act.fn (.squarePlus b) (-x) = x) ∧
    (∀ a ∈ [Act.sigmoid, .hardSigmoid, .sparseSigmoid], a.fn x + a.fn (-x) = 1) ∧ (∀ a ∈ [Act.softSign, .hardTanh, .sin, .identity, .tanh, .arctan], a.fn (-x) = -a.fn x) ∧
    (∀ a ∈ [Act.abs, .cos, .square], a.fn (-x) = a.fn x) ∧
    (∀ s, x ≤ 0 → Act.fn (.leakyRelu s) x = s * x) ∧ (∀ s, x ≤ 0 → Act.fn (.elu s) x = s * Act.fn (.elu 1) x) ∧ Act.fn .logSigmoid x = -Act.fn .softplus (-x) ∧
    Act.fn .logSigmoid x = Real.log (Act.fn .sigmoid x) ∧ Act.fn .tanh x = 2 * Act.fn .sigmoid (2 * x) - 1 ∧ (∀ s, 0 < s → Act.fn (.celu s) (s * x) = s * Act.fn (.elu 1) x) ∧
    Act.fn .mish x = x * Act.fn .tanh (Act.fn .softplus x) ∧ Act.fn .selu x = 1.0507009873554804934193349852946 * Act.fn (.elu 1.6732632423543772848170429916717) x ∧ Act.fn .exp (-x) * Act.fn .exp x = 1 := by
  have p1 := Real.exp_pos x
  have p2 := Real.exp_pos (-x)
  have hsig : AxisActivations.sigmoid x + AxisActivations.sigmoid (-x) = 1 := by
    simp only [sigmoid_mathlib, Real.sigmoid_neg]; ring
  have hhard : min (max (x + 3) 0) 6 / 6 + min (max (-x + 3) 0) 6 / 6 = 1 := by
    rcases le_total x 3 with h1 | h1
    · rcases le_total (-3) x with h2 | h2
      · rw [max_eq_left (by linarith), max_eq_left (by linarith), min_eq_left (by linarith), min_eq_left (by linarith)]; ring
      · rw [max_eq_right (by linarith), max_eq_left (by linarith), min_eq_left (by norm_num), min_eq_right (by linarith)]; norm_num
    · rw [max_eq_left (by linarith), max_eq_right (by linarith), min_eq_right (by linarith), min_eq_left (by norm_num)]; norm_num
  simp only [List.forall_mem_cons, List.not_mem_nil, false_imp_iff, implies_true, and_true]
  refine ⟨⟨?_, ?_, ?_, ?_, ?_, ?_⟩, fun b => ?_, ⟨hsig, hhard, ?_⟩, ⟨?_, ?_, Real.sin_neg x, rfl, Real.tanh_neg x, Real.arctan_neg x⟩, ⟨abs_neg x, Real.cos_neg x, neg_sq x⟩, fun s h => ?_, fun s h => ?_, rfl, ?_,
    tanh_sigmoid x, fun s h => ?_, rfl, rfl, ?_⟩
  · simp only [Act.fn]
    rcases le_total x 0 with h | h
    · rw [max_eq_right h, max_eq_left (by linarith)]; ring
    · rw [max_eq_left h, max_eq_right (by linarith)]; ring
  · simp only [Act.fn]
    have : 1 + Real.exp x = Real.exp x * (1 + Real.exp (-x)) := by rw [mul_add, ← Real.exp_add]; simp [add_comm]
    rw [this, Real.log_mul p1.ne' (by positivity), Real.log_exp]
    ring
  · simp only [Act.fn]
    linear_combination x * hsig
  · simp only [Act.fn]
    linear_combination x * hhard
  · simp only [Act.fn]
    split_ifs <;> nlinarith
  · have : Real.sqrt (2 / Real.pi) * (-x + 0.044715 * (-x) ^ 3) = -(Real.sqrt (2 / Real.pi) * (x + 0.044715 * x ^ 3)) := by ring
    simp only [Act.fn, this, Real.tanh_neg]
    ring
  · simp only [Act.fn, neg_sq]; ring
  · simp only [Act.fn]
    split_ifs <;> linarith
  · simp only [Act.fn, abs_neg]; ring
  · simp only [Act.fn]; split_ifs <;> linarith
  · simp only [Act.fn]
    split_ifs with h0
    · have : x = 0 := le_antisymm h h0
      simp [this]
    · rfl
  · simp only [Act.fn, if_neg (not_lt.2 h)]; ring
  · simp only [Act.fn, AxisActivations.sigmoid, one_div, Real.log_inv]
  · simp only [Act.fn, mul_div_cancel_left₀ x h.ne', mul_pos_iff_of_pos_left h, one_mul]
    split_ifs <;> rfl
  · simp only [Act.fn, ← Real.exp_add, neg_add_cancel, Real.exp_zero]

open NetworkSpec in
/-- A network with two hidden units and a sigmoid at the end, whose weights have row sums of at most one: it gives probabilities, grows with both features and does not enlarge differences. -/
example (draw : Nat → List Nat → ℝ) (drawB : List Nat → List Nat → ℝ) : let Ls : List Layer :=
      [⟨2, fun r j => if r = j then 1 else 0, some fun _ => 1, some (Act.fn .relu)⟩, ⟨1, fun _ _ => 1 / 2, Option.none, some (Act.fn .sigmoid)⟩]
    (∀ L ∈ Ls, (∀ r j, 0 ≤ L.W r j) ∧ Monotone L.fn) ∧ Steep 2 Ls 1 ∧ ∀ x, ∃ y, predictNet draw drawB 2 Ls x = some y ∧ y 0 ∈ Set.Ioo 0 1 := by
  refine ⟨?_, ?_, fun x => ?_⟩
  · intro L hL
    simp only [List.mem_cons, List.not_mem_nil, or_false] at hL
    rcases hL with rfl | rfl
    · exact ⟨fun r j => by simp only; split <;> norm_num, C136_monotone .relu trivial⟩
    · exact ⟨fun r j => by norm_num, C136_monotone .sigmoid trivial⟩
  · refine ⟨1, 1, 1, by norm_num, by norm_num, fun r hr => ?_, fun u v => by rw [one_mul]; exact C136_lipschitz .relu trivial u v, ⟨1, 1, 1, by norm_num, by norm_num, fun r hr => ?_, fun u v => by
      rw [one_mul]; exact C136_lipschitz .sigmoid trivial u v, rfl, by norm_num⟩, by norm_num⟩
    · have : r = 0 ∨ r = 1 := by simp only at hr; omega
      rcases this with rfl | rfl <;> norm_num [Finset.sum_range_succ]
    · norm_num [Finset.sum_range_succ]
  · obtain ⟨y, h1, -, h2⟩ := C135_range draw drawB 2 [⟨2, fun r j => if r = j then 1 else 0, some fun _ => 1, some (Act.fn .relu)⟩] ⟨1, fun _ _ => 1 / 2, Option.none, some (Act.fn .sigmoid)⟩
      (Set.Ioo 0 1) (fun u => C136_range .sigmoid u) x
    exact ⟨y, h1, h2 0 one_pos⟩

/-- Arguments in the ranges: a slope of 0.01, `alpha = 1`, `b = 4` are the defaults of JAX. -/
example : Gentle (.leakyRelu 0.01) ∧ Gentle (.elu 1) ∧ Gentle (.squarePlus 4) ∧ Growing (.leakyRelu 0.01) ∧ Homogeneous (.leakyRelu 0.01) := by
  refine ⟨⟨by norm_num, by norm_num⟩, ⟨by norm_num, by norm_num⟩, show (0 : ℝ) ≤ 4 by norm_num, show (0 : ℝ) ≤ 0.01 by norm_num, trivial⟩

end Verif.Props
