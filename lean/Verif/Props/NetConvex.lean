import Mathlib.Analysis.Convex.Jensen
import Mathlib.Analysis.Convex.Deriv
import Mathlib.Analysis.Convex.SpecificFunctions.Basic
import Verif.Props.Network
import Verif.Props.Activations

/-! # C147: networks that are convex in the features -/

namespace Verif.Props
open Network Prebuilt NetworkSpec

variable (draw : Nat → List Nat → ℝ) (drawB : List Nat → List Nat → ℝ)

/-- The activations that are convex. -/
def Bending : Act → Prop
  | .relu | .softplus | .identity | .abs | .sparsePlus | .exp | .square => True
  | .leakyRelu a => a ≤ 1
  | .elu a => 0 ≤ a ∧ a ≤ 1
  | .celu a => 0 < a
  | .squarePlus b => 0 ≤ b
  | _ => False

theorem convex_of_support {f : ℝ → ℝ} (h : ∀ y, ∃ s, ∀ x, f y + s * (x - y) ≤ f x) : ConvexOn ℝ Set.univ f := by
  refine ⟨convex_univ, fun x _ y _ a b ha hb hab => ?_⟩
  simp only [smul_eq_mul]
  obtain ⟨s, hs⟩ := h (a * x + b * y)
  have h1 := mul_le_mul_of_nonneg_left (hs x) ha
  have h2 := mul_le_mul_of_nonneg_left (hs y) hb
  have e : b = 1 - a := by linarith
  subst e
  linear_combination h1 + h2

theorem relu_convex : ConvexOn ℝ Set.univ (Act.fn .relu) :=
  convex_of_support fun y => ⟨if 0 < y then 1 else 0, fun x => by
    simp only [Act.fn]
    split
    · rename_i h; rw [max_eq_left h.le]; linarith [le_max_left x 0]
    · rename_i h; rw [max_eq_right (by linarith)]; linarith [le_max_right x 0]⟩

theorem celu_convex (a : ℝ) (ha : 0 < a) : ConvexOn ℝ Set.univ (Act.fn (.celu a)) := by
  refine convex_of_support fun y => ⟨if 0 < y then 1 else Real.exp (y / a), fun x => ?_⟩
  have hx : a * (x / a) = x := mul_div_cancel₀ x ha.ne'
  have hy : a * (y / a) = y := mul_div_cancel₀ y ha.ne'
  have key : ∀ u v : ℝ, Real.exp v * (1 + (u - v)) ≤ Real.exp u := fun u v => by
    have h := mul_le_mul_of_nonneg_left (Real.add_one_le_exp (u - v)) (Real.exp_nonneg v)
    rw [← Real.exp_add, add_sub_cancel] at h
    linarith
  simp only [Act.fn]
  split_ifs with h1 h2 h2
  · linarith
  · have := mul_le_mul_of_nonneg_left (Real.add_one_le_exp (x / a)) ha.le
    linarith
  · have h3 := mul_le_mul_of_nonneg_left (key 0 (y / a)) ha.le
    rw [Real.exp_zero] at h3
    have h4 : Real.exp (y / a) ≤ 1 := Real.exp_le_one_iff.2 (div_nonpos_of_nonpos_of_nonneg (by linarith) ha.le)
    have h5 := mul_le_mul_of_nonneg_right h4 h2.le
    have h6 : a * (Real.exp (y / a) * (1 + (0 - y / a))) = a * Real.exp (y / a) - Real.exp (y / a) * y := by
      rw [← congrArg (Real.exp (y / a) * ·) hy]; ring
    linarith
  · have h3 := mul_le_mul_of_nonneg_left (key (x / a) (y / a)) ha.le
    have h6 : a * (Real.exp (y / a) * (1 + (x / a - y / a))) = a * Real.exp (y / a) + Real.exp (y / a) * (x - y) := by
      rw [show Real.exp (y / a) * (x - y) = Real.exp (y / a) * (a * (x / a) - a * (y / a)) by rw [hx, hy]]; ring
    linarith

/-- **C147 (convex activations).** The activations in the list are convex. -/
theorem C147_activations (a : Act) (ha : Bending a) : ConvexOn ℝ Set.univ a.fn := by
  cases a with
  | relu => exact relu_convex
  | softplus =>
    have hd : ∀ x, HasDerivAt (Act.fn .softplus) (Act.fn .sigmoid x) x := fun x => (C136_derivative x).1
    refine Monotone.convexOn_univ_of_deriv (fun x => (hd x).differentiableAt) ?_
    rw [show deriv (Act.fn .softplus) = Act.fn .sigmoid from funext fun x => (hd x).deriv]
    exact C136_monotone .sigmoid trivial
  | sparsePlus =>
    have hd : ∀ x, HasDerivAt (Act.fn .sparsePlus) (Act.fn .sparseSigmoid x) x := fun x => (C136_derivative x).2.2.2.2.2
    refine Monotone.convexOn_univ_of_deriv (fun x => (hd x).differentiableAt) ?_
    rw [show deriv (Act.fn .sparsePlus) = Act.fn .sparseSigmoid from funext fun x => (hd x).deriv]
    exact C136_monotone .sparseSigmoid trivial
  | identity => exact convexOn_id convex_univ
  | abs => exact convex_of_support fun y => ⟨if 0 ≤ y then 1 else -1, fun x => by
      simp only [Act.fn]
      split
      · rename_i h; rw [abs_of_nonneg h]; linarith [le_abs_self x]
      · rename_i h; rw [abs_of_neg (by linarith)]; linarith [neg_le_abs x]⟩
  | exp => exact convexOn_exp
  | square => exact convex_of_support fun y => ⟨2 * y, fun x => by simp only [Act.fn]; nlinarith [sq_nonneg (x - y)]⟩
  | leakyRelu s =>
    have hs : s ≤ 1 := ha
    refine convex_of_support fun y => ⟨if 0 ≤ y then 1 else s, fun x => ?_⟩
    simp only [Act.fn]
    split_ifs <;> nlinarith
  | elu s =>
    obtain ⟨h0, h1⟩ := ha
    have e : Act.fn (.elu s) = fun x => s • Act.fn (.celu 1) x + (1 - s) • Act.fn .relu x := by
      funext x
      simp only [Act.fn, smul_eq_mul, div_one, one_mul]
      split
      · rename_i h; rw [max_eq_left h.le]; ring
      · rename_i h; rw [max_eq_right (by linarith)]; ring
    rw [e]
    exact ((celu_convex 1 one_pos).smul h0).add (relu_convex.smul (by linarith))
  | celu s => exact celu_convex s ha
  | squarePlus b =>
    have h0 : 0 ≤ b := ha
    refine ⟨convex_univ, fun x _ y _ s t hs ht hst => ?_⟩
    simp only [Act.fn, smul_eq_mul]
    have hx : 0 ≤ x ^ 2 + b := by positivity
    have hy : 0 ≤ y ^ 2 + b := by positivity
    have h1 := Real.sq_sqrt hx
    have h2 := Real.sq_sqrt hy
    have h3 := Real.sqrt_nonneg (x ^ 2 + b)
    have h4 := Real.sqrt_nonneg (y ^ 2 + b)
    have hxy : x * y + b ≤ Real.sqrt (x ^ 2 + b) * Real.sqrt (y ^ 2 + b) := by
      rw [← Real.sqrt_mul hx]
      refine Real.le_sqrt_of_sq_le ?_
      nlinarith [mul_nonneg h0 (sq_nonneg (x - y))]
    have hr : Real.sqrt ((s * x + t * y) ^ 2 + b) ≤ s * Real.sqrt (x ^ 2 + b) + t * Real.sqrt (y ^ 2 + b) := by
      refine Real.sqrt_le_iff.2 ⟨by positivity, ?_⟩
      have h5 := mul_le_mul_of_nonneg_left hxy (mul_nonneg hs ht)
      have e : b = b * (s + t) ^ 2 := by rw [hst]; ring
      have e2 : (s * Real.sqrt (x ^ 2 + b) + t * Real.sqrt (y ^ 2 + b)) ^ 2 =
          s ^ 2 * (x ^ 2 + b) + t ^ 2 * (y ^ 2 + b) + 2 * (s * t * (Real.sqrt (x ^ 2 + b) * Real.sqrt (y ^ 2 + b))) := by
        rw [← h1, ← h2]
        simp only [Real.sqrt_sq h3, Real.sqrt_sq h4]
        ring
      rw [e2]
      nlinarith
    linarith
  | _ => exact absurd ha (by simp [Bending])

theorem layer_jensen (L : Layer) (hL : ConvexOn ℝ Set.univ L.fn) {f n : Nat} (w : Fin n → ℝ) (hw : ∀ i, 0 ≤ w i) (h1 : ∑ i, w i = 1) (x : Fin n → Nat → ℝ) (r : Nat) :
    L.at f (fun j => ∑ i, w i * x i j) r ≤ ∑ i, w i * L.at f (x i) r := by
  have e : ∑ j ∈ Finset.range f, L.W r j * ∑ i, w i * x i j + L.b.elim 0 (· r) = ∑ i, w i • (∑ j ∈ Finset.range f, L.W r j * x i j + L.b.elim 0 (· r)) := by
    simp only [smul_eq_mul, mul_add, Finset.sum_add_distrib, ← Finset.sum_mul, h1, one_mul, Finset.mul_sum]
    rw [Finset.sum_comm]
    congr 1
    refine Finset.sum_congr rfl fun i _ => Finset.sum_congr rfl fun j _ => by ring
  simp only [Layer.at]
  rw [e]
  exact hL.map_sum_le (fun i _ => hw i) h1 fun _ _ => Set.mem_univ _

theorem net_jensen (Ls : List Layer) {n : Nat} (w : Fin n → ℝ) (hw : ∀ i, 0 ≤ w i) (h1 : ∑ i, w i = 1) : ∀ {f : Nat} {z : Nat → ℝ} {x : Fin n → Nat → ℝ},
    (∀ L ∈ Ls, (∀ r j, 0 ≤ L.W r j) ∧ Monotone L.fn ∧ ConvexOn ℝ Set.univ L.fn) → (∀ j < f, z j ≤ ∑ i, w i * x i j) → ∀ r < width f Ls, net f Ls z r ≤ ∑ i, w i * net f Ls (x i) r := by
  induction Ls with
  | nil => intro f z x _ h r hr; exact h r hr
  | cons L Ls ih =>
    intro f z x hL h r hr
    obtain ⟨hW, hm, hc⟩ := hL L List.mem_cons_self
    refine ih (fun M hM => hL M (List.mem_cons_of_mem _ hM)) (fun j _ => ?_) r hr
    refine le_trans ?_ (layer_jensen L hc w hw h1 x j)
    exact hm (add_le_add_left (Finset.sum_le_sum fun i hi => mul_le_mul_of_nonneg_left (h i (Finset.mem_range.1 hi)) (hW j i)) _)

/-- **C147 (convex networks).** If the activation of the first layer is convex, those of the other layers are convex and monotone, and the weights of these other layers are not negative, then no prediction for a weighted mean of samples
is greater than the weighted mean of the predictions. The weights of the first layer and all biases may have any sign. -/
theorem C147_convex (f : Nat) (L : Layer) (Ls : List Layer) (hc : ConvexOn ℝ Set.univ L.fn) (hL : ∀ M ∈ Ls, (∀ r j, 0 ≤ M.W r j) ∧ Monotone M.fn ∧ ConvexOn ℝ Set.univ M.fn)
    (n : Nat) (w : Fin n → ℝ) (hw : ∀ i, 0 ≤ w i) (h1 : ∑ i, w i = 1) (x : Fin n → Nat → ℝ) :
    ∃ (z : Nat → ℝ) (y : Fin n → Nat → ℝ), predictNet draw drawB f (L :: Ls) (fun j => ∑ i, w i * x i j) = some z ∧ (∀ i, predictNet draw drawB f (L :: Ls) (x i) = some (y i)) ∧
      ∀ r < width f (L :: Ls), z r ≤ ∑ i, w i * y i r := by
  obtain ⟨z, hz, ez⟩ := predictNet_eq draw drawB f (L :: Ls) fun j => ∑ i, w i * x i j
  have h := fun i => predictNet_eq draw drawB f (L :: Ls) (x i)
  choose y hy ey using h
  refine ⟨z, y, hz, hy, fun r hr => ?_⟩
  rw [ez r hr, Finset.sum_congr rfl fun i _ => by rw [ey i r hr]]
  exact net_jensen Ls w hw h1 hL (fun j _ => layer_jensen L hc w hw h1 x j) r hr

/-- A rectified unit, and a unit without activation that takes it times a number. -/
noncomputable def hill (v : ℝ) : List Layer := [⟨1, fun _ _ => 1, Option.none, some (Act.fn .relu)⟩, ⟨1, fun _ _ => v, Option.none, Option.none⟩]

theorem hill_net (v : ℝ) (x : Nat → ℝ) : net 1 (hill v) x 0 = v * max (x 0) 0 := by
  simp [hill, net, Layer.at, Layer.fn, Act.fn]

/-- **C147 (the weights).** With a negative weight behind the first layer a prediction may be greater than the mean: minus a rectifier. -/
theorem C147_weights_needed : ∃ (y y' z : Nat → ℝ), predictNet draw drawB 1 (hill (-1)) (fun _ => 1) = some y ∧ predictNet draw drawB 1 (hill (-1)) (fun _ => -1) = some y' ∧
    predictNet draw drawB 1 (hill (-1)) (fun _ => 0) = some z ∧ (y 0 + y' 0) / 2 < z 0 := by
  obtain ⟨y, hy, ey⟩ := predictNet_eq draw drawB 1 (hill (-1)) fun _ => 1
  obtain ⟨y', hy', ey'⟩ := predictNet_eq draw drawB 1 (hill (-1)) fun _ => -1
  obtain ⟨z, hz, ez⟩ := predictNet_eq draw drawB 1 (hill (-1)) fun _ => 0
  refine ⟨y, y', z, hy, hy', hz, ?_⟩
  rw [ey 0 Nat.one_pos, ey' 0 Nat.one_pos, ez 0 Nat.one_pos, hill_net, hill_net, hill_net]
  norm_num

/-- With the weight 1 the theorem applies, for example to the mean of the two samples. -/
example : ∃ (z : Nat → ℝ) (y : Fin 2 → Nat → ℝ), predictNet draw drawB 1 (hill 1) (fun j => ∑ i, ![(1 / 2 : ℝ), 1 / 2] i * ![fun _ => 1, fun _ => -1] i j) = some z ∧
    (∀ i, predictNet draw drawB 1 (hill 1) ((![fun _ => 1, fun _ => -1] : Fin 2 → Nat → ℝ) i) = some (y i)) ∧ ∀ r < width 1 (hill 1), z r ≤ ∑ i, ![(1 / 2 : ℝ), 1 / 2] i * y i r :=
  C147_convex draw drawB 1 ⟨1, fun _ _ => 1, Option.none, some (Act.fn .relu)⟩ [⟨1, fun _ _ => 1, Option.none, Option.none⟩] (C147_activations .relu trivial)
    (fun M hM => by
      simp only [List.mem_cons, List.not_mem_nil, or_false] at hM
      subst hM
      exact ⟨fun _ _ => zero_le_one, monotone_id, convexOn_id convex_univ⟩) 2 _ (fun i => by fin_cases i <;> norm_num) (by norm_num [Fin.sum_univ_two]) _

/-- **C147 (not in the list).** The bounded activations are not convex, nor are those with slopes greater than one on the left. -/
theorem C147_lists : (∀ a ∈ [Act.relu6, .hardTanh, .hardSigmoid, .leakyRelu 2], ¬ ConvexOn ℝ Set.univ a.fn) ∧ ¬ ConvexOn ℝ Set.univ (Act.fn .softSign) ∧ ¬ ConvexOn ℝ Set.univ (Act.fn .hardSilu) := by
  have key : ∀ (f : ℝ → ℝ) (x y : ℝ), f x + f y < 2 * f ((x + y) / 2) → ¬ ConvexOn ℝ Set.univ f := by
    intro f x y h hc
    have := hc.2 (Set.mem_univ x) (Set.mem_univ y) (by norm_num : (0 : ℝ) ≤ 1 / 2) (by norm_num : (0 : ℝ) ≤ 1 / 2) (by norm_num)
    simp only [smul_eq_mul] at this
    rw [show (1 / 2 : ℝ) * x + 1 / 2 * y = (x + y) / 2 by ring] at this
    linarith
  refine ⟨fun a ha => ?_, key _ 0 2 (by norm_num [Act.fn, abs_of_nonneg]), key _ 2 4 (by norm_num [Act.fn])⟩
  simp only [List.mem_cons, List.not_mem_nil, or_false] at ha
  rcases ha with rfl | rfl | rfl | rfl
  · exact key _ 0 12 (by norm_num [Act.fn])
  · exact key _ 0 2 (by norm_num [Act.fn])
  · exact key _ 0 6 (by norm_num [Act.fn])
  · exact key _ (-1) 1 (by norm_num [Act.fn])

end Verif.Props
