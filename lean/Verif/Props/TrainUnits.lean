import Verif.Lemmas.TrainUnits
import Verif.Props.Adam
import Verif.Props.FullBatch
import Mathlib.Analysis.Calculus.Deriv.Mul
import Mathlib.Analysis.Calculus.Deriv.CompMul

/-! # C126: trainings in other units -/

namespace Verif.Props

open Verif.Batch Verif.Train Verif.Adam Verif.TrainUnitsSpec Verif.Loss

variable {ι : Type} {α β P Q S K F G : Type}

/-- **C126** A training in other units goes the same way: it raises the same exceptions, does the same number of epochs with the same random keys, and the
parameters, the averages of the optimiser, the losses and the parameters that are kept are those of the original training, converted. -/
theorem C126_same (c : Cfg α P S K F) (c' : Cfg β Q S K G) (x y u : α → β) (p g m v : P → Q) (f : F → G) (h : SameTraining c c' x y u p g m v f)
    (k : K) (adam : List (OptState P)) (st : S) (rng : K) :
    run c' k (adam.map (convertOpt p m v)) st rng = (run c k adam st rng).map (convertState (convertOpt p m v) f) :=
  run_conv h k adam st rng

/-! ### The optimisers -/

theorem clipR_scale {a : ℝ} (ha : 0 ≤ a) (clip x : ℝ) : clipR (a * clip) (a * x) = a * clipR clip x := by
  unfold clipR
  rw [mul_min_of_nonneg _ _ ha, mul_max_of_nonneg _ _ ha, mul_neg]

theorem clipC_scale {a : ℝ} (ha : 0 ≤ a) (clip : ℝ) (z : ℂ) : clipC (a * clip) ((a : ℂ) * z) = a * clipC clip z := by
  unfold clipC
  rw [Complex.re_ofReal_mul, Complex.im_ofReal_mul, clipR_scale ha, clipR_scale ha]
  push_cast
  ring

theorem half_scale {a : ℝ} (ha : 0 < a) (z : ℂ) : ((a : ℂ) ^ 2 * z) ^ (1 / 2 : ℂ) = a * z ^ (1 / 2 : ℂ) := by
  by_cases hz : z = 0
  · rw [hz, mul_zero, Complex.zero_cpow (by norm_num), mul_zero]
  · have h2 : ((a : ℂ) ^ 2) = ((a ^ 2 : ℝ) : ℂ) := by push_cast; rfl
    have hp : 0 < a ^ 2 := by positivity
    have hne : ((a ^ 2 : ℝ) : ℂ) ≠ 0 := by exact_mod_cast hp.ne'
    rw [h2, Complex.cpow_def_of_ne_zero (mul_ne_zero hne hz), Complex.cpow_def_of_ne_zero hz, Complex.log_ofReal_mul hp hz, add_mul, Complex.exp_add]
    congr 1
    rw [Real.log_pow]
    push_cast
    rw [show (2 : ℂ) * (Real.log a : ℂ) * (1 / 2) = (Real.log a : ℂ) by ring, ← Complex.ofReal_exp, Real.exp_log ha]

theorem update_scale (lr : Nat → ℝ) (b1 b2 eps clip : ℝ) {a μ : ℝ} (ha : 0 < a) (d : ι → ℝ) (s : OptState (ι → ℝ)) :
    update (fun e => μ * lr e) b1 b2 (a * eps) (a * clip) (a • d) (convertOpt (μ • ·) (a • ·) (a ^ 2 • ·) s) =
      convertOpt (μ • ·) (a • ·) (a ^ 2 • ·) (update lr b1 b2 eps clip d s) := by
  have hm : ∀ j, b1 * (a * s.m j) + (1 - b1) * (a * clipR clip (d j)) = a * (b1 * s.m j + (1 - b1) * clipR clip (d j)) := fun j => by ring
  have hv : ∀ j, b2 * (a ^ 2 * s.v j) + (1 - b2) * (a * clipR clip (d j)) ^ 2 = a ^ 2 * (b2 * s.v j + (1 - b2) * clipR clip (d j) ^ 2) := fun j => by ring
  simp only [update, convertOpt, Pi.smul_apply, smul_eq_mul, clipR_scale ha.le, hm, hv]
  congr 1
  funext j
  rw [mul_div_assoc (a ^ 2), Real.sqrt_mul (sq_nonneg a), Real.sqrt_sq ha.le, ← mul_add]
  simp only [Pi.smul_apply, smul_eq_mul]
  rw [mul_div_assoc a, show ∀ q : ℝ, μ * lr s.epoch * (a * q) = a * (μ * (lr s.epoch * q)) from fun q => by ring, mul_div_mul_left _ _ ha.ne']
  ring

theorem updateC_scale (lr : Nat → ℝ) (b1 b2 eps clip : ℝ) {a μ : ℝ} (ha : 0 < a) (d : ι → ℂ) (s : OptState (ι → ℂ)) :
    updateC (fun e => μ * lr e) b1 b2 (a * eps) (a * clip) (a • d) (convertOpt (μ • ·) (a • ·) (a ^ 2 • ·) s) =
      convertOpt (μ • ·) (a • ·) (a ^ 2 • ·) (updateC lr b1 b2 eps clip d s) := by
  have hm : ∀ j, (b1 : ℂ) * (a * s.m j) + (1 - b1) * (a * clipC clip (d j)) = a * (b1 * s.m j + (1 - b1) * clipC clip (d j)) := fun j => by ring
  have hv : ∀ j, (b2 : ℂ) * ((a : ℂ) ^ 2 * s.v j) + (1 - b2) * (a * clipC clip (d j) * (starRingEnd ℂ) (a * clipC clip (d j))) =
      (a : ℂ) ^ 2 * (b2 * s.v j + (1 - b2) * (clipC clip (d j) * (starRingEnd ℂ) (clipC clip (d j)))) := fun j => by
    rw [map_mul, Complex.conj_ofReal]; ring
  have ha' : (a : ℂ) ≠ 0 := by exact_mod_cast ha.ne'
  simp only [updateC, convertOpt, Pi.smul_apply, Complex.real_smul, clipC_scale ha.le, Complex.ofReal_pow, hm, hv]
  congr 1
  · funext j
    rw [mul_div_assoc ((a : ℂ) ^ 2), half_scale ha]
    simp only [Pi.smul_apply, Complex.real_smul]
    push_cast
    rw [← mul_add, mul_div_assoc (a : ℂ), show ∀ q : ℂ, (μ : ℂ) * lr s.epoch * (a * q) = a * (μ * (lr s.epoch * q)) from fun q => by ring,
      mul_div_mul_left _ _ ha']
    ring
  · funext j
    simp only [Pi.smul_apply, Complex.real_smul, Complex.ofReal_pow]

theorem updateRinC_scale (lr : Nat → ℝ) (b1 b2 eps clip : ℝ) {a μ : ℝ} (ha : 0 < a) (d : ι → ℝ) (s : OptState (ι → ℝ)) :
    updateRinC (fun e => μ * lr e) b1 b2 (a * eps) (a * clip) (a • d) (convertOpt (μ • ·) (a • ·) (a ^ 2 • ·) s) =
      convertOpt (μ • ·) (a • ·) (a ^ 2 • ·) (updateRinC lr b1 b2 eps clip d s) := by
  unfold updateRinC
  rw [update_scale lr b1 b2 eps clip ha]
  rfl

/-! ### Other units for the loss and the parameters -/

theorem unit_lt {κ : ℝ} (hκ : 0 < κ) {c : Cfg α P S K (Option ℝ)} (h : RealLosses c) (a b : Option ℝ) :
    c.lt (a.map (κ * ·)) (b.map (κ * ·)) = c.lt a b := by
  rw [Bool.eq_iff_iff, h.lt, h.lt]
  cases a <;> cases b <;> simp [mul_lt_mul_iff_right₀ hκ]

theorem unit_le {κ : ℝ} (hκ : 0 < κ) {c : Cfg α P S K (Option ℝ)} (h : RealLosses c) (a b : Option ℝ) :
    c.le (a.map (κ * ·)) (b.map (κ * ·)) = c.le a b := by
  rw [Bool.eq_iff_iff, h.le, h.le]
  cases a <;> cases b <;> simp [mul_le_mul_iff_right₀ hκ]

theorem convert_id (d : Data α) : convert id id id d = d := by
  obtain ⟨X, Y, U⟩ := d
  cases Y <;> cases U <;> simp [convert]

theorem rescaled_same {V : Type} [AddCommGroup V] [Module ℝ V] (c : Cfg α V S K (Option ℝ)) (hc : RealLosses c) {κ μ : ℝ} (hκ : 0 < κ) (hμ : 0 < μ)
    (up : V → OptState V → OptState V) (m v : V → V)
    (hup : ∀ d a, up ((κ / μ) • d) (convertOpt (μ • ·) m v a) = convertOpt (μ • ·) m v (c.update d a)) :
    SameTraining c (rescaled κ μ up c) id id id (μ • ·) ((κ / μ) • ·) m v (Option.map (κ * ·)) := by
  have hps : ∀ ps : List V, (ps.map (μ • ·)).map (μ⁻¹ • ·) = ps := fun ps => by
    rw [List.map_map]
    conv_rhs => rw [← List.map_id ps]
    exact List.map_congr_left fun q _ => by simp [smul_smul, inv_mul_cancel₀ hμ.ne']
  refine ⟨rfl, rfl, rfl, rfl, rfl, rfl, rfl, rfl, rfl, rfl, (convert_id _).symm, (convert_id _).symm, rfl, rfl, ?_, fun a b => unit_lt hκ hc a b, fun a b => unit_le hκ hc a b, ?_, ?_, ?_, ?_, ?_, ?_, hup⟩
  · show c.zero = _
    rw [hc.zero]; simp
  · intro a b
    show c.sub _ _ = _
    rw [hc.sub, hc.sub]
    cases a <;> cases b <;> simp [mul_sub]
  · intro a b
    show c.add _ _ = _
    rw [hc.add, hc.add]
    cases a <;> cases b <;> simp [mul_add]
  · intro a n
    show c.divNat _ _ = _
    rw [hc.divNat, hc.divNat]
    cases a <;> simp [mul_div_assoc]
  · intro e b s k ps
    simp only [rescaled, convert_id, hps]
  · intro e b s k ps
    simp only [rescaled, convert_id, hps]
  · intro k e ps
    simp only [rescaled, hps]

/-- **C126** Other units for the loss and for real parameters: with the loss multiplied by `κ` and the parameters by `μ`, a training with a learning rate
multiplied by `μ` and with `eps` and `clip` multiplied by `κ / μ` goes exactly as the original one. The parameters it ends with, and those it keeps, are `μ` times the
original ones; every loss is `κ` times the original one, and it stops after the same number of epochs. -/
theorem C126_real (c : Cfg α (ι → ℝ) S K (Option ℝ)) (hc : RealLosses c) (lr : Nat → ℝ) (b1 b2 eps clip κ μ : ℝ) (hκ : 0 < κ) (hμ : 0 < μ) (x0 : List (ι → ℝ)) (k : K) (st : S) (rng : K) :
    (c.update = update lr b1 b2 eps clip →
      run (rescaled κ μ (update (fun e => μ * lr e) b1 b2 (κ / μ * eps) (κ / μ * clip)) c) k (x0.map fun x => Adam.init (μ • x)) st rng =
        (run c k (x0.map Adam.init) st rng).map (convertState (convertOpt (μ • ·) ((κ / μ) • ·) ((κ / μ) ^ 2 • ·)) (Option.map (κ * ·)))) ∧
    (c.update = updateRinC lr b1 b2 eps clip →
      run (rescaled κ μ (updateRinC (fun e => μ * lr e) b1 b2 (κ / μ * eps) (κ / μ * clip)) c) k (x0.map fun x => Adam.init (μ • x)) st rng =
        (run c k (x0.map Adam.init) st rng).map (convertState (convertOpt (μ • ·) ((κ / μ) • ·) ((κ / μ) ^ 2 • ·)) (Option.map (κ * ·)))) := by
  have h0 : (x0.map fun x => Adam.init (μ • x)) = (x0.map Adam.init).map (convertOpt (μ • ·) ((κ / μ) • ·) ((κ / μ) ^ 2 • ·)) := by
    rw [List.map_map]
    refine List.map_congr_left fun x _ => ?_
    simp only [Adam.init, convertOpt, Function.comp]
    congr 1 <;> · funext j; simp
  refine ⟨fun hu => ?_, fun hu => ?_⟩
  · rw [h0]
    exact run_conv (rescaled_same c hc hκ hμ _ _ _ fun d a => by rw [hu]; exact update_scale lr b1 b2 eps clip (div_pos hκ hμ) d a) k _ st rng
  · rw [h0]
    exact run_conv (rescaled_same c hc hκ hμ _ _ _ fun d a => by rw [hu]; exact updateRinC_scale lr b1 b2 eps clip (div_pos hκ hμ) d a) k _ st rng

/-- **C126** The same for complex parameters. -/
theorem C126_complex (c : Cfg α (ι → ℂ) S K (Option ℝ)) (hc : RealLosses c) (lr : Nat → ℝ) (b1 b2 eps clip κ μ : ℝ) (hκ : 0 < κ) (hμ : 0 < μ)
    (hu : c.update = updateC lr b1 b2 eps clip) (x0 : List (ι → ℂ)) (k : K) (st : S) (rng : K) :
    run (rescaled κ μ (updateC (fun e => μ * lr e) b1 b2 (κ / μ * eps) (κ / μ * clip)) c) k (x0.map fun x => initC (μ • x)) st rng =
      (run c k (x0.map initC) st rng).map (convertState (convertOpt (μ • ·) ((κ / μ) • ·) ((κ / μ) ^ 2 • ·)) (Option.map (κ * ·))) := by
  have h0 : (x0.map fun x => initC (μ • x)) = (x0.map initC).map (convertOpt (μ • ·) ((κ / μ) • ·) ((κ / μ) ^ 2 • ·)) := by
    rw [List.map_map]
    refine List.map_congr_left fun x _ => ?_
    simp only [initC, convertOpt, Function.comp]
    congr 1 <;> · funext j; simp
  rw [h0]
  exact run_conv (rescaled_same c hc hκ hμ _ _ _ fun d a => by rw [hu]; exact updateC_scale lr b1 b2 eps clip (div_pos hκ hμ) d a) k _ st rng

/-- **C126** The gradients of `rescaled` are the gradients: of `κ` times the loss as a function of parameters that are `μ` times the original ones.
Nothing is assumed of the loss. -/
theorem C126_gradient {ι : Type} [DecidableEq ι] (κ μ : ℝ) :
    (∀ (L : (ι → ℝ) → ℝ) (M : ι → ℝ), gradR (fun X => κ * L (μ⁻¹ • X)) M = (κ / μ) • gradR L (μ⁻¹ • M)) ∧
    ∀ (L : (ι → ℂ) → ℝ) (M : ι → ℂ), gradC (fun X => κ * L (μ⁻¹ • X)) M = (κ / μ) • gradC L (μ⁻¹ • M) := by
  have key : ∀ f : ℝ → ℝ, deriv (fun t => κ * f (μ⁻¹ * t)) 0 = κ / μ * deriv f 0 := fun f => by
    rw [deriv_const_mul_field, deriv_comp_mul_left, mul_zero, smul_eq_mul]
    ring
  refine ⟨fun L M => funext fun i => ?_, fun L M => funext fun i => ?_⟩
  · have hb : ∀ t : ℝ, μ⁻¹ • Function.update M i (M i + t) = Function.update (μ⁻¹ • M) i ((μ⁻¹ • M) i + μ⁻¹ * t) := fun t => by
      rw [← Function.update_smul]
      simp [mul_add]
    simp only [gradR, hb]
    exact key fun t => L (Function.update (μ⁻¹ • M) i ((μ⁻¹ • M) i + t))
  · have hb : ∀ t : ℝ, μ⁻¹ • Function.update M i (M i + (t : ℂ)) = Function.update (μ⁻¹ • M) i ((μ⁻¹ • M) i + ((μ⁻¹ * t : ℝ) : ℂ)) := fun t => by
      rw [← Function.update_smul]
      simp [mul_add]
    have hb' : ∀ t : ℝ, μ⁻¹ • Function.update M i (M i + t * Complex.I) = Function.update (μ⁻¹ • M) i ((μ⁻¹ • M) i + ((μ⁻¹ * t : ℝ) : ℂ) * Complex.I) :=
      fun t => by
        rw [← Function.update_smul]
        simp [mul_add, mul_assoc]
    have e1 : ∀ A B : ℝ, ((κ / μ * A : ℝ) : ℂ) - Complex.I * ((κ / μ * B : ℝ) : ℂ) = (κ / μ) • ((A : ℂ) - Complex.I * (B : ℂ)) := fun A B => by
      rw [Complex.real_smul]
      push_cast
      ring
    refine Eq.trans ?_ (e1 _ _)
    simp only [gradC, hb, hb']
    rw [key fun t => L (Function.update (μ⁻¹ • M) i ((μ⁻¹ • M) i + (t : ℂ))), key fun t => L (Function.update (μ⁻¹ • M) i ((μ⁻¹ • M) i + t * Complex.I))]

/-- **C126** With `eps` as it is another factor of the loss changes the training: already the first step is different. -/
theorem C126_eps_needed (lr : Nat → ℝ) (b1 b2 eps clip κ g x0 : ℝ) (hlr : lr 0 ≠ 0) (h1 : b1 < 1) (h2 : b2 < 1) (he : 0 < eps) (hκ : 0 < κ) (hκ1 : κ ≠ 1)
    (hg : 0 < g) (hc : g ≤ clip) (hc' : κ * g ≤ clip) :
    (update lr b1 b2 eps clip (κ • fun _ : Unit => g) (Adam.init fun _ => x0)).params () ≠ (update lr b1 b2 eps clip (fun _ : Unit => g) (Adam.init fun _ => x0)).params () := by
  have first : ∀ d : ℝ, 0 < d → d ≤ clip → (update lr b1 b2 eps clip (fun _ : Unit => d) (Adam.init fun _ => x0)).params () = x0 - lr 0 * (d / (d + eps)) := fun d hd hdc => by
    have hcl : clipR clip d = d := by
      unfold clipR
      rw [max_eq_left (by linarith), min_eq_left hdc]
    have p1 : 1 - b1 ≠ 0 := by linarith
    have p2 : 1 - b2 ≠ 0 := by linarith
    simp only [update, Adam.init, hcl, mul_zero, zero_add, pow_one]
    rw [mul_div_cancel_left₀ _ p1, mul_div_cancel_left₀ _ p2, Real.sqrt_sq hd.le, mul_div_assoc]
  have e : (κ • fun _ : Unit => g) = fun _ => κ * g := by funext j; simp
  rw [e, first _ (mul_pos hκ hg) hc', first g hg hc]
  intro h
  have h3 : κ * g / (κ * g + eps) = g / (g + eps) := by
    have := mul_left_cancel₀ hlr (by linarith : lr 0 * (κ * g / (κ * g + eps)) = lr 0 * (g / (g + eps)))
    exact this
  have q1 : κ * g + eps ≠ 0 := by have := mul_pos hκ hg; linarith
  have q2 : g + eps ≠ 0 := by linarith
  rw [div_eq_div_iff q1 q2] at h3
  have h4 : (κ - 1) * (g * eps) = 0 := by linarith
  rcases mul_eq_zero.1 h4 with h5 | h5
  · exact hκ1 (by linarith)
  · exact (mul_pos hg he).ne' h5

/-! ### The built-in losses in other units -/

theorem map2_conv {A B C A' B' C' : Type} {f : A → B → C} {f' : A' → B' → C'} {a : A → A'} {b : B → B'} {t : C → C'}
    (h : ∀ x y, f' (a x) (b y) = t (f x y)) (X : Leaves A) (Y : Leaves B) : map2 f' (map1 a X) (map1 b Y) = (map2 f X Y).map (map1 t) := by
  have h1 : (List.zipWith (fun (x : List A') (y : List B') => decide (x.length = y.length)) (map1 a X) (map1 b Y)) =
      List.zipWith (fun (x : List A) (y : List B) => decide (x.length = y.length)) X Y := by
    simp [map1, List.zipWith_map]
  have h2 : List.zipWith (List.zipWith f') (map1 a X) (map1 b Y) = map1 t (List.zipWith (List.zipWith f) X Y) := by
    unfold map1
    rw [List.zipWith_map, List.map_zipWith]
    congr 1
    funext x y
    rw [List.zipWith_map, List.map_zipWith]
    congr 1
    funext x y
    exact h x y
  unfold map2
  rw [h1, h2]
  simp only [map1, List.length_map]
  split
  · rfl
  · split <;> rfl

theorem fsum_scale (κ : ℝ) (x : List (Option ℝ)) : fsum (x.map (Option.map (κ * ·))) = (fsum x).map (κ * ·) := by
  induction x with
  | nil => simp [fsum]
  | cons a x ih =>
    unfold fsum at ih ⊢
    rw [List.map_cons, List.foldr_cons, List.foldr_cons, ih]
    cases a <;> cases List.foldr (lift2 (· + ·)) (some (0 : ℝ)) x <;> simp [lift2, mul_add]

theorem mean_scale (κ : ℝ) (X : Leaves (Option ℝ)) : mean (map1 (Option.map (κ * ·)) X) = (mean X).map (κ * ·) := by
  have h1 : (map1 (Option.map (κ * ·)) X).map fsum = (X.map fsum).map (Option.map (κ * ·)) := by
    simp only [map1, List.map_map]
    exact List.map_congr_left fun x _ => fsum_scale κ x
  have h2 : (map1 (Option.map (κ * ·)) X).map List.length = X.map List.length := by
    simp only [map1, List.map_map]
    exact List.map_congr_left fun x _ => by simp
  have h3 : ∀ a b, fdiv (Option.map (κ * ·) a) (some b) = (fdiv a (some b)).map (κ * ·) := fun a b => by
    cases a with
    | none => rfl
    | some a =>
      simp only [fdiv, Option.map_some, Option.bind_some]
      split <;> simp [mul_div_assoc]
  unfold mean
  rw [h1, h2]
  simp only
  rw [← h3]
  congr 1
  exact fsum_scale κ _

variable {𝕜 : Type} [RCLike 𝕜]

/-- All entries of a tree multiplied by a number. -/
def times (a : 𝕜) (X : Leaves (Option 𝕜)) : Leaves (Option 𝕜) := map1 (Option.map (a * ·)) X

theorem fsub_times (a : 𝕜) (X Y : Leaves (Option 𝕜)) : fsub (times a X) (times a Y) = (fsub X Y).map (times a) :=
  map2_conv (fun x y => by cases x <;> cases y <;> simp [lift2, mul_sub]) X Y

theorem fdivT_times {a : 𝕜} (ha : a ≠ 0) (X Y : Leaves (Option 𝕜)) : fdivT (times a X) (times a Y) = fdivT X Y := by
  have := map2_conv (f := fdiv (𝕜 := 𝕜)) (f' := fdiv) (a := Option.map (a * ·)) (b := Option.map (a * ·)) (t := id) (fun x y => by
    cases x with
    | none => rfl
    | some x =>
      cases y with
      | none => rfl
      | some y =>
        simp only [fdiv, Option.map_some, Option.bind_some, mul_eq_zero, ha, false_or, id]
        split
        · rfl
        · rw [mul_div_mul_left _ _ ha]) X Y
  unfold fdivT times
  rw [this]
  have h : ∀ Z : Leaves (Option 𝕜), map1 id Z = Z := fun Z => by simp [map1]
  cases map2 fdiv X Y with
  | error e => rfl
  | ok Z => simp [Except.map, h]

theorem fabs_times (a : 𝕜) (X : Leaves (Option 𝕜)) : fabs (times a X) = map1 (Option.map (‖a‖ * ·)) (fabs X) := by
  simp only [fabs, times, map1, List.map_map]
  refine List.map_congr_left fun x _ => ?_
  simp only [Function.comp, List.map_map]
  refine List.map_congr_left fun z _ => ?_
  cases z <;> simp

theorem fabsSqr_times (a : 𝕜) (X : Leaves (Option 𝕜)) : fabsSqr (times a X) = map1 (Option.map (‖a‖ ^ 2 * ·)) (fabsSqr X) := by
  simp only [fabsSqr, times, map1, List.map_map]
  refine List.map_congr_left fun x _ => ?_
  simp only [Function.comp, List.map_map]
  refine List.map_congr_left fun z _ => ?_
  cases z <;> simp [mul_pow]

/-- **C126** Predictions and targets in other units: `mse` is multiplied by the square of the factor and `mae` by the factor; `pseudo_huber` is multiplied by the square
if its `delta` is converted as well; the losses that divide by the uncertainties do not change if these are converted as well. -/
theorem C126_losses (a : 𝕜) (ha : a ≠ 0) (P Y U : Leaves (Option 𝕜)) :
    loss .mse (times a P) (times a Y) U = (loss .mse P Y U).map (Option.map (‖a‖ ^ 2 * ·)) ∧
    loss .mae (times a P) (times a Y) U = (loss .mae P Y U).map (Option.map (‖a‖ * ·)) ∧
    (∀ δ : ℝ, loss (.huber (‖a‖ * δ)) (times a P) (times a Y) U = (loss (.huber δ) P Y U).map (Option.map (‖a‖ ^ 2 * ·))) ∧
    loss .mseUnc (times a P) (times a Y) (times a U) = loss .mseUnc P Y U ∧
    loss .maeUnc (times a P) (times a Y) (times a U) = loss .maeUnc P Y U := by
  refine ⟨?_, ?_, fun δ => ?_, ?_, ?_⟩
  · unfold loss
    rw [fsub_times]
    cases fsub P Y with
    | error e => rfl
    | ok e => simp only [Except.map, bind, Except.bind, pure, Except.pure, fabsSqr_times, mean_scale]
  · unfold loss
    rw [fsub_times]
    cases fsub P Y with
    | error e => rfl
    | ok e => simp only [Except.map, bind, Except.bind, pure, Except.pure, fabs_times, mean_scale]
  · unfold loss
    rw [fsub_times]
    cases fsub P Y with
    | error e => rfl
    | ok e =>
      have hl : (times a e).length = e.length := by simp [times, map1]
      have hq : fabsSqr (map1 (fun x => fdiv x (some (((‖a‖ * δ : ℝ)) : 𝕜))) (times a e)) = fabsSqr (map1 (fun x => fdiv x (some ((δ : ℝ) : 𝕜))) e) := by
        simp only [fabsSqr, times, map1, List.map_map]
        refine List.map_congr_left fun x _ => ?_
        simp only [Function.comp, List.map_map]
        refine List.map_congr_left fun z _ => ?_
        cases z with
        | none => rfl
        | some z =>
          have hna : (‖a‖ : ℝ) ≠ 0 := norm_ne_zero_iff.2 ha
          by_cases hδ : δ = 0
          · simp [fdiv, hδ]
          · simp only [fdiv, Function.comp, Option.map_some, Option.bind_some]
            rw [if_neg (by simp [hna, hδ]), if_neg (by simp [hδ])]
            simp only [Option.map_some, norm_div, norm_mul, RCLike.norm_ofReal, abs_mul, abs_norm]
            rw [mul_div_mul_left _ _ hna]
      simp only [Except.map, bind, Except.bind, pure, Except.pure, hl, hq]
      split
      · rfl
      · dsimp only
        rw [← mean_scale]
        congr 2
        simp only [map1, List.map_map]
        refine List.map_congr_left fun x _ => ?_
        simp only [Function.comp, List.map_map]
        refine List.map_congr_left fun z _ => ?_
        cases z with
        | none => rfl
        | some z => simp only [Function.comp, Option.map_some]; congr 1; ring
  · unfold loss
    rw [fsub_times]
    cases fsub P Y with
    | error e => rfl
    | ok e => simp only [Except.map, bind, Except.bind, fdivT_times ha]
  · unfold loss
    rw [fsub_times]
    cases fsub P Y with
    | error e => rfl
    | ok e => simp only [Except.map, bind, Except.bind, fdivT_times ha]

/-- **C126** The relative errors are not independent of the units: a small number is added to the targets before dividing. -/
theorem C126_relative_refuted : ¬ ∀ (a : ℝ), 0 < a → ∀ P Y : Leaves (Option ℝ), loss .mre (times a P) (times a Y) [] = loss .mre P Y [] := by
  intro h
  have := h 2 two_pos [[some 2]] [[some 1]]
  simp [loss, times, map1, fsub, map2, lift2, fdivT, fdiv, scalarAdd, tiny, fabs, mean, fsum, bind, Except.bind, pure, Except.pure] at this
  norm_num at this

/-- A training of one real parameter `x` with the loss `x²`, for the example. -/
noncomputable def squareCfg : Cfg Nat (Unit → ℝ) Unit Nat (Option ℝ) where
  perm _ n := List.range n
  splitN _ n := List.range n
  split k := (k + 1, k + 7)
  grad _ _ s _ ps := (ps.map fun x _ => 2 * x (), s)
  valLoss _ _ _ _ ps := (ps.head?.map fun x => x () ^ 2)
  update := update (fun _ => 1 / 10) 0.9 0.999 1e-8 1e3
  callback k _ ps := (k, ps)
  verbose := false
  interrupted _ := false
  flags := [true]
  train := ⟨[[1, 2]], none, none⟩
  val := ⟨[[1, 2]], none, none⟩
  batchSize := 1
  valBatchSize := 2
  epochs := 10
  target := some 0
  patience := 5
  minDelta := some 0
  lt a b := match a, b with
    | some r, some q => decide (r < q)
    | _, _ => false
  le a b := match a, b with
    | some r, some q => decide (r ≤ q)
    | _, _ => false
  sub a b := a.bind fun r => b.map fun q => r - q
  add a b := a.bind fun r => b.map fun q => r + q
  divNat a n := a.map (· / (n : ℝ))
  zero := some 0

/-- Its loss in other units: the hypotheses of `C126_real` hold, and the gradient and the loss of the rescaled training are those of `7 (x / 3)²`. -/
example : RealLosses squareCfg ∧ (∀ up e b s k (x : Unit → ℝ), (rescaled 7 3 up squareCfg).grad e b s k [x] = ([fun _ => 7 * (2 * (x () / 3)) / 3], s) ∧
      (rescaled 7 3 up squareCfg).valLoss e b s k [x] = some (7 * (x () / 3) ^ 2)) ∧
    run (rescaled 7 3 (update (fun e => 3 * (fun _ => 1 / 10) e) 0.9 0.999 (7 / 3 * 1e-8) (7 / 3 * 1e3)) squareCfg) 0 ([fun _ => 5].map fun x => Adam.init ((3 : ℝ) • x)) () 0 =
      (run squareCfg 0 ([fun _ => 5].map Adam.init) () 0).map
        (convertState (convertOpt ((3 : ℝ) • ·) ((7 / 3 : ℝ) • ·) ((7 / 3 : ℝ) ^ 2 • ·)) (Option.map ((7 : ℝ) * ·))) := by
  have h : RealLosses squareCfg := by
    refine ⟨fun a b => ?_, fun a b => ?_, fun _ _ => rfl, fun _ _ => rfl, fun _ _ => rfl, rfl⟩ <;> cases a <;> cases b <;> simp [squareCfg]
  refine ⟨h, fun up e b s k x => ⟨?_, ?_⟩, (C126_real squareCfg h _ _ _ _ _ 7 3 (by norm_num) (by norm_num) _ 0 () 0).1 rfl⟩
  · simp only [rescaled, squareCfg, List.map_cons, List.map_nil]
    congr 2
    funext j
    simp
    ring
  · simp [rescaled, squareCfg]
    ring

end Verif.Props
