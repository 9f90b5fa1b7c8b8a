import Verif.Props.NetUniversalMore

/-! # C145: universal approximation with sigmoids -/

namespace Verif.Props
open Prebuilt NetworkSpec Network

variable (draw : Nat → List Nat → ℝ) (drawB : List Nat → List Nat → ℝ)

/-- Steep steps at the nodes come close to a continuous function. -/
theorem steps_approx (φ : ℝ → ℝ) (h01 : ∀ v, 0 ≤ φ v ∧ φ v ≤ 1) (hlim : ∀ η > 0, ∃ T > 0, (∀ v ≥ T, 1 - η ≤ φ v) ∧ ∀ v ≤ -T, φ v ≤ η)
    (a b : ℝ) (hab : a < b) (g : ℝ → ℝ) (hg : ContinuousOn g (Set.Icc a b)) (ε : ℝ) (hε : 0 < ε) :
    ∃ (N : Nat) (c u : Nat → ℝ) (s d : ℝ), ∀ v ∈ Set.Icc a b, |d + ∑ k ∈ Finset.range N, c k * φ (s * (v - u k)) - g v| ≤ ε := by
  set ω := ε / 4 with hω
  have hω0 : 0 < ω := by positivity
  obtain ⟨δ, hδ, huc⟩ := Metric.uniformContinuousOn_iff.1 (isCompact_Icc.uniformContinuousOn_of_continuous hg) ω hω0
  obtain ⟨n, hn⟩ := exists_nat_gt ((b - a) / δ)
  set h : ℝ := (b - a) / (n + 1) with hh
  have hn1 : (0 : ℝ) < n + 1 := by positivity
  have hpos : 0 < h := div_pos (sub_pos.2 hab) hn1
  have hsmall : h < δ := by
    rw [div_lt_iff₀ hδ] at hn
    rw [hh, div_lt_iff₀ hn1]
    linarith
  have hend : h * (n + 1) = b - a := div_mul_cancel₀ _ hn1.ne'
  set u : Nat → ℝ := fun k => a + k * h with hu
  have hmem : ∀ k < n + 1 + 1, u k ∈ Set.Icc a b := fun k hk => by
    have h1 : (k : ℝ) ≤ n + 1 := by exact_mod_cast Nat.lt_succ_iff.1 hk
    have h2 : (k : ℝ) * h ≤ (n + 1) * h := mul_le_mul_of_nonneg_right h1 hpos.le
    have h3 : 0 ≤ (k : ℝ) * h := by positivity
    exact ⟨by simp only [hu]; linarith, by simp only [hu]; linarith⟩
  have hstep : ∀ i, u (i + 1) = u i + h := fun i => by simp only [hu]; push_cast; ring
  have hle : ∀ i k, i ≤ k → u i ≤ u k := fun i k hik => by
    have h1 : (i : ℝ) ≤ k := Nat.cast_le.2 hik
    simp only [hu]
    linarith [mul_le_mul_of_nonneg_right h1 hpos.le]
  obtain ⟨T, hT, ht1, ht2⟩ := hlim (1 / (n + 1)) (by positivity)
  have hs : T / h * h = T := div_mul_cancel₀ _ hpos.ne'
  have hs0 : 0 < T / h := div_pos hT hpos
  have hc : ∀ k < n + 1, |g (u (k + 1)) - g (u k)| ≤ ω := fun k hk => by
    have := huc _ (hmem (k + 1) (by omega)) _ (hmem k (by omega)) (by rw [Real.dist_eq, hstep, add_sub_cancel_left, abs_of_pos hpos]; exact hsmall)
    rw [Real.dist_eq] at this
    exact this.le
  refine ⟨n + 1, fun k => g (u (k + 1)) - g (u k), fun k => u (k + 1), T / h, g (u 0), fun v hv => ?_⟩
  obtain ⟨i, hi, hl, hr⟩ := find_gap u v n (by simp only [hu]; push_cast; linarith [hv.1]) (by simp only [hu]; push_cast; linarith [hv.2])
  have e1 : g (u i) = g (u 0) + ∑ k ∈ Finset.range (n + 1), (g (u (k + 1)) - g (u k)) * (if k < i then 1 else 0) := by
    have h1 := Finset.sum_range_sub (fun k => g (u k)) i
    have h2 : ∑ k ∈ Finset.range (n + 1), (g (u (k + 1)) - g (u k)) * (if k < i then 1 else 0) = ∑ k ∈ Finset.range i, (g (u (k + 1)) - g (u k)) := by
      simp only [mul_ite, mul_one, mul_zero]
      rw [← Finset.sum_filter]
      congr 1
      ext k
      simp only [Finset.mem_filter, Finset.mem_range]
      omega
    rw [h2, h1]
    ring
  have e2 : g (u 0) + ∑ k ∈ Finset.range (n + 1), (g (u (k + 1)) - g (u k)) * φ (T / h * (v - u (k + 1))) - g (u i) =
      ∑ k ∈ Finset.range (n + 1), (g (u (k + 1)) - g (u k)) * (φ (T / h * (v - u (k + 1))) - if k < i then 1 else 0) := by
    rw [e1, add_sub_add_left_eq_sub, ← Finset.sum_sub_distrib]
    simp only [mul_sub]
  have hterm : ∀ k < n + 1, |φ (T / h * (v - u (k + 1))) - if k < i then 1 else 0| ≤ 1 / (n + 1) + (if k = i - 1 then 1 else 0) + if k = i then 1 else 0 := fun k _ => by
    have hp : (0 : ℝ) < 1 / (n + 1) := by positivity
    obtain ⟨p0, p1⟩ := h01 (T / h * (v - u (k + 1)))
    by_cases hk1 : k + 2 ≤ i
    · have h1 : h ≤ v - u (k + 1) := by linarith [hle (k + 2) i hk1, hstep (k + 1)]
      have h2 := ht1 (T / h * (v - u (k + 1))) (by have := mul_le_mul_of_nonneg_left h1 hs0.le; linarith)
      rw [if_pos (by omega), if_neg (by omega), if_neg (by omega), abs_le]
      constructor <;> linarith
    · by_cases hk2 : i + 1 ≤ k
      · have h1 : v - u (k + 1) ≤ -h := by linarith [hle (i + 1) k hk2, hstep k]
        have h2 := ht2 (T / h * (v - u (k + 1))) (by have := mul_le_mul_of_nonneg_left h1 hs0.le; linarith)
        rw [if_neg (by omega), if_neg (by omega), if_neg (by omega), abs_le]
        constructor <;> linarith
      · have h1 : |φ (T / h * (v - u (k + 1))) - if k < i then 1 else 0| ≤ 1 := by
          rw [abs_le]
          split <;> constructor <;> linarith
        have h2 : k = i - 1 ∨ k = i := by omega
        rcases h2 with h2 | h2
        · rw [if_pos h2]
          have : (0 : ℝ) ≤ if k = i then 1 else 0 := by split <;> norm_num
          linarith
        · rw [if_pos h2]
          have : (0 : ℝ) ≤ if k = i - 1 then 1 else 0 := by split <;> norm_num
          linarith
  have hsum : |∑ k ∈ Finset.range (n + 1), (g (u (k + 1)) - g (u k)) * (φ (T / h * (v - u (k + 1))) - if k < i then 1 else 0)| ≤ ω * 3 := by
    refine (Finset.abs_sum_le_sum_abs _ _).trans ?_
    calc ∑ k ∈ Finset.range (n + 1), |(g (u (k + 1)) - g (u k)) * (φ (T / h * (v - u (k + 1))) - if k < i then 1 else 0)|
        ≤ ∑ k ∈ Finset.range (n + 1), ω * (1 / (n + 1) + (if k = i - 1 then 1 else 0) + if k = i then 1 else 0) := by
          refine Finset.sum_le_sum fun k hk => ?_
          rw [abs_mul]
          exact mul_le_mul (hc k (Finset.mem_range.1 hk)) (hterm k (Finset.mem_range.1 hk)) (abs_nonneg _) hω0.le
      _ = ω * (1 + (if i - 1 ∈ Finset.range (n + 1) then 1 else 0) + if i ∈ Finset.range (n + 1) then 1 else 0) := by
          rw [← Finset.mul_sum, Finset.sum_add_distrib, Finset.sum_add_distrib, Finset.sum_ite_eq', Finset.sum_ite_eq', Finset.sum_const, Finset.card_range, nsmul_eq_mul]
          push_cast
          rw [mul_one_div_cancel hn1.ne']
      _ ≤ ω * 3 := by
          refine mul_le_mul_of_nonneg_left ?_ hω0.le
          split <;> split <;> norm_num
  have hgv := huc _ (hmem i (by omega)) v hv (by rw [Real.dist_eq, abs_lt]; constructor <;> linarith [hstep i])
  rw [Real.dist_eq] at hgv
  rw [← e2] at hsum
  have := abs_sub_le (g (u 0) + ∑ k ∈ Finset.range (n + 1), (g (u (k + 1)) - g (u k)) * φ (T / h * (v - u (k + 1)))) (g (u i)) (g v)
  simp only
  linarith

theorem units_of (φ : ℝ → ℝ) {f : Nat} {ι : Type} [Fintype ι] (c : ι → ℝ) (w : ι → Fin f → ℝ) (b : ι → ℝ) (d : ℝ) : Units φ fun z : Fin f → ℝ => d + ∑ i, c i * φ (∑ j, w i j * z j + b i) :=
  ⟨Fintype.card ι, fun k => c ((Fintype.equivFin ι).symm k), fun k => w ((Fintype.equivFin ι).symm k), fun k => b ((Fintype.equivFin ι).symm k), d, fun z =>
    congrArg (d + ·) ((Fintype.equivFin ι).symm.sum_comp fun i => c i * φ (∑ j, w i j * z j + b i)).symm⟩

theorem units_sum (φ : ℝ → ℝ) {f n : Nat} (C : Fin n → ℝ) (h : Fin n → (Fin f → ℝ) → ℝ) (hr : ∀ i, Units φ (h i)) : Units φ fun z => ∑ i, C i * h i z := by
  choose m c w b d e using hr
  obtain ⟨N, c', w', b', d', e'⟩ := units_of φ (ι := Σ i, Fin (m i)) (fun p => C p.1 * c p.1 p.2) (fun p => w p.1 p.2) (fun p => b p.1 p.2) (∑ i, C i * d i)
  refine ⟨N, c', w', b', d', fun z => ?_⟩
  rw [← e' z]
  simp only
  rw [Fintype.sum_sigma, ← Finset.sum_add_distrib]
  refine Finset.sum_congr rfl fun i _ => ?_
  rw [e i z, mul_add, Finset.mul_sum]
  simp only [mul_assoc]

/-- **C145 (sigmoids).** Networks with one hidden layer of an activation that stays between two numbers and tends to the smaller one on the left and to the larger one on the right, and a last layer without activation approximate every continuous function on a compact set. -/
theorem C145_universal_sigmoids (φ : ℝ → ℝ) (lo hi : ℝ) (hlh : lo < hi) (hb : ∀ v, φ v ∈ Set.Icc lo hi) (htop : Filter.Tendsto φ Filter.atTop (nhds hi)) (hbot : Filter.Tendsto φ Filter.atBot (nhds lo))
    (f m : Nat) (K : Set (Fin f → ℝ)) (hK : IsCompact K) (g : Fin m → (Fin f → ℝ) → ℝ) (hg : ∀ r, ContinuousOn (g r) K) (ε : ℝ) (hε : 0 < ε) :
    ∃ L M : Layer, L.act = some φ ∧ M.out = m ∧ M.act = Option.none ∧
      ∀ x : Nat → ℝ, (fun j : Fin f => x j) ∈ K → ∃ y, predictNet draw drawB f [L, M] x = some y ∧ ∀ r : Fin m, |y r - g r fun j => x j| ≤ ε := by
  have hD : 0 < hi - lo := sub_pos.2 hlh
  have h01 : ∀ v, 0 ≤ (φ v - lo) / (hi - lo) ∧ (φ v - lo) / (hi - lo) ≤ 1 := fun v =>
    ⟨div_nonneg (by linarith [(hb v).1]) hD.le, (div_le_one hD).2 (by linarith [(hb v).2])⟩
  have hlim : ∀ η > 0, ∃ T > 0, (∀ v ≥ T, 1 - η ≤ (φ v - lo) / (hi - lo)) ∧ ∀ v ≤ -T, (φ v - lo) / (hi - lo) ≤ η := fun η hη => by
    have hp : 0 < η * (hi - lo) := mul_pos hη hD
    obtain ⟨T1, hT1⟩ := Filter.eventually_atTop.1 (htop.eventually (lt_mem_nhds (show hi - η * (hi - lo) < hi by linarith)))
    obtain ⟨T2, hT2⟩ := Filter.eventually_atBot.1 (hbot.eventually (gt_mem_nhds (show lo < lo + η * (hi - lo) by linarith)))
    refine ⟨|T1| + |T2| + 1, by positivity, fun v hv => ?_, fun v hv => ?_⟩
    · have := hT1 v (by linarith [le_abs_self T1, abs_nonneg T2])
      rw [le_div_iff₀ hD]
      linarith
    · have := hT2 v (by linarith [neg_abs_le T2, abs_nonneg T1])
      rw [div_le_iff₀ hD]
      linarith
  have ridge : ∀ (w : Fin f → ℝ) (δ : ℝ), 0 < δ → ∃ h, Units φ h ∧ ∀ z ∈ K, |h z - Real.exp (∑ j, w j * z j)| ≤ δ := fun w δ hδ => by
    have hc : Continuous fun z : Fin f → ℝ => ∑ j, w j * z j := by fun_prop
    obtain ⟨R, hR⟩ := (hK.image hc).isBounded.exists_norm_le
    have hR' : ∀ z ∈ K, ∑ j, w j * z j ∈ Set.Icc (-(|R| + 1)) (|R| + 1) := fun z hz => by
      have := hR _ (Set.mem_image_of_mem _ hz)
      rw [Real.norm_eq_abs] at this
      have := abs_le.1 (this.trans (le_abs_self R))
      exact ⟨by linarith, by linarith⟩
    obtain ⟨N, c, u, s, d, happ⟩ := steps_approx _ h01 hlim (-(|R| + 1)) (|R| + 1) (by linarith [abs_nonneg R]) Real.exp Real.continuous_exp.continuousOn δ hδ
    refine ⟨_, units_of φ (ι := Fin N) (fun k => c k / (hi - lo)) (fun _ j => s * w j) (fun k => -(s * u k)) (d - ∑ k : Fin N, c k * lo / (hi - lo)), fun z hz => ?_⟩
    have := happ _ (hR' z hz)
    rw [Finset.sum_range] at this
    have e : d + ∑ k : Fin N, c k * ((φ (s * (∑ j, w j * z j - u k)) - lo) / (hi - lo)) =
        d - ∑ k : Fin N, c k * lo / (hi - lo) + ∑ k : Fin N, c k / (hi - lo) * φ (∑ j, s * w j * z j + -(s * u k)) := by
      have e1 : ∀ k : Fin N, ∑ j, s * w j * z j + -(s * u k) = s * (∑ j, w j * z j - u k) := fun k => by
        rw [mul_sub, Finset.mul_sum, sub_eq_add_neg]
        simp only [mul_assoc]
      simp only [e1]
      rw [sub_add_eq_add_sub, add_sub_assoc, ← Finset.sum_sub_distrib]
      refine congrArg (d + ·) (Finset.sum_congr rfl fun k _ => by ring)
    rw [e] at this
    exact this
  have hu : ∀ r, ∃ h, Units φ h ∧ ∀ z ∈ K, |h z - g r z| ≤ ε := fun r => by
    obtain ⟨h, ⟨n, c, w, e⟩, hd⟩ := expSum_dense K hK (g r) (hg r) (ε / 2) (by linarith)
    set S := ∑ i, |c i| with hS
    have hS0 : 0 ≤ S := Finset.sum_nonneg fun i _ => abs_nonneg _
    have hδ : 0 < ε / 2 / (S + 1) := by positivity
    have hr := fun i => ridge (w i) _ hδ
    choose q hq hqe using hr
    refine ⟨_, units_sum φ c q hq, fun z hz => ?_⟩
    have h1 : |∑ i, c i * q i z - h z| ≤ ε / 2 := by
      rw [e z, ← Finset.sum_sub_distrib]
      refine (Finset.abs_sum_le_sum_abs _ _).trans ?_
      calc ∑ i, |c i * q i z - c i * Real.exp (∑ j, w i j * z j)| ≤ ∑ i, |c i| * (ε / 2 / (S + 1)) := by
            refine Finset.sum_le_sum fun i _ => ?_
            rw [← mul_sub, abs_mul]
            exact mul_le_mul_of_nonneg_left (hqe i z hz) (abs_nonneg _)
        _ = S * (ε / 2 / (S + 1)) := by rw [← Finset.sum_mul]
        _ ≤ (S + 1) * (ε / 2 / (S + 1)) := mul_le_mul_of_nonneg_right (by linarith) hδ.le
        _ = ε / 2 := mul_div_cancel₀ _ (by positivity)
    have h2 := (hd z hz).le
    have := abs_sub_le (∑ i, c i * q i z) (h z) (g r z)
    linarith
  choose h hh hd using hu
  obtain ⟨L, M, h1, h2, h3, h4⟩ := units_net draw drawB φ h hh
  refine ⟨L, M, h1, h2, h3, fun x hx => ?_⟩
  obtain ⟨y, h5, h6⟩ := h4 x
  exact ⟨y, h5, fun r => by rw [h6 r]; exact hd r _ hx⟩

/-- The activations of the library that go from one number on the left to a larger one on the right. -/
def Sigmoidal : Act → Prop
  | .sigmoid | .tanh | .arctan | .softSign | .relu6 | .hardSigmoid | .hardTanh | .sparseSigmoid => True
  | .clip lo hi => lo < hi
  | _ => False

theorem sigmoidal_limits (a : Act) (ha : Sigmoidal a) : ∃ lo hi, lo < hi ∧ (∀ v, a.fn v ∈ Set.Icc lo hi) ∧ Filter.Tendsto a.fn Filter.atTop (nhds hi) ∧ Filter.Tendsto a.fn Filter.atBot (nhds lo) := by
  have flat : ∀ (φ : ℝ → ℝ) (lo hi T : ℝ), (∀ v ≥ T, φ v = hi) → (∀ v ≤ -T, φ v = lo) → Filter.Tendsto φ Filter.atTop (nhds hi) ∧ Filter.Tendsto φ Filter.atBot (nhds lo) := fun φ lo hi T h1 h2 =>
    ⟨tendsto_const_nhds.congr' (Filter.eventually_atTop.2 ⟨T, fun v hv => (h1 v hv).symm⟩), tendsto_const_nhds.congr' (Filter.eventually_atBot.2 ⟨-T, fun v hv => (h2 v hv).symm⟩)⟩
  have hr := C136_range a
  cases a with
  | sigmoid =>
    have e : Act.fn .sigmoid = Real.sigmoid := funext sigmoid_mathlib
    exact ⟨0, 1, one_pos, fun v => ⟨(hr v).1.le, (hr v).2.le⟩, by rw [e]; exact Real.tendsto_sigmoid_atTop, by rw [e]; exact Real.tendsto_sigmoid_atBot⟩
  | tanh =>
    have e : Act.fn .tanh = fun x => 2 * Real.sigmoid (2 * x) - 1 := funext fun x => by
      rw [← sigmoid_mathlib, Act.fn, tanh_sigmoid]
    refine ⟨-1, 1, by norm_num, fun v => ⟨(hr v).1.le, (hr v).2.le⟩, ?_, ?_⟩
    · rw [e]
      have := ((Real.tendsto_sigmoid_atTop.comp (Filter.tendsto_id.const_mul_atTop (two_pos : (0 : ℝ) < 2))).const_mul 2).sub_const 1
      norm_num at this
      exact this
    · rw [e]
      have := ((Real.tendsto_sigmoid_atBot.comp (Filter.tendsto_id.const_mul_atBot (two_pos : (0 : ℝ) < 2))).const_mul 2).sub_const 1
      norm_num at this
      exact this
  | arctan =>
    exact ⟨-(Real.pi / 2), Real.pi / 2, by linarith [Real.pi_pos], fun v => ⟨(hr v).1.le, (hr v).2.le⟩, Real.tendsto_arctan_atTop.mono_right nhdsWithin_le_nhds, Real.tendsto_arctan_atBot.mono_right nhdsWithin_le_nhds⟩
  | softSign =>
    have h1 : Filter.Tendsto (fun x : ℝ => 1 - (x + 1)⁻¹) Filter.atTop (nhds 1) := by
      have := (tendsto_inv_atTop_zero.comp (Filter.tendsto_atTop_add_const_right Filter.atTop (1 : ℝ) Filter.tendsto_id)).const_sub (1 : ℝ)
      rw [sub_zero] at this
      exact this
    have h2 : Filter.Tendsto (Act.fn .softSign) Filter.atTop (nhds 1) := h1.congr' (Filter.eventually_atTop.2 ⟨0, fun v hv => by
      have : v + 1 ≠ 0 := by linarith [hv] |> fun h : 0 < v + 1 => h.ne'
      simp only [Act.fn, abs_of_nonneg hv]
      field_simp
      ring⟩)
    refine ⟨-1, 1, by norm_num, fun v => ⟨(hr v).1.le, (hr v).2.le⟩, h2, ?_⟩
    refine ((h2.comp Filter.tendsto_neg_atBot_atTop).neg).congr fun v => ?_
    simp only [Function.comp, Act.fn, abs_neg]
    ring
  | relu6 =>
    obtain ⟨h1, h2⟩ := flat (Act.fn .relu6) 0 6 6 (fun v hv => by simp only [Act.fn]; rw [max_eq_left (by linarith), min_eq_right hv]) (fun v hv => by simp only [Act.fn]; rw [max_eq_right (by linarith), min_eq_left (by norm_num)])
    exact ⟨0, 6, by norm_num, hr, h1, h2⟩
  | hardSigmoid =>
    obtain ⟨h1, h2⟩ := flat (Act.fn .hardSigmoid) 0 1 6 (fun v hv => by simp only [Act.fn]; rw [max_eq_left (by linarith), min_eq_right (by linarith)]; norm_num) (fun v hv => by simp only [Act.fn]; rw [max_eq_right (by linarith), min_eq_left (by norm_num)]; norm_num)
    exact ⟨0, 1, by norm_num, hr, h1, h2⟩
  | hardTanh =>
    obtain ⟨h1, h2⟩ := flat (Act.fn .hardTanh) (-1) 1 2 (fun v hv => by simp only [Act.fn]; rw [if_pos (by linarith)]) (fun v hv => by simp only [Act.fn]; rw [if_neg (by linarith), if_pos (by linarith)])
    exact ⟨-1, 1, by norm_num, hr, h1, h2⟩
  | sparseSigmoid =>
    obtain ⟨h1, h2⟩ := flat (Act.fn .sparseSigmoid) 0 1 2 (fun v hv => by simp only [Act.fn]; rw [if_neg (by linarith), if_pos (by linarith)]) (fun v hv => by simp only [Act.fn]; rw [if_pos (by linarith)])
    exact ⟨0, 1, by norm_num, hr, h1, h2⟩
  | clip lo hi =>
    have ha : lo < hi := ha
    simp only [actRange, if_pos ha.le] at hr
    obtain ⟨h1, h2⟩ := flat (Act.fn (.clip lo hi)) lo hi (|lo| + |hi|) (fun v hv => by
      simp only [Act.fn]
      rw [max_eq_left (by linarith [le_abs_self lo, abs_nonneg hi]), min_eq_right (by linarith [le_abs_self hi, abs_nonneg lo])])
      (fun v hv => by
      simp only [Act.fn]
      rw [max_eq_right (by linarith [neg_abs_le lo, abs_nonneg hi]), min_eq_left ha.le])
    exact ⟨lo, hi, ha, hr, h1, h2⟩
  | _ => exact ha.elim

/-- **C145 (sigmoids of the library).** The same for Sigmoid, Tanh, ArcTan, SoftSign, ReLU6, HardSigmoid, HardTanh, SparseSigmoid and Clip between two different bounds. -/
theorem C145_universal_bounded (a : Act) (ha : Sigmoidal a) (f m : Nat) (K : Set (Fin f → ℝ)) (hK : IsCompact K) (g : Fin m → (Fin f → ℝ) → ℝ) (hg : ∀ r, ContinuousOn (g r) K) (ε : ℝ) (hε : 0 < ε) :
    ∃ L M : Layer, L.act = some a.fn ∧ M.out = m ∧ M.act = Option.none ∧
      ∀ x : Nat → ℝ, (fun j : Fin f => x j) ∈ K → ∃ y, predictNet draw drawB f [L, M] x = some y ∧ ∀ r : Fin m, |y r - g r fun j => x j| ≤ ε := by
  obtain ⟨lo, hi, h1, h2, h3, h4⟩ := sigmoidal_limits a ha
  exact C145_universal_sigmoids draw drawB a.fn lo hi h1 h2 h3 h4 f m K hK g hg ε hε

/-- The product of two features on the unit square, with Tanh. -/
example : ∃ L M : Layer, L.act = some (Act.fn .tanh) ∧ M.out = 1 ∧ M.act = Option.none ∧
    ∀ x : Nat → ℝ, (fun j : Fin 2 => x j) ∈ Set.Icc (0 : Fin 2 → ℝ) 1 → ∃ y, predictNet draw drawB 2 [L, M] x = some y ∧ ∀ r : Fin 1, |y r - x 0 * x 1| ≤ 1 / 100 :=
  C145_universal_bounded draw drawB .tanh trivial 2 1 (Set.Icc 0 1) isCompact_Icc (fun _ z => z 0 * z 1) (fun _ => by fun_prop) (1 / 100) (by norm_num)

end Verif.Props
