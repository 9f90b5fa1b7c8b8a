import Verif.Props.NetUnits
import Mathlib.Data.Fin.Tuple.Sort
import Mathlib.Algebra.Polynomial.Roots
import Mathlib.Topology.UniformSpace.HeineCantor

/-! # C145: what networks can fit -/

namespace Verif.Props
open Prebuilt NetworkSpec Network

variable (draw : Nat → List Nat → ℝ) (drawB : List Nat → List Nat → ℝ)

/-- Rectifiers that start at the nodes reach all values at the nodes. -/
theorem ramps_fit (u t : Nat → ℝ) : ∀ n : Nat, (∀ i k, i < k → k < n + 1 → u i < u k) →
    ∃ (a : Nat → ℝ) (c : ℝ), ∀ i < n + 1, c + ∑ k ∈ Finset.range n, a k * max (u i - u k) 0 = t i := by
  intro n
  induction n with
  | zero => exact fun _ => ⟨fun _ => 0, t 0, fun i hi => by rw [show i = 0 by omega]; simp⟩
  | succ n ih =>
    intro hu
    obtain ⟨a, c, h⟩ := ih fun i k h1 h2 => hu i k h1 (by omega)
    have hpos : 0 < u (n + 1) - u n := sub_pos.2 (hu n (n + 1) (by omega) (by omega))
    refine ⟨fun k => if k = n then (t (n + 1) - (c + ∑ k ∈ Finset.range n, a k * max (u (n + 1) - u k) 0)) / (u (n + 1) - u n) else a k, c, fun i hi => ?_⟩
    have hsum : ∀ v : ℝ, ∑ k ∈ Finset.range n, (if k = n then v else a k) * max (u i - u k) 0 = ∑ k ∈ Finset.range n, a k * max (u i - u k) 0 := fun v =>
      Finset.sum_congr rfl fun k hk => by rw [if_neg (Finset.mem_range.1 hk).ne]
    simp only [Finset.sum_range_succ, if_true, hsum]
    by_cases hin : i = n + 1
    · rw [hin, max_eq_left hpos.le, div_mul_cancel₀ _ hpos.ne']
      ring
    · have hle : u i - u n ≤ 0 := by
        rcases Nat.lt_or_ge i n with h1 | h1
        · exact sub_nonpos.2 (hu i n h1 (by omega)).le
        · rw [show i = n by omega, sub_self]
      rw [max_eq_right hle, mul_zero, add_zero, h i (by omega)]

/-- Numbers whose powers, as weights of the features, tell all samples apart. -/
theorem separating {n f : Nat} (xs : Fin n → Nat → ℝ) (hx : ∀ i k, i ≠ k → ∃ j < f, xs i j ≠ xs k j) :
    ∃ s : ℝ, Function.Injective fun i => ∑ j ∈ Finset.range f, s ^ j * xs i j := by
  classical
  set q : Fin n → Fin n → Polynomial ℝ := fun i k => ∑ j ∈ Finset.range f, Polynomial.C (xs i j - xs k j) * Polynomial.X ^ j with hq
  have hne : ∀ i k, i ≠ k → q i k ≠ 0 := fun i k hik h0 => by
    obtain ⟨j, hj, hjne⟩ := hx i k hik
    have hc : (q i k).coeff j = xs i j - xs k j := by
      simp only [hq, Polynomial.finset_sum_coeff, Polynomial.coeff_C_mul_X_pow]
      rw [Finset.sum_ite_eq, if_pos (Finset.mem_range.2 hj)]
    rw [h0, Polynomial.coeff_zero] at hc
    exact hjne (by linarith)
  have hprod : (∏ p : Fin n × Fin n, if p.1 = p.2 then (1 : Polynomial ℝ) else q p.1 p.2) ≠ 0 :=
    Finset.prod_ne_zero_iff.2 fun p _ => by
      split_ifs with h
      · exact one_ne_zero
      · exact hne _ _ h
  obtain ⟨s, hs⟩ : ∃ s, Polynomial.eval s (∏ p : Fin n × Fin n, if p.1 = p.2 then (1 : Polynomial ℝ) else q p.1 p.2) ≠ 0 := by
    by_contra hall
    push Not at hall
    exact hprod (Polynomial.funext fun s => by rw [hall s, Polynomial.eval_zero])
  refine ⟨s, fun i k h => ?_⟩
  by_contra hik
  rw [Polynomial.eval_prod] at hs
  have h1 := Finset.prod_ne_zero_iff.1 hs (i, k) (Finset.mem_univ _)
  rw [if_neg hik] at h1
  refine h1 ?_
  simp only [hq, Polynomial.eval_finset_sum, Polynomial.eval_mul, Polynomial.eval_C, Polynomial.eval_pow, Polynomial.eval_X]
  have h2 : ∑ j ∈ Finset.range f, s ^ j * xs i j = ∑ j ∈ Finset.range f, s ^ j * xs k j := h
  rw [← sub_eq_zero, ← Finset.sum_sub_distrib] at h2
  rw [← h2]
  exact Finset.sum_congr rfl fun j _ => by ring

/-- **C145 (exact fits).** For every data set of `n + 1` different samples, whatever the targets, there is a network with one hidden layer of `n` rectified units and a plain last layer that predicts all targets exactly. -/
theorem C145_fit (f n m : Nat) (xs : Fin (n + 1) → Nat → ℝ) (hx : ∀ i k, i ≠ k → ∃ j < f, xs i j ≠ xs k j) (t : Fin (n + 1) → Nat → ℝ) :
    ∃ L M : Layer, L.out = n ∧ L.act = some (Act.fn .relu) ∧ M.out = m ∧ M.act = Option.none ∧
      ∀ i, ∃ y, predictNet draw drawB f [L, M] (xs i) = some y ∧ ∀ r < m, y r = t i r := by
  obtain ⟨s, hs⟩ := separating xs hx
  set p : Fin (n + 1) → ℝ := fun i => ∑ j ∈ Finset.range f, s ^ j * xs i j with hp
  set σ := Tuple.sort p with hσ
  have hmono : StrictMono (p ∘ σ) := (Tuple.monotone_sort p).strictMono_of_injective (hs.comp σ.injective)
  set u : Nat → ℝ := fun k => if h : k < n + 1 then p (σ ⟨k, h⟩) else 0 with hu
  have hlt : ∀ i k, i < k → k < n + 1 → u i < u k := fun i k h1 h2 => by
    simp only [hu, dif_pos h2, dif_pos (h1.trans h2)]
    exact hmono (show (⟨i, h1.trans h2⟩ : Fin (n + 1)) < ⟨k, h2⟩ from h1)
  have hfit := fun r => ramps_fit u (fun k => if h : k < n + 1 then t (σ ⟨k, h⟩) r else 0) n hlt
  choose a c hac using hfit
  refine ⟨⟨n, fun _ j => s ^ j, some fun k => -u k, some (Act.fn .relu)⟩, ⟨m, fun r k => a r k, some c, Option.none⟩, rfl, rfl, rfl, rfl, fun i => ?_⟩
  obtain ⟨y, h1, h2⟩ := predictNet_eq draw drawB f [⟨n, fun _ j => s ^ j, some fun k => -u k, some (Act.fn .relu)⟩, ⟨m, fun r k => a r k, some c, Option.none⟩] (xs i)
  refine ⟨y, h1, fun r hr => ?_⟩
  rw [h2 r hr]
  have hi := hac r (σ.symm i).1 (σ.symm i).2
  rw [dif_pos (σ.symm i).2, Fin.eta, Equiv.apply_symm_apply] at hi
  rw [← hi]
  have hui : u (σ.symm i).1 = p i := by
    simp only [hu, dif_pos (σ.symm i).2, Fin.eta, Equiv.apply_symm_apply]
  show ∑ k ∈ Finset.range n, a r k * max (∑ j ∈ Finset.range f, s ^ j * xs i j + -u k) 0 + c r = _
  rw [hui, add_comm]
  rfl

theorem find_gap (u : Nat → ℝ) (x : ℝ) : ∀ n : Nat, u 0 ≤ x → x ≤ u (n + 1) → ∃ i < n + 1, u i ≤ x ∧ x ≤ u (i + 1) := by
  intro n
  induction n with
  | zero => exact fun h1 h2 => ⟨0, one_pos, h1, h2⟩
  | succ n ih =>
    intro h1 h2
    rcases le_total x (u (n + 1)) with h | h
    · obtain ⟨i, hi, h3⟩ := ih h1 h
      exact ⟨i, by omega, h3⟩
    · exact ⟨n + 1, by omega, h, h2⟩

/-- **C145 (approximation).** For every continuous function of one feature on an interval and every `ε` there is a network with one hidden layer of rectified units whose predictions are within `ε` of it everywhere on the interval. -/
theorem C145_approximation (a b : ℝ) (hab : a < b) (g : ℝ → ℝ) (hg : ContinuousOn g (Set.Icc a b)) (ε : ℝ) (hε : 0 < ε) :
    ∃ L M : Layer, L.act = some (Act.fn .relu) ∧ M.out = 1 ∧ M.act = Option.none ∧
      ∀ x : Nat → ℝ, x 0 ∈ Set.Icc a b → ∃ y, predictNet draw drawB 1 [L, M] x = some y ∧ |y 0 - g (x 0)| ≤ ε := by
  obtain ⟨δ, hδ, huc⟩ := Metric.uniformContinuousOn_iff.1 (isCompact_Icc.uniformContinuousOn_of_continuous hg) ε hε
  obtain ⟨n, hn⟩ := exists_nat_gt ((b - a) / δ)
  set h : ℝ := (b - a) / (n + 1) with hh
  have hn1 : (0 : ℝ) < n + 1 := by positivity
  have hpos : 0 < h := div_pos (sub_pos.2 hab) hn1
  have hsmall : h < δ := by
    rw [div_lt_iff₀ hδ] at hn
    rw [hh, div_lt_iff₀ hn1]
    linarith
  have hend : h * (n + 1) = b - a := div_mul_cancel₀ _ hn1.ne'
  set u : Nat → ℝ := fun k => a + k * h with hu
  have hlt : ∀ i k, i < k → k < n + 1 + 1 → u i < u k := fun i k h1 _ => by
    have : (i : ℝ) < k := Nat.cast_lt.2 h1
    simp only [hu]
    linarith [mul_lt_mul_of_pos_right this hpos]
  obtain ⟨w, c, hw⟩ := ramps_fit u (fun k => g (u k)) (n + 1) hlt
  have hmem : ∀ k < n + 1 + 1, u k ∈ Set.Icc a b := fun k hk => by
    have h1 : (k : ℝ) ≤ n + 1 := by exact_mod_cast Nat.lt_succ_iff.1 hk
    have h2 : (k : ℝ) * h ≤ (n + 1) * h := mul_le_mul_of_nonneg_right h1 hpos.le
    have h3 : 0 ≤ (k : ℝ) * h := by positivity
    exact ⟨by simp only [hu]; linarith, by simp only [hu]; linarith⟩
  refine ⟨⟨n + 1, fun _ _ => 1, some fun k => -u k, some (Act.fn .relu)⟩, ⟨1, fun _ k => w k, some fun _ => c, Option.none⟩, rfl, rfl, rfl, fun x hx => ?_⟩
  obtain ⟨y, h1, h2⟩ := predictNet_eq draw drawB 1 [⟨n + 1, fun _ _ => 1, some fun k => -u k, some (Act.fn .relu)⟩, ⟨1, fun _ k => w k, some fun _ => c, Option.none⟩] x
  refine ⟨y, h1, ?_⟩
  rw [h2 0 one_pos]
  have e : net 1 [⟨n + 1, fun _ _ => 1, some fun k => -u k, some (Act.fn .relu)⟩, ⟨1, fun _ k => w k, some fun _ => c, Option.none⟩] x 0 = c + ∑ k ∈ Finset.range (n + 1), w k * max (x 0 - u k) 0 := by
    show ∑ k ∈ Finset.range (n + 1), w k * max (∑ j ∈ Finset.range 1, 1 * x j + -u k) 0 + c = _
    rw [add_comm]
    simp only [Finset.sum_range_one, one_mul, sub_eq_add_neg]
  rw [e]
  generalize x 0 = v at *
  obtain ⟨i, hi, hl, hr⟩ := find_gap u v n (by simp only [hu]; push_cast; linarith [hx.1]) (by simp only [hu]; push_cast; linarith [hx.2])
  have hstep : u (i + 1) = u i + h := by simp only [hu]; push_cast; ring
  have hi1 := hw i (by omega)
  have hi2 := hw (i + 1) (by omega)
  -- between two nodes the sum is the straight line
  have hline : h * (c + ∑ k ∈ Finset.range (n + 1), w k * max (v - u k) 0) = (u (i + 1) - v) * g (u i) + (v - u i) * g (u (i + 1)) := by
    rw [← hi1, ← hi2, mul_add, mul_add, mul_add, Finset.mul_sum, Finset.mul_sum, Finset.mul_sum, add_add_add_comm, ← Finset.sum_add_distrib]
    refine congrArg₂ (· + ·) (by rw [hstep]; ring) (Finset.sum_congr rfl fun k hk => ?_)
    rcases Nat.lt_or_ge i k with hk' | hk'
    · have h3 : u (i + 1) ≤ u k := by
        rcases Nat.lt_or_ge (i + 1) k with h4 | h4
        · exact (hlt _ _ h4 (by have := Finset.mem_range.1 hk; omega)).le
        · rw [show k = i + 1 by omega]
      rw [max_eq_right (by linarith), max_eq_right (by linarith), max_eq_right (by linarith)]
      ring
    · have h3 : u k ≤ u i := by
        rcases Nat.lt_or_ge k i with h4 | h4
        · exact (hlt _ _ h4 (by omega)).le
        · rw [show k = i by omega]
      rw [max_eq_left (by linarith), max_eq_left (by linarith), max_eq_left (by linarith), hstep]
      ring
  have d1 := huc _ (hmem i (by omega)) v hx (by rw [Real.dist_eq, abs_lt]; constructor <;> linarith)
  have d2 := huc _ (hmem (i + 1) (by omega)) v hx (by rw [Real.dist_eq, abs_lt]; constructor <;> linarith)
  rw [Real.dist_eq, abs_lt] at d1 d2
  have p1 : 0 ≤ u (i + 1) - v := by linarith
  have p2 : 0 ≤ v - u i := by linarith
  generalize c + ∑ k ∈ Finset.range (n + 1), w k * max (v - u k) 0 = F at *
  have q : h * (F - g v) = (u (i + 1) - v) * (g (u i) - g v) + (v - u i) * (g (u (i + 1)) - g v) := by
    rw [mul_sub, hline, hstep]
    ring
  have hsum : (u (i + 1) - v) + (v - u i) = h := by rw [hstep]; ring
  have q1 : h * (F - g v) ≤ h * ε := by
    rw [q, ← hsum, add_mul]
    exact add_le_add (mul_le_mul_of_nonneg_left d1.2.le p1) (mul_le_mul_of_nonneg_left d2.2.le p2)
  have q2 : h * -ε ≤ h * (F - g v) := by
    rw [q, ← hsum, add_mul]
    exact add_le_add (mul_le_mul_of_nonneg_left d1.1.le p1) (mul_le_mul_of_nonneg_left d2.1.le p2)
  exact abs_le.2 ⟨le_of_mul_le_mul_left q2 hpos, le_of_mul_le_mul_left q1 hpos⟩

/-- **C145 (limits).** Samples that are equal get equal predictions from every network, so different targets for equal samples cannot be fitted; and a network without activations fits no data that is not affine, for example
the three samples 0, 1, 2 with the targets 0, 1, 0. -/
theorem C145_limits : (∀ (f : Nat) (Ls : List Layer) (x x' : Nat → ℝ), (∀ j < f, x j = x' j) → ∃ y y', predictNet draw drawB f Ls x = some y ∧ predictNet draw drawB f Ls x' = some y' ∧ ∀ r < width f Ls, y' r = y r) ∧
    ¬ ∃ Ls : List Layer, 0 < width 1 Ls ∧ (∀ L ∈ Ls, L.act = Option.none) ∧ ∀ i : Fin 3, ∃ y, predictNet draw drawB 1 Ls (fun _ => (i.1 : ℝ)) = some y ∧ y 0 = if i = 1 then 1 else 0 := by
  refine ⟨fun f Ls x x' h => predictNet_same draw drawB rfl (fun _ v => v) fun r hr => (net_congr Ls h r hr).symm, ?_⟩
  rintro ⟨Ls, hw, hL, h⟩
  obtain ⟨L, ho, ha, hc⟩ := C135_collapse draw drawB 1 Ls hL
  have key : ∀ i : Fin 3, L.W 0 0 * (i.1 : ℝ) + L.b.elim 0 (· 0) = if i = 1 then 1 else 0 := fun i => by
    obtain ⟨y, h1, h2⟩ := h i
    obtain ⟨w, w', h3, h4, h5⟩ := hc (fun _ => (i.1 : ℝ))
    obtain ⟨z, h6, h7⟩ := predictNet_eq draw drawB 1 [L] (fun _ => (i.1 : ℝ))
    rw [h1, Option.some.injEq] at h3
    rw [h6, Option.some.injEq] at h4
    have h8 := h7 0 (show 0 < L.out by rw [ho]; exact hw)
    have h9 := h5 0 hw
    rw [← h3, ← h4, h2, h8] at h9
    rw [h9]
    simp [net, Layer.at, Layer.fn, ha]
  have k0 := key 0
  have k1 := key 1
  have k2 := key 2
  norm_num at k0 k1 k2
  have e2 : ((2 : Fin 3) = 1) = False := by decide
  simp only [e2, if_false] at k2
  linarith

/-- The absolute value on an interval. -/
example : (-1 : ℝ) < 1 ∧ ContinuousOn (fun x : ℝ => |x|) (Set.Icc (-1) 1) := ⟨by norm_num, continuous_abs.continuousOn⟩

/-- Three different samples of two features. -/
example : ∀ i k : Fin 3, i ≠ k → ∃ j < 2, (fun (i : Fin 3) (j : Nat) => if j = 0 then (0 : ℝ) else (i.1 : ℝ)) i j ≠ (fun (i : Fin 3) (j : Nat) => if j = 0 then (0 : ℝ) else (i.1 : ℝ)) k j := fun i k h =>
  ⟨1, by norm_num, fun he => h (Fin.ext (by simpa using he))⟩

end Verif.Props
