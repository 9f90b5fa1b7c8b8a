import Verif.Props.TameActs

/-! # C142: predictions of networks are continuous in the parameters and the features -/

namespace Verif.Props
open Prebuilt NetworkSpec Network

/-- **C142 (continuity of activations).** All elementwise activations, whatever their arguments, are continuous. -/
theorem C142_continuous_activations (a : Act) : Continuous a.fn := by
  have lip : (∃ k : ℝ, 0 ≤ k ∧ ∀ u v, |a.fn u - a.fn v| ≤ k * |u - v|) → Continuous a.fn := fun ⟨k, hk, h⟩ =>
    (LipschitzWith.of_dist_le_mul (K := ⟨k, hk⟩) fun u v => by rw [Real.dist_eq, Real.dist_eq]; exact h u v).continuous
  cases a with
  | exp => exact Real.continuous_exp
  | square => exact continuous_pow 2
  | celu a =>
    refine continuous_if_le (f := fun x : ℝ => x) (g := fun _ => (0 : ℝ)) continuous_id continuous_const (f' := fun x => a * (Real.exp (x / a) - 1)) (g' := fun x => x) (Continuous.continuousOn (by fun_prop))
      continuousOn_id (fun x hx => ?_) |>.congr fun x => ?_
    · simp [hx]
    · simp only [Act.fn]
      by_cases h : 0 < x
      · rw [if_pos h, if_neg (not_le.2 h)]
      · rw [if_neg h, if_pos (not_lt.1 h)]
  | squarePlus b =>
    show Continuous fun x : ℝ => (x + Real.sqrt (x ^ 2 + b)) / 2
    fun_prop
  | _ => exact lip (C142_activations.1 _ trivial)

theorem closeNet_mono {δ η : ℝ} (hd : δ ≤ η) : ∀ {f : Nat} {Ls Ls' : List Layer}, CloseNet δ f Ls Ls' → CloseNet η f Ls Ls'
  | _, [], [], _ => trivial
  | _, _ :: _, _ :: _, ⟨h1, h2, h3, h4, h5⟩ => ⟨h1, h2, fun r hr j hj => (h3 r hr j hj).trans hd, fun r hr => (h4 r hr).trans hd, closeNet_mono hd h5⟩
  | _, [], _ :: _, h => h.elim
  | _, _ :: _, [], h => h.elim

theorem net_continuous : ∀ (Ls : List Layer), (∀ L ∈ Ls, Continuous L.fn) → ∀ (f : Nat) (x : Nat → ℝ) (ε : ℝ), 0 < ε → ∃ δ > 0,
    ∀ Ls', CloseNet δ f Ls Ls' → ∀ x' : Nat → ℝ, (∀ j < f, |x j - x' j| ≤ δ) → ∀ r < width f Ls, |net f Ls x r - net f Ls' x' r| ≤ ε := by
  intro Ls
  induction Ls with
  | nil =>
    intro _ f x ε hε
    refine ⟨ε, hε, fun Ls' hc x' h r hr => ?_⟩
    cases Ls' with
    | nil => exact h r hr
    | cons L Ls' => exact hc.elim
  | cons L Ls ih =>
    intro hL f x ε hε
    obtain ⟨η, hη, h⟩ := ih (fun M hM => hL M (List.mem_cons_of_mem _ hM)) L.out (L.at f x) ε hε
    have hcont := hL L List.mem_cons_self
    -- one bound for the arguments of all units of the layer
    have hball : ∀ n : Nat, ∃ θ > 0, ∀ r < n, ∀ v, |∑ j ∈ Finset.range f, L.W r j * x j + L.b.elim 0 (· r) - v| ≤ θ → |L.at f x r - L.fn v| ≤ η := by
      intro n
      induction n with
      | zero => exact ⟨1, one_pos, fun r hr => absurd hr (Nat.not_lt_zero r)⟩
      | succ n ihn =>
        obtain ⟨θ, hθ, hn⟩ := ihn
        obtain ⟨θ', hθ', hn'⟩ := Metric.continuousAt_iff.1 (hcont.continuousAt (x := ∑ j ∈ Finset.range f, L.W n j * x j + L.b.elim 0 (· n))) η hη
        refine ⟨min θ (θ' / 2), lt_min hθ (by linarith), fun r hr v hv => ?_⟩
        rcases Nat.lt_succ_iff_lt_or_eq.1 hr with h1 | rfl
        · exact hn r h1 v (hv.trans (min_le_left _ _))
        · have h2 := hv.trans (min_le_right _ _)
          have h3 := hn' (x := v) (by rw [Real.dist_eq, abs_sub_comm]; linarith)
          rw [Real.dist_eq, abs_sub_comm] at h3
          exact h3.le
    obtain ⟨θ, hθ, hball⟩ := hball L.out
    set K : ℝ := ∑ r ∈ Finset.range L.out, ∑ j ∈ Finset.range f, (|L.W r j| + (|x j| + 1)) + 1 with hK
    have hrow : ∀ r < L.out, ∑ j ∈ Finset.range f, (|L.W r j| + (|x j| + 1)) + 1 ≤ K := fun r hr =>
      add_le_add (Finset.single_le_sum (f := fun r => ∑ j ∈ Finset.range f, (|L.W r j| + (|x j| + 1))) (fun i _ => Finset.sum_nonneg fun _ _ => by positivity) (Finset.mem_range.2 hr)) le_rfl
    have hK0 : 0 < K := by
      have : 0 ≤ ∑ r ∈ Finset.range L.out, ∑ j ∈ Finset.range f, (|L.W r j| + (|x j| + 1)) := Finset.sum_nonneg fun _ _ => Finset.sum_nonneg fun _ _ => by positivity
      linarith
    refine ⟨min (min 1 η) (θ / K), lt_min (lt_min one_pos hη) (div_pos hθ hK0), fun Ls' hc x' hx r hr => ?_⟩
    generalize hδ : min (min 1 η) (θ / K) = δ at *
    have hδ1 : δ ≤ 1 := hδ ▸ (min_le_left _ _).trans (min_le_left _ _)
    have hδη : δ ≤ η := hδ ▸ (min_le_left _ _).trans (min_le_right _ _)
    have hδθ : K * δ ≤ θ := by
      have : δ ≤ θ / K := hδ ▸ min_le_right _ _
      rw [le_div_iff₀ hK0] at this
      linarith
    cases Ls' with
    | nil => exact hc.elim
    | cons L' Ls' =>
      obtain ⟨c1, c2, c3, c4, c5⟩ := hc
      have hfn : L'.fn = L.fn := by unfold Layer.fn; rw [c2]
      show |net L.out Ls (L.at f x) r - net L'.out Ls' (L'.at f x') r| ≤ ε
      rw [c1]
      refine h Ls' (closeNet_mono hδη c5) _ (fun j hj => ?_) r hr
      have e2 : L'.at f x' j = L.fn (∑ i ∈ Finset.range f, L'.W j i * x' i + L'.b.elim 0 (· j)) := by unfold Layer.at; rw [hfn]
      rw [e2]
      refine hball j hj _ (le_trans ?_ hδθ)
      have hδ0 : 0 ≤ δ := (abs_nonneg _).trans (c4 j hj)
      have e : (∑ i ∈ Finset.range f, L.W j i * x i + L.b.elim 0 (· j)) - (∑ i ∈ Finset.range f, L'.W j i * x' i + L'.b.elim 0 (· j)) =
          ∑ i ∈ Finset.range f, (L.W j i * (x i - x' i) + (L.W j i - L'.W j i) * x' i) + (L.b.elim 0 (· j) - L'.b.elim 0 (· j)) := by
        rw [add_sub_add_comm, ← Finset.sum_sub_distrib]
        congr 1
        exact Finset.sum_congr rfl fun i _ => by ring
      rw [e]
      refine (abs_add_le _ _).trans ?_
      have h2 : |∑ i ∈ Finset.range f, (L.W j i * (x i - x' i) + (L.W j i - L'.W j i) * x' i)| ≤ (∑ i ∈ Finset.range f, (|L.W j i| + (|x i| + 1))) * δ := by
        rw [Finset.sum_mul]
        refine (Finset.abs_sum_le_sum_abs _ _).trans (Finset.sum_le_sum fun i hi => ?_)
        have hi := Finset.mem_range.1 hi
        rw [add_mul]
        refine (abs_add_le _ _).trans (add_le_add ?_ ?_)
        · rw [abs_mul]
          exact mul_le_mul_of_nonneg_left (hx i hi) (abs_nonneg _)
        · rw [abs_mul, mul_comm]
          refine mul_le_mul ?_ (c3 j hj i hi) (abs_nonneg _) (by positivity)
          have e1 := abs_sub_abs_le_abs_sub (x' i) (x i)
          rw [abs_sub_comm] at e1
          linarith [hx i hi]
      have h3 := mul_le_mul_of_nonneg_right (hrow j hj) hδ0
      have h4 := c4 j hj
      linarith

/-- **C142 (continuity).** The predictions of every network with elementwise activations of the library are continuous in the weights, the biases and the features together: around all parameters and every sample there is, for every
`ε`, a `δ` such that changing all of them by at most `δ` changes no output by more than `ε`. -/
theorem C142_continuous (draw : Nat → List Nat → ℝ) (drawB : List Nat → List Nat → ℝ) (f : Nat) (Ls : List Layer) (hL : ∀ L ∈ Ls, ∀ φ, L.act = some φ → ∃ a : Act, φ = a.fn) (x : Nat → ℝ) (ε : ℝ) (hε : 0 < ε) :
    ∃ δ > 0, ∀ Ls', CloseNet δ f Ls Ls' → ∀ x' : Nat → ℝ, (∀ j < f, |x j - x' j| ≤ δ) →
      ∃ y y', predictNet draw drawB f Ls x = some y ∧ predictNet draw drawB f Ls' x' = some y' ∧ ∀ r < width f Ls, |y r - y' r| ≤ ε := by
  have hc : ∀ L ∈ Ls, Continuous L.fn := fun L h => by
    unfold Layer.fn
    cases e : L.act with
    | none => exact continuous_id
    | some φ =>
      obtain ⟨a, rfl⟩ := hL L h φ e
      exact C142_continuous_activations a
  obtain ⟨δ, hδ, h⟩ := net_continuous Ls hc f x ε hε
  refine ⟨δ, hδ, fun Ls' hc x' hx => ?_⟩
  obtain ⟨y, h1, h2⟩ := predictNet_eq draw drawB f Ls x
  obtain ⟨y', h1', h2'⟩ := predictNet_eq draw drawB f Ls' x'
  refine ⟨y, y', h1, h1', fun r hr => ?_⟩
  rw [h2 r hr, h2' r (by rw [closeNet_width hc]; exact hr)]
  exact h Ls' hc x' hx r hr

/-- A network with an `Exp` and a `Square` layer. -/
example : ∀ L ∈ [(⟨3, fun _ _ => 1, Option.none, some (Act.fn .exp)⟩ : Layer), ⟨2, fun r j => r + j, some fun _ => 1, some (Act.fn .square)⟩], ∀ φ, L.act = some φ → ∃ a : Act, φ = a.fn := by
  intro L hL φ h
  simp only [List.mem_cons, List.not_mem_nil, or_false] at hL
  rcases hL with rfl | rfl <;> simp only [Option.some.injEq] at h
  · exact ⟨.exp, h.symm⟩
  · exact ⟨.square, h.symm⟩

end Verif.Props
