import Verif.Props.Network
import Verif.Props.SymmetryAll
import Verif.Props.Reach

/-! # C142: predictions of networks change little when parameters do -/

namespace Verif.Props
open Prebuilt NetworkSpec Batch BatchSpec Train TrainSpec Adam

/-- Two networks of the same architecture with `f` inputs, none of whose weights and biases differ by more than `δ`. -/
def CloseNet (δ : ℝ) : Nat → List Layer → List Layer → Prop
  | _, [], [] => True
  | f, L :: Ls, L' :: Ls' => L'.out = L.out ∧ L'.act = L.act ∧ (∀ r < L.out, ∀ j < f, |L.W r j - L'.W r j| ≤ δ) ∧
      (∀ r < L.out, |L.b.elim 0 (· r) - L'.b.elim 0 (· r)| ≤ δ) ∧ CloseNet δ L.out Ls Ls'
  | _, _, _ => False

/-- The activation of the layer changes by at most a constant times the change of its argument. -/
def LipLayer (L : Layer) : Prop := ∃ k : ℝ, 0 ≤ k ∧ ∀ u v, |L.fn u - L.fn v| ≤ k * |u - v|

theorem closeNet_width {δ : ℝ} : ∀ {f : Nat} {Ls Ls' : List Layer}, CloseNet δ f Ls Ls' → width f Ls' = width f Ls
  | _, [], [], _ => rfl
  | f, L :: Ls, L' :: Ls', h => by
    obtain ⟨h1, -, -, -, h5⟩ := h
    show width L'.out Ls' = width L.out Ls
    rw [h1]
    exact closeNet_width h5
  | _, [], _ :: _, h => h.elim
  | _, _ :: _, [], h => h.elim

theorem net_close : ∀ (Ls : List Layer), (∀ L ∈ Ls, LipLayer L) → ∀ (f : Nat) (R D : ℝ), 0 ≤ R → 0 ≤ D → ∃ C ≥ 0, ∀ δ, 0 ≤ δ → δ ≤ 1 →
    ∀ Ls', CloseNet δ f Ls Ls' → ∀ x x' : Nat → ℝ, (∀ j < f, |x j| ≤ R) → (∀ j < f, |x j - x' j| ≤ D * δ) → ∀ r < width f Ls, |net f Ls x r - net f Ls' x' r| ≤ C * δ := by
  intro Ls
  induction Ls with
  | nil =>
    intro _ f R D _ hD
    refine ⟨D, hD, fun δ _ _ Ls' hc x x' _ h r hr => ?_⟩
    cases Ls' with
    | nil => exact h r hr
    | cons L Ls' => exact hc.elim
  | cons L Ls ih =>
    intro hL f R D hR hD
    obtain ⟨k, hk, hlip⟩ := hL L List.mem_cons_self
    set A : ℝ := ∑ r ∈ Finset.range L.out, ∑ j ∈ Finset.range f, |L.W r j| with hA
    set B : ℝ := ∑ r ∈ Finset.range L.out, |L.b.elim 0 (· r)| with hB
    have hrow : ∀ r < L.out, ∑ j ∈ Finset.range f, |L.W r j| ≤ A := fun r hr =>
      Finset.single_le_sum (f := fun r => ∑ j ∈ Finset.range f, |L.W r j|) (fun i _ => Finset.sum_nonneg fun _ _ => abs_nonneg _) (Finset.mem_range.2 hr)
    have hbias : ∀ r < L.out, |L.b.elim 0 (· r)| ≤ B := fun r hr =>
      Finset.single_le_sum (f := fun r => |L.b.elim 0 (· r)|) (fun i _ => abs_nonneg _) (Finset.mem_range.2 hr)
    have hA0 : 0 ≤ A := Finset.sum_nonneg fun _ _ => Finset.sum_nonneg fun _ _ => abs_nonneg _
    have hB0 : 0 ≤ B := Finset.sum_nonneg fun _ _ => abs_nonneg _
    have hRD : 0 ≤ R + D := by linarith
    obtain ⟨C, hC, h⟩ := ih (fun M hM => hL M (List.mem_cons_of_mem _ hM)) L.out (|L.fn 0| + k * (A * R + B)) (k * (A * D + f * (R + D) + 1))
      (by positivity) (by positivity)
    refine ⟨C, hC, fun δ hδ hδ1 Ls' hc x x' hx hxx r hr => ?_⟩
    cases Ls' with
    | nil => exact hc.elim
    | cons L' Ls' =>
      obtain ⟨c1, c2, c3, c4, c5⟩ := hc
      have hfn : L'.fn = L.fn := by unfold Layer.fn; rw [c2]
      show |net L.out Ls (L.at f x) r - net L'.out Ls' (L'.at f x') r| ≤ C * δ
      rw [c1]
      refine h δ hδ hδ1 Ls' c5 _ _ (fun j hj => ?_) (fun j hj => ?_) r hr
      · have h1 := hlip (∑ i ∈ Finset.range f, L.W j i * x i + L.b.elim 0 (· j)) 0
        have h2 : |∑ i ∈ Finset.range f, L.W j i * x i + L.b.elim 0 (· j)| ≤ A * R + B := by
          refine (abs_add_le _ _).trans (add_le_add ?_ (hbias j hj))
          calc |∑ i ∈ Finset.range f, L.W j i * x i| ≤ ∑ i ∈ Finset.range f, |L.W j i * x i| := Finset.abs_sum_le_sum_abs _ _
            _ ≤ ∑ i ∈ Finset.range f, |L.W j i| * R := Finset.sum_le_sum fun i hi => by
              rw [abs_mul]
              exact mul_le_mul_of_nonneg_left (hx i (Finset.mem_range.1 hi)) (abs_nonneg _)
            _ ≤ A * R := by rw [← Finset.sum_mul]; exact mul_le_mul_of_nonneg_right (hrow j hj) hR
        rw [sub_zero] at h1
        have h3 := abs_sub_abs_le_abs_sub (L.at f x j) (L.fn 0)
        have h4 := mul_le_mul_of_nonneg_left h2 hk
        have h5 : |L.at f x j - L.fn 0| ≤ k * |∑ i ∈ Finset.range f, L.W j i * x i + L.b.elim 0 (· j)| := h1
        linarith
      · have h1 : |L.at f x j - L'.at f x' j| ≤
            k * |(∑ i ∈ Finset.range f, L.W j i * x i + L.b.elim 0 (· j)) - (∑ i ∈ Finset.range f, L'.W j i * x' i + L'.b.elim 0 (· j))| := by
          unfold Layer.at
          rw [hfn]
          exact hlip _ _
        refine h1.trans ?_
        rw [mul_assoc]
        refine mul_le_mul_of_nonneg_left ?_ hk
        have e : (∑ i ∈ Finset.range f, L.W j i * x i + L.b.elim 0 (· j)) - (∑ i ∈ Finset.range f, L'.W j i * x' i + L'.b.elim 0 (· j)) =
            ∑ i ∈ Finset.range f, (L.W j i * (x i - x' i) + (L.W j i - L'.W j i) * x' i) + (L.b.elim 0 (· j) - L'.b.elim 0 (· j)) := by
          rw [add_sub_add_comm, ← Finset.sum_sub_distrib]
          congr 1
          exact Finset.sum_congr rfl fun i _ => by ring
        rw [e]
        refine (abs_add_le _ _).trans ?_
        have h2 : |∑ i ∈ Finset.range f, (L.W j i * (x i - x' i) + (L.W j i - L'.W j i) * x' i)| ≤ A * D * δ + f * (R + D) * δ := by
          calc _ ≤ ∑ i ∈ Finset.range f, |L.W j i * (x i - x' i) + (L.W j i - L'.W j i) * x' i| := Finset.abs_sum_le_sum_abs _ _
            _ ≤ ∑ i ∈ Finset.range f, (|L.W j i| * (D * δ) + δ * (R + D)) := Finset.sum_le_sum fun i hi => by
              have hi := Finset.mem_range.1 hi
              refine (abs_add_le _ _).trans (add_le_add ?_ ?_)
              · rw [abs_mul]
                exact mul_le_mul_of_nonneg_left (hxx i hi) (abs_nonneg _)
              · rw [abs_mul]
                refine mul_le_mul (c3 j hj i hi) ?_ (abs_nonneg _) hδ
                have e1 := abs_sub_abs_le_abs_sub (x' i) (x i)
                rw [abs_sub_comm] at e1
                have e2 := hxx i hi
                have e3 : D * δ ≤ D * 1 := mul_le_mul_of_nonneg_left hδ1 hD
                linarith [hx i hi]
            _ ≤ A * D * δ + f * (R + D) * δ := by
              rw [Finset.sum_add_distrib, ← Finset.sum_mul, Finset.sum_const, Finset.card_range, nsmul_eq_mul]
              have := mul_le_mul_of_nonneg_right (hrow j hj) (mul_nonneg hD hδ)
              nlinarith
        have h3 := c4 j hj
        calc _ ≤ A * D * δ + f * (R + D) * δ + δ := add_le_add h2 h3
          _ = _ := by ring

variable (draw : Nat → List Nat → ℝ) (drawB : List Nat → List Nat → ℝ)

/-- **C142 (parameters).** For every network whose activations are Lipschitz continuous and every bound on the features there is a constant such that changing the weights and biases by at most
`δ ≤ 1` changes no prediction, for no sample within the bound, by more than the constant times `δ`. -/
theorem C142_parameters (f : Nat) (Ls : List Layer) (hL : ∀ L ∈ Ls, LipLayer L) (R : ℝ) (hR : 0 ≤ R) :
    ∃ C ≥ 0, ∀ δ, 0 ≤ δ → δ ≤ 1 → ∀ Ls', CloseNet δ f Ls Ls' → ∀ x : Nat → ℝ, (∀ j < f, |x j| ≤ R) →
      ∃ y y', predictNet draw drawB f Ls x = some y ∧ predictNet draw drawB f Ls' x = some y' ∧ ∀ r < width f Ls, |y r - y' r| ≤ C * δ := by
  obtain ⟨C, hC, h⟩ := net_close Ls hL f R 0 hR le_rfl
  refine ⟨C, hC, fun δ hδ hδ1 Ls' hc x hx => ?_⟩
  obtain ⟨y, h1, h2⟩ := predictNet_eq draw drawB f Ls x
  obtain ⟨y', h1', h2'⟩ := predictNet_eq draw drawB f Ls' x
  refine ⟨y, y', h1, h1', fun r hr => ?_⟩
  rw [h2 r hr, h2' r (by rw [closeNet_width hc]; exact hr)]
  exact h δ hδ hδ1 Ls' hc x x hx (fun j _ => by simp) r hr

theorem closeNet_mapIdx {δ : ℝ} (ps ps' : List (List Nat → ℝ)) : ∀ (hs : List (Nat × Option (ℝ → ℝ))) (k f : Nat),
    (∀ i < 2 * (k + hs.length), ∀ j, |ps.getD i 0 j - ps'.getD i 0 j| ≤ δ) → CloseNet δ f (hs.mapIdx fun i => layerAt ps (i + k)) (hs.mapIdx fun i => layerAt ps' (i + k))
  | [], _, _, _ => trivial
  | h :: hs, k, f, hd => by
    rw [List.length_cons] at hd
    rw [List.mapIdx_cons, List.mapIdx_cons]
    have ih := closeNet_mapIdx ps ps' hs (k + 1) h.1 (fun i hi j => hd i (by omega) j)
    simp only [show ∀ i, i + (k + 1) = i + 1 + k from fun i => by omega] at ih
    refine ⟨rfl, rfl, fun r _ j _ => ?_, fun r _ => ?_, ih⟩
    · exact hd (2 * (0 + k)) (by omega) [r, j]
    · exact hd (2 * (0 + k) + 1) (by omega) [r]

theorem closeNet_layersOf {δ : ℝ} (ps ps' : List (List Nat → ℝ)) (hs : List (Nat × Option (ℝ → ℝ))) (f : Nat)
    (hd : ∀ i < 2 * hs.length, ∀ j, |ps.getD i 0 j - ps'.getD i 0 j| ≤ δ) : CloseNet δ f (layersOf hs ps) (layersOf hs ps') := by
  have := closeNet_mapIdx ps ps' hs 0 f (by simpa using hd)
  simpa [layersOf] using this

/-- **C142 (training).** For every network of `LinearNN`s with biases whose activations are Lipschitz continuous, all parameters it may be trained from, and every bound on the features there is
a constant such that a training, whatever its data, loss and settings, whose steps add up to at most `δ ≤ 1` leaves a network, and has as its best one a network, whose predictions
differ from those before the training by at most the constant times `δ`. -/
theorem C142_training {α S K F : Type} (f : Nat) (hs : List (Nat × Option (ℝ → ℝ))) (hlip : ∀ h ∈ hs, ∀ φ, h.2 = some φ → ∃ k : ℝ, 0 ≤ k ∧ ∀ u v, |φ u - φ v| ≤ k * |u - v|)
    (adam : List (OptState (List Nat → ℝ))) (hn : 2 * hs.length ≤ adam.length) (R : ℝ) (hR : 0 ≤ R) :
    ∃ C ≥ 0, ∀ (c : Cfg α (List Nat → ℝ) S K F) (lr : Nat → ℝ) (b1 b2 eps clip L : ℝ), 0 ≤ b1 → b1 < 1 → b1 ^ 2 < b2 → b2 < 1 → 0 ≤ eps → (∀ e, |lr e| ≤ L) →
      c.update = update lr b1 b2 eps clip ∨ c.update = updateRinC lr b1 b2 eps clip → (∀ k e ps, (c.callback k e ps).2 = ps) →
      ∀ n : Nat, (∀ k n, (c.perm k n).Perm (List.range n)) → DataUniform n c.train → 0 < c.batchSize → c.flags.length = adam.length → (∀ a ∈ adam, BalancedR b1 b2 a) →
      ∀ (k : K) (st : S) (rng : K) (t : TState (List Nat → ℝ) S K F), run c k adam st rng = .ok t →
      ∀ x : Nat → ℝ, (∀ j < f, |x j| ≤ R) → ∃ y, predictNet draw drawB f (layersOf hs (adam.map (·.params))) x = some y ∧
        (((t.epoch * batchCount n c.batchSize : Nat) : ℝ) * (L * reach b1 b2) ≤ 1 → ∃ y', predictNet draw drawB f (layersOf hs (t.inner.adam.map (·.params))) x = some y' ∧
          ∀ r < width f (layersOf hs (adam.map (·.params))), |y r - y' r| ≤ C * (((t.epoch * batchCount n c.batchSize : Nat) : ℝ) * (L * reach b1 b2))) ∧
        ((((t.best.epoch + 1) * batchCount n c.batchSize : Nat) : ℝ) * (L * reach b1 b2) ≤ 1 → ∃ y', predictNet draw drawB f (layersOf hs (t.best.inner.adam.map (·.params))) x = some y' ∧
          ∀ r < width f (layersOf hs (adam.map (·.params))), |y r - y' r| ≤ C * ((((t.best.epoch + 1) * batchCount n c.batchSize : Nat) : ℝ) * (L * reach b1 b2))) := by
  have hL : ∀ M ∈ layersOf hs (adam.map (·.params)), LipLayer M := fun M hM => by
    obtain ⟨i, hi, rfl⟩ := List.mem_mapIdx.1 hM
    unfold LipLayer Layer.fn layerAt
    cases e : (hs[i]).2 with
    | none => exact ⟨1, zero_le_one, fun u v => by simp⟩
    | some φ => exact hlip _ (List.getElem_mem hi) φ e
  obtain ⟨C, hC, h⟩ := C142_parameters draw drawB f _ hL R hR
  refine ⟨C, hC, fun c lr b1 b2 eps clip L h1 h1' h12 h2 he hlr hu hcb n hperm hd hs' hl hb k st rng t hrun x hx => ?_⟩
  have hL0 : 0 ≤ L := (abs_nonneg _).trans (hlr 0)
  have hr0 : 0 ≤ L * reach b1 b2 := mul_nonneg hL0 (Real.sqrt_nonneg _)
  have key := C123_training_real c lr b1 b2 eps clip L h1 h1' h12 h2 he hlr hu hcb n hperm hd hs' adam hl hb k st rng t hrun
  have close : ∀ (ad : List (OptState (List Nat → ℝ))) (δ : ℝ),
      (∀ (i : Nat) (a : OptState (List Nat → ℝ)), adam[i]? = some a → ∀ j, ∃ x : OptState (List Nat → ℝ), ad[i]? = some x ∧ |x.params j - a.params j| ≤ δ) →
      CloseNet δ f (layersOf hs (adam.map (·.params))) (layersOf hs (ad.map (·.params))) := fun ad δ had =>
    closeNet_layersOf _ _ hs f fun i hi j => by
      have hi' : i < adam.length := by omega
      obtain ⟨z, hz, hzd⟩ := had i adam[i] (List.getElem?_eq_getElem hi') j
      rw [List.getD_eq_getElem?_getD, List.getD_eq_getElem?_getD, List.getElem?_map, List.getElem?_map, hz, List.getElem?_eq_getElem hi', abs_sub_comm]
      exact hzd
  obtain ⟨y, hy, -⟩ := predictNet_eq draw drawB f (layersOf hs (adam.map (·.params))) x
  refine ⟨y, hy, fun hle => ?_, fun hle => ?_⟩
  · obtain ⟨y1, y', e1, e2, e3⟩ := h _ (mul_nonneg (Nat.cast_nonneg _) hr0) hle _ (close t.inner.adam _ fun i a ha j => (key i a ha j).1) x hx
    rw [hy, Option.some.injEq] at e1
    subst e1
    exact ⟨y', e2, e3⟩
  · obtain ⟨y1, y', e1, e2, e3⟩ := h _ (mul_nonneg (Nat.cast_nonneg _) hr0) hle _ (close t.best.inner.adam _ fun i a ha j => (key i a ha j).2) x hx
    rw [hy, Option.some.injEq] at e1
    subst e1
    exact ⟨y', e2, e3⟩

/-- **C142 (bounds).** One constant for all samples does not exist. -/
theorem C142_bound_needed : ∃ Ls Ls' : List Layer, (∀ L ∈ Ls, LipLayer L) ∧ CloseNet 1 1 Ls Ls' ∧ ∀ C : ℝ, ∃ (x : Nat → ℝ) (y y' : Nat → ℝ),
    predictNet draw drawB 1 Ls x = some y ∧ predictNet draw drawB 1 Ls' x = some y' ∧ C * 1 < |y 0 - y' 0| := by
  refine ⟨[⟨1, fun _ _ => 0, Option.none, Option.none⟩], [⟨1, fun _ _ => 1, Option.none, Option.none⟩], fun L hL => ⟨1, zero_le_one, fun u v => ?_⟩, ?_, fun C => ?_⟩
  · rw [List.mem_singleton.1 hL]
    simp [Layer.fn]
  · exact ⟨rfl, rfl, fun _ _ _ _ => by norm_num, fun _ _ => by norm_num, trivial⟩
  · obtain ⟨y, h1, h2⟩ := predictNet_eq draw drawB 1 [⟨1, fun _ _ => 0, Option.none, Option.none⟩] (fun _ => |C| + 1)
    obtain ⟨y', h1', h2'⟩ := predictNet_eq draw drawB 1 [⟨1, fun _ _ => 1, Option.none, Option.none⟩] (fun _ => |C| + 1)
    refine ⟨_, y, y', h1, h1', ?_⟩
    rw [h2 0 (by simp [width]), h2' 0 (by simp [width])]
    have h : |C| + 1 ≤ |(|C| + 1)| := le_abs_self _
    simp only [net, Layer.at, Layer.fn, Option.getD_none, id, Finset.sum_range_one, zero_mul, one_mul, Option.elim_none, add_zero, zero_sub, abs_neg]
    linarith [le_abs_self C]

/-- Two layers, rectified and plain: the activations are Lipschitz continuous, and the networks whose weights are 1 and 5/4 are within 1/2 of each other. -/
example : (∀ L ∈ [(⟨3, fun _ _ => 1, some fun _ => 0, some fun x => max x 0⟩ : Layer), ⟨2, fun _ _ => 1, Option.none, Option.none⟩], LipLayer L) ∧
    CloseNet (1 / 2) 4 [(⟨3, fun _ _ => 1, some fun _ => 0, some fun x => max x 0⟩ : Layer), ⟨2, fun _ _ => 1, Option.none, Option.none⟩]
      [(⟨3, fun _ _ => 5 / 4, some fun _ => 0, some fun x => max x 0⟩ : Layer), ⟨2, fun _ _ => 5 / 4, Option.none, Option.none⟩] := by
  refine ⟨fun L hL => ⟨1, zero_le_one, fun u v => ?_⟩, ?_⟩
  · rw [one_mul]
    simp only [List.mem_cons, List.not_mem_nil, or_false] at hL
    rcases hL with rfl | rfl
    · exact abs_max_sub_max_le_abs u v 0
    · exact le_rfl
  · refine ⟨rfl, rfl, fun _ _ _ _ => ?_, fun _ _ => ?_, rfl, rfl, fun _ _ _ _ => ?_, fun _ _ => ?_, trivial⟩ <;> norm_num [abs_le]

end Verif.Props
