import Verif.Model.Network
import Verif.Spec.Network
import Verif.Props.Prebuilt
import Mathlib.Analysis.SpecialFunctions.Sigmoid
import Mathlib.Analysis.SpecialFunctions.Trigonometric.Bounds
import Mathlib.Analysis.Calculus.MeanValue

/-! # C135: networks of linear layers -/

namespace Verif.Props
open Tree Prebuilt NetworkSpec

/-- The hyperparameters of a layer. -/
def hyperOf (L : Layer) : LinHyper ℝ := ⟨some L.out, L.b.isSome, L.act.map NArr.uop⟩

/-- A `LinearNN` as constructed. -/
def freshLayer (L : Layer) : Mdl (LinHyper ℝ) (Layers ℝ) (Tree (List Nat)) := ⟨hyperOf L, linBuild (hyperOf L), Option.none, Option.none⟩

/-- Setting the parameters of compiled layers. -/
def setAll : Nat → List Layer → List (Mdl (LinHyper ℝ) (Layers ℝ) (Tree (List Nat))) → List (Layers ℝ)
  | f, L :: Ls, m :: ms => withParams m.modules ⟨[L.out, f], fun i => L.W (i.getD 0 0) (i.getD 1 0)⟩ (L.b.map fun b => ⟨[L.out], fun i => b (i.getD 0 0)⟩) :: setAll L.out Ls ms
  | _, _, _ => []

theorem at_congr (L : Layer) {f : Nat} {x x' : Nat → ℝ} (h : ∀ j < f, x j = x' j) (r : Nat) : L.at f x r = L.at f x' r := by
  unfold Layer.at
  rw [Finset.sum_congr rfl fun j hj => by rw [h j (Finset.mem_range.1 hj)]]

theorem net_congr (Ls : List Layer) : ∀ {f : Nat} {x x' : Nat → ℝ}, (∀ j < f, x j = x' j) → ∀ r < width f Ls, net f Ls x r = net f Ls x' r := by
  induction Ls with
  | nil => intro f x x' h r hr; exact h r hr
  | cons L Ls ih => intro f x x' h r hr; exact ih (fun j _ => at_congr L h j) r hr

/-- **C135 (what is computed).** A sequential model of linear layers that was just constructed compiles for vectors of `f` features, declares the number of outputs of the last layer, and, with whatever parameters, computes
for every sample the composition of `act(W x + b)`. -/
theorem C135_network (draw : Nat → List Nat → ℝ) (drawB : List Nat → List Nat → ℝ) (Ls : List Layer) : ∀ f : Nat,
    ∃ ms, Network.netCompile draw drawB (Ls.map freshLayer) (.leaf [f]) = .ok (ms, .leaf [width f Ls]) ∧ ms.length = Ls.length ∧
      ∀ (x : NArr ℝ) (B : Nat), x.shape = [B, f] → 0 < B → ∃ y : NArr ℝ, Network.netCall (setAll f Ls ms) (.leaf x) = .ok (.leaf y) ∧ y.shape = [B, width f Ls] ∧
        ∀ k r, k < B → r < width f Ls → y.val [k, r] = net f Ls (fun j => x.val [k, j]) r := by
  induction Ls with
  | nil => intro f; exact ⟨[], rfl, rfl, fun x B hx hB => ⟨x, rfl, hx, fun k r _ _ => rfl⟩⟩
  | cons L Ls ih =>
    intro f
    obtain ⟨m', h1, h1h, -, -, h1s, -, h2⟩ := C77_linear draw drawB (freshLayer L) (n := L.out) (s := [f]) (shapes := .leaf [f]) rfl trivial rfl rfl (by simp [freshLayer])
    obtain ⟨ms, g1, g2, g3⟩ := ih L.out
    refine ⟨m' :: ms, ?_, by simp [g2], fun x B hx hB => ?_⟩
    · simp only [List.map_cons, Network.netCompile, h1, h1s, g1, width]
    · obtain ⟨-, h3⟩ := h2 ⟨[L.out, f], fun i => L.W (i.getD 0 0) (i.getD 1 0)⟩ (L.b.map fun b => ⟨[L.out], fun i => b (i.getD 0 0)⟩) (by simp [ReshapeSpec.count])
        (by simp [freshLayer, hyperOf]) (fun b' hb => by
          obtain ⟨b, -, rfl⟩ := Option.map_eq_some_iff.1 hb
          rfl)
      obtain ⟨y, h4, h5, h6⟩ := h3 (.leaf x) B x trivial (by simp [map, hx]) rfl hx hB
      have hsam : ∀ k, ReshapeSpec.sample x k = (List.range f).map fun j => x.val [k, j] := fun k => by
        simp only [ReshapeSpec.sample, hx, NArr.indices, List.tail_cons, List.map_flatMap, List.map_cons, List.map_nil]
        exact (List.map_eq_flatMap ..).symm
      obtain ⟨z, hz, hzs, hzv⟩ : ∃ z : NArr ℝ, ((freshLayer L).hyper.act.getD id y) = z ∧ z.shape = [B, L.out] ∧ ∀ k r, k < B → r < L.out → z.val [k, r] = L.at f (fun j => x.val [k, j]) r := by
        refine ⟨_, rfl, ?_, fun k r hk hr => ?_⟩
        · cases ha : L.act <;> simp [freshLayer, hyperOf, ha, NArr.uop, h5]
        · have hl := h6 k r hk hr
          rw [linear, hsam, List.length_map, List.length_range] at hl
          have hl' : y.val [k, r] = ∑ j ∈ Finset.range f, L.W r j * x.val [k, j] + L.b.elim 0 (· r) := by
            rw [hl]
            congr 1
            · refine Finset.sum_congr rfl fun j hj => ?_
              simp [List.getD, Finset.mem_range.1 hj]
            · cases L.b <;> simp
          cases ha : L.act <;> simp [freshLayer, hyperOf, ha, NArr.uop, Layer.at, Layer.fn, hl']
      rw [hz] at h4
      obtain ⟨w, g4, g5, g6⟩ := g3 z B hzs hB
      refine ⟨w, ?_, g5, fun k r hk hr => ?_⟩
      · simp only [setAll, Network.netCall, h4, g4]
      · rw [g6 k r hk hr]
        exact net_congr Ls (fun j hj => hzv k j hk hj) r hr

/-- The prediction for one sample: a model that is constructed, compiled and given its parameters, called with a batch of one. -/
noncomputable def predictNet (draw : Nat → List Nat → ℝ) (drawB : List Nat → List Nat → ℝ) (f : Nat) (Ls : List Layer) (x : Nat → ℝ) : Option (Nat → ℝ) :=
  match Network.netCompile draw drawB (Ls.map freshLayer) (.leaf [f]) with
  | .error _ => Option.none
  | .ok (ms, _) => match Network.netCall (setAll f Ls ms) (.leaf ⟨[1, f], fun i => x (i.getD 1 0)⟩) with
    | .ok (.leaf y) => some fun r => y.val [0, r]
    | _ => Option.none

variable (draw : Nat → List Nat → ℝ) (drawB : List Nat → List Nat → ℝ)

theorem predictNet_eq (f : Nat) (Ls : List Layer) (x : Nat → ℝ) : ∃ y, predictNet draw drawB f Ls x = some y ∧ ∀ r < width f Ls, y r = net f Ls x r := by
  obtain ⟨ms, h1, -, h2⟩ := C135_network draw drawB Ls f
  obtain ⟨y, h3, -, h4⟩ := h2 ⟨[1, f], fun i => x (i.getD 1 0)⟩ 1 rfl one_pos
  refine ⟨fun r => y.val [0, r], ?_, fun r hr => h4 0 r one_pos hr⟩
  simp only [predictNet, h1, h3]

theorem net_lipschitz (Ls : List Layer) : ∀ {f : Nat} {c d : ℝ} {x x' : Nat → ℝ}, 0 ≤ d → Steep f Ls c → (∀ j < f, |x j - x' j| ≤ d) → ∀ r < width f Ls, |net f Ls x r - net f Ls x' r| ≤ c * d := by
  induction Ls with
  | nil =>
    intro f c d x x' hd hs h r hr
    cases hs
    rw [one_mul]
    exact h r hr
  | cons L Ls ih =>
    intro f c d x x' hd hs h r hr
    obtain ⟨a, k, c', ha0, hk, ha, hL, hs', rfl⟩ := hs
    have hstep : ∀ j < L.out, |L.at f x j - L.at f x' j| ≤ k * a * d := fun j hj => by
      refine (hL _ _).trans ?_
      rw [mul_assoc]
      refine mul_le_mul_of_nonneg_left ?_ hk
      rw [add_sub_add_right_eq_sub, ← Finset.sum_sub_distrib]
      calc |∑ i ∈ Finset.range f, (L.W j i * x i - L.W j i * x' i)| ≤ ∑ i ∈ Finset.range f, |L.W j i * x i - L.W j i * x' i| := Finset.abs_sum_le_sum_abs _ _
        _ ≤ ∑ i ∈ Finset.range f, |L.W j i| * d := Finset.sum_le_sum fun i hi => by
          rw [← mul_sub, abs_mul]
          exact mul_le_mul_of_nonneg_left (h i (Finset.mem_range.1 hi)) (abs_nonneg _)
        _ ≤ a * d := by rw [← Finset.sum_mul]; exact mul_le_mul_of_nonneg_right (ha j hj) hd
    calc _ ≤ c' * (k * a * d) := ih (mul_nonneg (mul_nonneg hk ha0) hd) hs' hstep r hr
      _ = _ := by ring

/-- **C135 (sensitivity to the features).** A network changes its predictions by at most the product, over the layers, of a Lipschitz constant of the activation and the largest absolute row sum of the weights, times the largest
change of a feature. -/
theorem C135_lipschitz (f : Nat) (Ls : List Layer) {c d : ℝ} (hd : 0 ≤ d) (hs : Steep f Ls c) (x x' : Nat → ℝ) (h : ∀ j < f, |x j - x' j| ≤ d) :
    ∃ y y', predictNet draw drawB f Ls x = some y ∧ predictNet draw drawB f Ls x' = some y' ∧ ∀ r < width f Ls, |y r - y' r| ≤ c * d := by
  obtain ⟨y, h1, h2⟩ := predictNet_eq draw drawB f Ls x
  obtain ⟨y', h1', h2'⟩ := predictNet_eq draw drawB f Ls x'
  exact ⟨y, y', h1, h1', fun r hr => by rw [h2 r hr, h2' r hr]; exact net_lipschitz Ls hd hs h r hr⟩

theorem net_mono (Ls : List Layer) : ∀ {f : Nat} {x x' : Nat → ℝ}, (∀ L ∈ Ls, (∀ r j, 0 ≤ L.W r j) ∧ Monotone L.fn) → (∀ j < f, x j ≤ x' j) → ∀ r < width f Ls, net f Ls x r ≤ net f Ls x' r := by
  induction Ls with
  | nil => intro f x x' _ h r hr; exact h r hr
  | cons L Ls ih =>
    intro f x x' hL h r hr
    refine ih (fun M hM => hL M (List.mem_cons_of_mem _ hM)) (fun j _ => ?_) r hr
    obtain ⟨h1, h2⟩ := hL L List.mem_cons_self
    refine h2 (add_le_add_left (Finset.sum_le_sum fun i hi => mul_le_mul_of_nonneg_left (h i (Finset.mem_range.1 hi)) (h1 j i)) _)

/-- **C135 (monotone networks).** With non-negative weights and monotone activations no prediction falls when features grow. -/
theorem C135_monotone (f : Nat) (Ls : List Layer) (hL : ∀ L ∈ Ls, (∀ r j, 0 ≤ L.W r j) ∧ Monotone L.fn) (x x' : Nat → ℝ) (h : ∀ j < f, x j ≤ x' j) :
    ∃ y y', predictNet draw drawB f Ls x = some y ∧ predictNet draw drawB f Ls x' = some y' ∧ ∀ r < width f Ls, y r ≤ y' r := by
  obtain ⟨y, h1, h2⟩ := predictNet_eq draw drawB f Ls x
  obtain ⟨y', h1', h2'⟩ := predictNet_eq draw drawB f Ls x'
  exact ⟨y, y', h1, h1', fun r hr => by rw [h2 r hr, h2' r hr]; exact net_mono Ls hL h r hr⟩

theorem net_append (As Bs : List Layer) : ∀ (f : Nat) (x : Nat → ℝ), net f (As ++ Bs) x = net (width f As) Bs (net f As x) ∧ width f (As ++ Bs) = width (width f As) Bs := by
  induction As with
  | nil => intro f x; exact ⟨rfl, rfl⟩
  | cons L As ih => intro f x; exact ih L.out (L.at f x)

/-- **C135 (range).** The predictions lie in the range of the last activation, whatever the weights. -/
theorem C135_range (f : Nat) (Ls : List Layer) (L : Layer) (S : Set ℝ) (hS : ∀ u, L.fn u ∈ S) (x : Nat → ℝ) :
    ∃ y, predictNet draw drawB f (Ls ++ [L]) x = some y ∧ width f (Ls ++ [L]) = L.out ∧ ∀ r < L.out, y r ∈ S := by
  obtain ⟨y, h1, h2⟩ := predictNet_eq draw drawB f (Ls ++ [L]) x
  obtain ⟨e1, e2⟩ := net_append Ls [L] f x
  refine ⟨y, h1, e2, fun r hr => ?_⟩
  rw [h2 r (by rw [e2]; exact hr), e1]
  exact hS _

theorem net_affine (Ls : List Layer) : ∀ f : Nat, (∀ L ∈ Ls, L.act = Option.none) → ∃ (A : Nat → Nat → ℝ) (c : Nat → ℝ), ∀ x, ∀ r < width f Ls, net f Ls x r = ∑ j ∈ Finset.range f, A r j * x j + c r := by
  induction Ls with
  | nil =>
    intro f _
    refine ⟨fun r j => if r = j then 1 else 0, fun _ => 0, fun x r hr => ?_⟩
    have : r < f := hr
    simp [net, this]
  | cons L Ls ih =>
    intro f hL
    obtain ⟨A, c, h⟩ := ih L.out fun M hM => hL M (List.mem_cons_of_mem _ hM)
    refine ⟨fun r j => ∑ i ∈ Finset.range L.out, A r i * L.W i j, fun r => ∑ i ∈ Finset.range L.out, A r i * L.b.elim 0 (· i) + c r, fun x r hr => ?_⟩
    have hid : L.fn = id := by rw [Layer.fn, hL L List.mem_cons_self]; rfl
    rw [net, h _ r hr]
    simp only [Layer.at, hid, id, mul_add, Finset.sum_add_distrib, Finset.mul_sum, Finset.sum_mul]
    rw [Finset.sum_comm, add_assoc]
    simp only [mul_assoc]

/-- **C135 (without activations).** However many layers a network without activations has, there is one layer that predicts the same for all samples. -/
theorem C135_collapse (f : Nat) (Ls : List Layer) (hL : ∀ L ∈ Ls, L.act = Option.none) :
    ∃ L : Layer, L.out = width f Ls ∧ L.act = Option.none ∧ ∀ x, ∃ y y', predictNet draw drawB f Ls x = some y ∧ predictNet draw drawB f [L] x = some y' ∧ ∀ r < width f Ls, y r = y' r := by
  obtain ⟨A, c, h⟩ := net_affine Ls f hL
  refine ⟨⟨width f Ls, A, some c, Option.none⟩, rfl, rfl, fun x => ?_⟩
  obtain ⟨y, h1, h2⟩ := predictNet_eq draw drawB f Ls x
  obtain ⟨y', h1', h2'⟩ := predictNet_eq draw drawB f [⟨width f Ls, A, some c, Option.none⟩] x
  exact ⟨y, y', h1, h1', fun r hr => by rw [h2 r hr, h2' r hr, h x r hr]; rfl⟩

/-- A layer with its outputs multiplied by `t` before the activation. -/
noncomputable def scaleOut (t : Nat → ℝ) (L : Layer) : Layer := { L with W := fun r j => t r * L.W r j, b := L.b.map fun b r => t r * b r }
/-- A layer that divides its inputs by `t`. -/
noncomputable def scaleIn (t : Nat → ℝ) (L : Layer) : Layer := { L with W := fun r j => L.W r j / t j }
/-- A layer with its outputs in another order. -/
def permOut (σ : Equiv.Perm Nat) (L : Layer) : Layer := { L with W := fun r j => L.W (σ r) j, b := L.b.map fun b r => b (σ r) }
/-- A layer that takes its inputs in another order. -/
def permIn (σ : Equiv.Perm Nat) (L : Layer) : Layer := { L with W := fun r j => L.W r (σ j) }

theorem scale_pair (t : Nat → ℝ) (L M : Layer) (ht : ∀ r < L.out, 0 < t r) (hL : ∀ s u, 0 < s → L.fn (s * u) = s * L.fn u) (f : Nat) (x : Nat → ℝ) :
    (scaleIn t M).at L.out ((scaleOut t L).at f x) = M.at L.out (L.at f x) := by
  funext r
  unfold Layer.at
  have : (scaleIn t M).fn = M.fn := rfl
  rw [this]
  congr 2
  refine Finset.sum_congr rfl fun j hj => ?_
  have htj := ht j (Finset.mem_range.1 hj)
  have e : (∑ i ∈ Finset.range f, (scaleOut t L).W j i * x i + (scaleOut t L).b.elim 0 (· j)) = t j * (∑ i ∈ Finset.range f, L.W j i * x i + L.b.elim 0 (· j)) := by
    rw [mul_add, Finset.mul_sum]
    congr 1
    · exact Finset.sum_congr rfl fun i _ => by simp only [scaleOut]; ring
    · simp only [scaleOut]; cases L.b <;> simp
  have e2 : (scaleOut t L).fn = L.fn := rfl
  rw [e, e2, hL _ _ htj]
  simp only [scaleIn]
  field_simp

theorem perm_pair (σ : Equiv.Perm Nat) (L M : Layer) (hσ : ∀ r, σ r < L.out ↔ r < L.out) (f : Nat) (x : Nat → ℝ) :
    (permIn σ M).at L.out ((permOut σ L).at f x) = M.at L.out (L.at f x) := by
  funext r
  unfold Layer.at
  have : (permIn σ M).fn = M.fn := rfl
  rw [this]
  congr 2
  have e2 : (permOut σ L).fn = L.fn := rfl
  have hb : ∀ j, (permOut σ L).b.elim 0 (· j) = L.b.elim 0 (· (σ j)) := fun j => by simp only [permOut]; cases L.b <;> simp
  simp only [e2, hb]
  exact Finset.sum_equiv σ (fun j => by simp [hσ]) fun j _ => rfl

/-- **C135 (hidden units).** If the activation of a layer commutes with positive factors, the weights and the bias of each of its units can be multiplied by a positive factor and the weights of the next layer divided by it; and the units of
any layer can be put in another order: neither changes a prediction. So there is never only one fit. -/
theorem C135_hidden (f : Nat) (pre post : List Layer) (L M : Layer) (x : Nat → ℝ) :
    (∀ t : Nat → ℝ, (∀ r < L.out, 0 < t r) → (∀ s u, 0 < s → L.fn (s * u) = s * L.fn u) →
      ∃ y y', predictNet draw drawB f (pre ++ L :: M :: post) x = some y ∧ predictNet draw drawB f (pre ++ scaleOut t L :: scaleIn t M :: post) x = some y' ∧
        ∀ r < width f (pre ++ L :: M :: post), y r = y' r) ∧
    ∀ σ : Equiv.Perm Nat, (∀ r, σ r < L.out ↔ r < L.out) →
      ∃ y y', predictNet draw drawB f (pre ++ L :: M :: post) x = some y ∧ predictNet draw drawB f (pre ++ permOut σ L :: permIn σ M :: post) x = some y' ∧
        ∀ r < width f (pre ++ L :: M :: post), y r = y' r := by
  have key : ∀ L' M' : Layer, L'.out = L.out → M'.out = M.out → (∀ f x, M'.at L.out (L'.at f x) = M.at L.out (L.at f x)) →
      ∃ y y', predictNet draw drawB f (pre ++ L :: M :: post) x = some y ∧ predictNet draw drawB f (pre ++ L' :: M' :: post) x = some y' ∧
        ∀ r < width f (pre ++ L :: M :: post), y r = y' r := by
    intro L' M' hl hm h
    obtain ⟨y, h1, h2⟩ := predictNet_eq draw drawB f (pre ++ L :: M :: post) x
    obtain ⟨y', h1', h2'⟩ := predictNet_eq draw drawB f (pre ++ L' :: M' :: post) x
    obtain ⟨e1, w1⟩ := net_append pre (L :: M :: post) f x
    obtain ⟨e2, w2⟩ := net_append pre (L' :: M' :: post) f x
    refine ⟨y, y', h1, h1', fun r hr => ?_⟩
    rw [h2 r hr, h2' r (by rw [w1] at hr; rw [w2]; simpa only [width, hm] using hr), e1, e2]
    simp only [net, hl, hm, h]
  exact ⟨fun t ht hL => key _ _ rfl rfl fun f x => scale_pair t L M ht hL f x, fun σ hσ => key _ _ rfl rfl fun f x => perm_pair σ L M hσ f x⟩

/-- Layers without activations, of three and two outputs: one layer does the same. Layers with hidden units that can be rescaled and put in another order. -/
example : (∀ L ∈ [(⟨3, fun _ _ => 1, Option.none, Option.none⟩ : Layer), ⟨2, fun r j => r + j, some fun _ => 1, Option.none⟩], L.act = Option.none) ∧
    (∀ s u : ℝ, 0 < s → (⟨3, fun _ _ => 1, Option.none, some fun x => max x 0⟩ : Layer).fn (s * u) = s * (⟨3, fun _ _ => 1, Option.none, some fun x => max x 0⟩ : Layer).fn u) ∧
    ∀ r, Equiv.swap 0 2 r < 3 ↔ r < 3 := by
  refine ⟨by simp, fun s u hs => by simp only [Layer.fn, Option.getD_some]; rw [mul_max_of_nonneg _ _ hs.le, mul_zero], fun r => ?_⟩
  rw [Equiv.swap_apply_def]
  split_ifs <;> omega

end Verif.Props
