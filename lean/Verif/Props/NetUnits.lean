import Verif.Props.Activations

/-! # C143: networks and the units of features and outputs -/

namespace Verif.Props
open Prebuilt NetworkSpec Network

variable (draw : Nat → List Nat → ℝ) (drawB : List Nat → List Nat → ℝ)

theorem predictNet_same {f f' : Nat} {Ls Ls' : List Layer} {x x' : Nat → ℝ} (hw : width f' Ls' = width f Ls) (g : Nat → ℝ → ℝ)
    (h : ∀ r < width f Ls, net f' Ls' x' r = g r (net f Ls x r)) :
    ∃ y y', predictNet draw drawB f Ls x = some y ∧ predictNet draw drawB f' Ls' x' = some y' ∧ ∀ r < width f Ls, y' r = g r (y r) := by
  obtain ⟨y, h1, h2⟩ := predictNet_eq draw drawB f Ls x
  obtain ⟨y', h1', h2'⟩ := predictNet_eq draw drawB f' Ls' x'
  exact ⟨y, y', h1, h1', fun r hr => by rw [h2 r hr, h2' r (by rw [hw]; exact hr), h r hr]⟩

/-- **C143 (units of features).** What a network does with the features in some units, a network of the same architecture does with the features in other units; for other zeros the first layer needs a bias. -/
theorem C143_features (f : Nat) (L : Layer) (Ls : List Layer) (t s : Nat → ℝ) (ht : ∀ j < f, t j ≠ 0) (hs : L.b.isSome ∨ ∀ j < f, s j = 0) :
    ∃ L' : Layer, L'.out = L.out ∧ L'.act = L.act ∧ L'.b.isSome = L.b.isSome ∧ ∀ x : Nat → ℝ, ∃ y y', predictNet draw drawB f (L :: Ls) x = some y ∧
      predictNet draw drawB f (L' :: Ls) (fun j => t j * x j + s j) = some y' ∧ ∀ r < width f (L :: Ls), y' r = y r := by
  refine ⟨⟨L.out, fun r j => L.W r j / t j, L.b.map fun b r => b r - ∑ j ∈ Finset.range f, L.W r j / t j * s j, L.act⟩, rfl, rfl, by simp, fun x =>
    predictNet_same draw drawB (Ls := L :: Ls) (Ls' := ⟨L.out, fun r j => L.W r j / t j, L.b.map fun b r => b r - ∑ j ∈ Finset.range f, L.W r j / t j * s j, L.act⟩ :: Ls) rfl (fun _ v => v) fun r hr => ?_⟩
  refine net_congr Ls (f := L.out) (fun j _ => ?_) r hr
  show Layer.fn _ (∑ i ∈ Finset.range f, L.W j i / t i * (t i * x i + s i) + _) = L.fn (∑ i ∈ Finset.range f, L.W j i * x i + L.b.elim 0 (· j))
  have e : ∑ i ∈ Finset.range f, L.W j i / t i * (t i * x i + s i) = ∑ i ∈ Finset.range f, L.W j i * x i + ∑ i ∈ Finset.range f, L.W j i / t i * s i := by
    rw [← Finset.sum_add_distrib]
    refine Finset.sum_congr rfl fun i hi => ?_
    have := ht i (Finset.mem_range.1 hi)
    field_simp
  rw [e]
  unfold Layer.fn
  congr 1
  cases hb : L.b with
  | some b => simp only [Option.map_some, Option.elim_some]; ring
  | none =>
    rcases hs with h | h
    · rw [hb] at h; cases h
    · rw [Finset.sum_eq_zero (s := Finset.range f) (f := fun i => L.W j i / t i * s i) fun i hi => by rw [h i (Finset.mem_range.1 hi), mul_zero]]
      simp

theorem net_append_last (Ls : List Layer) (L : Layer) : ∀ (f : Nat) (x : Nat → ℝ), net f (Ls ++ [L]) x = L.at (width f Ls) (net f Ls x) := by
  induction Ls with
  | nil => intro f x; rfl
  | cons M Ls ih => intro f x; exact ih M.out (M.at f x)

theorem width_append_last (Ls : List Layer) (L : Layer) : ∀ f : Nat, width f (Ls ++ [L]) = L.out := by
  induction Ls with
  | nil => intro f; rfl
  | cons M Ls ih => intro f; exact ih M.out

/-- **C143 (units of outputs).** If the last layer has no activation, a network of the same architecture gives the outputs in other units; for other zeros the last layer needs a bias. -/
theorem C143_outputs (f : Nat) (Ls : List Layer) (L : Layer) (ha : L.act = Option.none) (t s : Nat → ℝ) (hs : L.b.isSome ∨ ∀ r < L.out, s r = 0) :
    ∃ L' : Layer, L'.out = L.out ∧ L'.act = Option.none ∧ L'.b.isSome = L.b.isSome ∧ ∀ x : Nat → ℝ, ∃ y y', predictNet draw drawB f (Ls ++ [L]) x = some y ∧
      predictNet draw drawB f (Ls ++ [L']) x = some y' ∧ ∀ r < L.out, y' r = t r * y r + s r := by
  refine ⟨⟨L.out, fun r j => t r * L.W r j, L.b.map fun b r => t r * b r + s r, Option.none⟩, rfl, rfl, by simp, fun x => ?_⟩
  have := predictNet_same draw drawB (f := f) (f' := f) (Ls := Ls ++ [L]) (Ls' := Ls ++ [⟨L.out, fun r j => t r * L.W r j, L.b.map fun b r => t r * b r + s r, Option.none⟩])
    (x := x) (x' := x) (by rw [width_append_last, width_append_last]) (fun r v => t r * v + s r) fun r hr => ?_
  · rw [width_append_last] at this
    exact this
  · rw [width_append_last] at hr
    rw [net_append_last, net_append_last]
    unfold Layer.at Layer.fn
    rw [ha]
    simp only [Option.getD_none, id]
    rw [Finset.sum_congr rfl fun i _ => mul_assoc (t r) (L.W r i) (net f Ls x i), ← Finset.mul_sum]
    cases hb : L.b with
    | some b => simp only [Option.map_some, Option.elim_some]; ring
    | none =>
      rcases hs with h | h
      · rw [hb] at h; cases h
      · simp only [Option.map_none, Option.elim_none, h r hr, add_zero]

/-- A network none of whose layers has a bias, and whose activations commute with positive factors. -/
def Unbiased (Ls : List Layer) : Prop := ∀ L ∈ Ls, L.b = Option.none ∧ ∀ s u : ℝ, 0 < s → L.fn (s * u) = s * L.fn u

theorem net_homogeneous : ∀ (Ls : List Layer), Unbiased Ls → ∀ (f : Nat) (c : ℝ), 0 < c → ∀ x : Nat → ℝ, net f Ls (fun j => c * x j) = fun r => c * net f Ls x r
  | [], _, _, _, _, _ => rfl
  | L :: Ls, h, f, c, hc, x => by
    have e : L.at f (fun j => c * x j) = fun j => c * L.at f x j := by
      funext j
      unfold Layer.at
      rw [(h L List.mem_cons_self).1, ← (h L List.mem_cons_self).2 c _ hc, mul_add, Finset.mul_sum]
      congr 1
      simp only [Option.elim_none, mul_zero, add_zero]
      exact Finset.sum_congr rfl fun i _ => by ring
    show net L.out Ls (L.at f fun j => c * x j) = _
    rw [e]
    exact net_homogeneous Ls (fun M hM => h M (List.mem_cons_of_mem _ hM)) L.out c hc _

theorem net_zero (Ls : List Layer) (h : Unbiased Ls) (f : Nat) (r : Nat) : net f Ls (fun _ => 0) r = 0 := by
  have e := congrFun (net_homogeneous Ls h f 2 two_pos fun _ => 0) r
  simp only [mul_zero] at e
  linarith

/-- **C143 (biases).** Networks without biases whose activations commute with positive factors, as rectifiers do, do so themselves and give zero for zero. So without biases other zeros of the features cannot be
made up for: there is a network such that no network without biases gives for the shifted features what it gives. -/
theorem C143_unbiased : (∀ (f : Nat) (Ls : List Layer), Unbiased Ls → (∀ x, ∀ c : ℝ, 0 < c → ∃ y y', predictNet draw drawB f Ls x = some y ∧
      predictNet draw drawB f Ls (fun j => c * x j) = some y' ∧ ∀ r < width f Ls, y' r = c * y r) ∧ ∃ y, predictNet draw drawB f Ls (fun _ => 0) = some y ∧ ∀ r < width f Ls, y r = 0) ∧
    ∃ L : Layer, Unbiased [L] ∧ ∀ s : ℝ, s ≠ 0 → ¬ ∃ Ls', Unbiased Ls' ∧ width 1 Ls' = width 1 [L] ∧ ∀ (x : Nat → ℝ) y y', predictNet draw drawB 1 [L] x = some y →
      predictNet draw drawB 1 Ls' (fun j => x j + s) = some y' → ∀ r < width 1 [L], y' r = y r := by
  refine ⟨fun f Ls h => ⟨fun x c hc => predictNet_same draw drawB rfl (fun _ v => c * v) fun r _ => by rw [net_homogeneous Ls h f c hc], ?_⟩, ?_⟩
  · obtain ⟨y, h1, h2⟩ := predictNet_eq draw drawB f Ls (fun _ => 0)
    exact ⟨y, h1, fun r hr => by rw [h2 r hr, net_zero Ls h]⟩
  · refine ⟨⟨1, fun _ _ => 1, Option.none, Option.none⟩, fun L hL => ?_, fun s hs => ?_⟩
    · rw [List.mem_singleton.1 hL]
      exact ⟨rfl, fun s u _ => rfl⟩
    · rintro ⟨Ls', hu, hw, h⟩
      obtain ⟨y, h1, h2⟩ := predictNet_eq draw drawB 1 [⟨1, fun _ _ => 1, Option.none, Option.none⟩] (fun _ => -s)
      obtain ⟨y', h1', h2'⟩ := predictNet_eq draw drawB 1 Ls' (fun _ => -s + s)
      have h3 := h _ y y' h1 h1' 0 one_pos
      rw [h2 0 one_pos, h2' 0 (by rw [hw]; exact one_pos)] at h3
      simp only [neg_add_cancel] at h3
      rw [net_zero Ls' hu] at h3
      simp [net, Layer.at, Layer.fn] at h3
      exact hs h3

/-- A rectified layer without a bias, and a layer with one. -/
example : Unbiased [(⟨3, fun _ _ => 1, Option.none, some (Act.fn .relu)⟩ : Layer)] ∧ (⟨2, fun _ _ => 1, some fun _ => 1, Option.none⟩ : Layer).b.isSome :=
  ⟨fun L hL => by rw [List.mem_singleton.1 hL]; exact ⟨rfl, fun s u hs => C136_homogeneous .relu trivial s u hs⟩, rfl⟩

end Verif.Props
