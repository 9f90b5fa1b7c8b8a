import Verif.Lemmas.Grad
import Verif.Props.Batch

/-! # C71: gradients are per-sample derivatives, for every way of batching -/

namespace Verif.Props
open Batch BatchSpec Grad GradSpec

variable {α γ δ S W : Type}

/-- **C71** For a model that treats samples independently and keeps no state, `grad_input` with any batch options returns,
at sample `i`, the derivative at that sample of the map that puts a value in the place of sample `i`, evaluates the model on
the whole data set and takes row `i` of the output. -/
theorem C71_grad_input_partial (dims : α → List Nat) (isScalar : α → Bool) (f : Leaves α → S → Leaves γ × S) (hf : PerSample f) (hr : RowPerSample f)
    (jac : (List α → List (Option γ)) → List α → List δ) (hj : DependsOnValues jac) (cols : Nat → Nat) (hc : ∀ g x, (jac g x).length = cols x.length)
    (stack : Nat → (Nat → S) → S) (hs : ∀ n s, stack n (fun _ => s) = s) (maxSize : Option Nat) (hm : ∀ m, maxSize = some m → 0 < m) (avoid : Bool)
    (n : Nat) (hn : 0 < n) (X : Leaves α) (hX : Uniform n X) (hsc : avoid = true → ∀ x ∈ X, ∀ a ∈ x, isScalar a = false) (d : Nat)
    (hd : ∀ x ∈ X, ∀ a ∈ x, (dims a).head? = some d) (s : S) :
    ∃ Y, gradInputCall dims isScalar f jac cols stack maxSize avoid X s = .ok (Y, s) ∧ Y.length = cols X.length ∧ (∀ y ∈ Y, y.length = n) ∧
      ∀ i < n, ∀ k < cols X.length, (Y[k]?.bind fun y => y[i]?) =
        (jac (fun x => (f (replaceSample X i x) s).1.map fun y => y[i]?) (sampleOf X i))[k]? := by
  have htype : singleType dims (sampleOf X 0) = .ok () := by
    have hmem : ∀ a ∈ sampleOf X 0, (dims a).head? = some d := by
      intro a ha
      obtain ⟨x, hx, hxa⟩ := List.mem_filterMap.1 ha
      exact hd x hx a (List.mem_of_getElem? hxa)
    cases hx : sampleOf X 0 with
    | nil => rfl
    | cons a l =>
      rw [hx] at hmem
      have h1 := hmem a (by simp)
      rw [singleType, if_pos]
      simp only [h1, Option.isSome_some, Bool.true_and, List.all_eq_true, decide_eq_true_eq]
      exact hmem
  have hauto : autobatch isScalar (gradInput f jac cols stack) maxSize avoid X s = .ok (gradInput f jac cols stack X s) := by
    cases maxSize with
    | none => exact C16_no_limit isScalar _ avoid X hX.1 s
    | some m => exact C15_autobatch_eq isScalar _ (gradInput_static f jac cols stack) (gradInput_perSample hf jac cols hs) n m hn (hm m rfl) avoid X hX hsc s
  have hst : (gradInput f jac cols stack X s).2 = s := (gradInput_perSample hf jac cols hs).state X s
  have hsome : ∀ k < cols X.length, ∀ i < n, ((jac (single f s) (sampleOf X i))[k]?).isSome := fun k hk i hi => by
    rw [List.getElem?_eq_getElem (by rw [hc, sampleOf_length hX.2 hi]; exact hk)]; rfl
  refine ⟨(gradInput f jac cols stack X s).1, ?_, by simp [gradInput], ?_, ?_⟩
  · rw [gradInputCall, htype]
    simp only [hauto]
    exact congrArg Except.ok (Prod.ext rfl hst)
  · intro y hy
    simp only [gradInput, headD_length hX, List.mem_map, List.mem_range] at hy
    obtain ⟨k, hk, rfl⟩ := hy
    exact length_filterMap_total (hsome k hk)
  · intro i hi k hk
    have hval : jac (single f s) (sampleOf X i) = jac (fun x => (f (replaceSample X i x) s).1.map fun y => y[i]?) (sampleOf X i) := by
      refine hj _ _ _ fun x hx => ?_
      rw [sampleOf_length hX.2 hi] at hx
      rw [row_single hf hr (replace_uniform hX hx) s hi, sampleOf_replace hX.2 hi hx]
    simp only [gradInput, headD_length hX, List.getElem?_map, List.getElem?_range hk, Option.map_some, Option.bind_some]
    rw [filterMap_total (hsome k hk), if_pos hi, hval]

/-- **C71** Nothing is lost by not differentiating across samples: row `i` does not depend on another sample `j`. -/
theorem C71_no_cross_terms (f : Leaves α → S → Leaves γ × S) (hf : PerSample f) (hr : RowPerSample f) (n : Nat) (X : Leaves α) (hX : Uniform n X) (s : S)
    (i j : Nat) (hi : i < n) (hij : j ≠ i) (x : List α) (hx : x.length = X.length) :
    ((f (replaceSample X j x) s).1.map fun y => y[i]?) = (f X s).1.map fun y => y[i]? := by
  rw [row_single hf hr (replace_uniform hX hx) s hi, row_single hf hr hX s hi, sampleOf_replace_ne hij hx]

/-- **C71** `grad_params` with any batch options returns, at sample `i`, the derivative with respect to the parameters of the
model's output for sample `i` alone. -/
theorem C71_grad_params_partial (isScalar : α → Bool) (f : W → Leaves α → S → Leaves γ × S) (hf : ∀ w, PerSample (f w)) (hr : ∀ w, RowPerSample (f w))
    (jac : (W → List (Option γ)) → W → List δ) (cols : Nat → Nat) (l : Nat) (hc : ∀ g w, (jac g w).length = cols l)
    (maxSize : Option Nat) (hm : ∀ m, maxSize = some m → 0 < m) (avoid : Bool) (n : Nat) (hn : 0 < n) (X : Leaves α) (hX : Uniform n X) (hl : X.length = l)
    (hsc : avoid = true → ∀ x ∈ X, ∀ a ∈ x, isScalar a = false) (w : W) (s : S) :
    ∃ Y, autobatch isScalar (gradParams f jac cols w) maxSize avoid X s = .ok (Y, s) ∧ Y.length = cols l ∧ (∀ y ∈ Y, y.length = n) ∧
      ∀ i < n, ∀ k < cols l, (Y[k]?.bind fun y => y[i]?) = (jac (fun w' => (f w' ((sampleOf X i).map fun a => [a]) s).1.map List.head?) w)[k]? := by
  subst hl
  have hauto : autobatch isScalar (gradParams f jac cols w) maxSize avoid X s = .ok (gradParams f jac cols w X s) := by
    cases maxSize with
    | none => exact C16_no_limit isScalar _ avoid X hX.1 s
    | some m => exact C15_autobatch_eq isScalar _ (gradParams_static f jac cols w) (gradParams_perSample hf hr jac cols w) n m hn (hm m rfl) avoid X hX hsc s
  have hst : (gradParams f jac cols w X s).2 = s := (hf w).state X s
  have hsome : ∀ k < cols X.length, ∀ i < n, ((jac (fun w' => (f w' X s).1.map fun y => y[i]?) w)[k]?).isSome := fun k hk i hi => by
    rw [List.getElem?_eq_getElem (by rw [hc]; exact hk)]; rfl
  refine ⟨(gradParams f jac cols w X s).1, ?_, by simp [gradParams], ?_, ?_⟩
  · rw [hauto]
    exact congrArg Except.ok (Prod.ext rfl hst)
  · intro y hy
    simp only [gradParams, headD_length hX, List.mem_map, List.mem_range] at hy
    obtain ⟨k, hk, rfl⟩ := hy
    exact length_filterMap_total (hsome k hk)
  · intro i hi k hk
    have hval : (fun w' => (f w' X s).1.map fun y => y[i]?) = fun w' => (f w' ((sampleOf X i).map fun a => [a]) s).1.map List.head? := by
      funext w'
      rw [row_single (hf w') (hr w') hX s hi, single]
    simp only [gradParams, headD_length hX, List.getElem?_map, List.getElem?_range hk, Option.map_some, Option.bind_some]
    rw [filterMap_total (hsome k hk), if_pos hi, hval]

/-- A model: twice the first leaf plus three times the second one. -/
def linModel (X : Leaves Int) (s : Unit) : Leaves Int × Unit := ([List.zipWith (fun a b => 2 * a + 3 * b) (X.getD 0 []) (X.getD 1 [])], s)

/-- A derivative: forward differences in every leaf. -/
def diffJac (g : List Int → List (Option Int)) (x : List Int) : List Int :=
  (List.range x.length).map fun j => (((g (x.set j (x.getD j 0 + 1))).getD 0 none).getD 0) - (((g x).getD 0 none).getD 0)

example : DependsOnValues diffJac ∧ (∀ g x, (diffJac g x).length = id x.length) ∧ (∀ n s, (fun (_ : Nat) (_ : Nat → Unit) => ()) n (fun _ => s) = s) := by
  refine ⟨fun g g' x h => ?_, by simp [diffJac], fun _ _ => rfl⟩
  simp only [diffJac, h x rfl]
  exact List.map_congr_left fun j _ => by rw [h _ (by simp)]

example : gradInputCall (fun _ : Int => [1]) (fun _ => false) linModel diffJac id (fun _ _ => ()) (some 2) true [[1, 2, 3], [10, 20, 30]] () =
    .ok ([[2, 2, 2], [3, 3, 3]], ()) := by rfl

/-- Doubling every entry is a per-sample model with one row per sample. -/
example : PerSample (fun (X : Leaves Int) (s : Unit) => (X.map (·.map (2 * ·)), s)) ∧ RowPerSample (fun (X : Leaves Int) (s : Unit) => (X.map (·.map (2 * ·)), s)) := by
  refine ⟨⟨fun X s => rfl, ?_⟩, ?_⟩
  · intro X Y Z s n m _ _ _ _ h
    have l1 := h.1 Y (by simp)
    have l2 := h.1 Z (by simp)
    refine ⟨by simp [l1, l2], fun k x hx => ?_⟩
    simp only [List.getElem?_map, Option.map_eq_some_iff] at hx
    obtain ⟨x', hx', rfl⟩ := hx
    have hk := (List.getElem?_eq_some_iff.1 hx').1
    have h1 : Y[k]? = some Y[k] := List.getElem?_eq_getElem (by omega)
    have h2 : Z[k]? = some Z[k] := List.getElem?_eq_getElem (by omega)
    rw [h.2 k x' hx']
    simp [h1, h2]
  · intro n X s hX y hy
    obtain ⟨x, hx, rfl⟩ := List.mem_map.1 hy
    simpa using hX.2 x hx

/-- **C71, refuted**: the state that comes back from `grad_input` is the stack of the states of all samples. For every model
with a state array of shape `sh` the returned (and, with `update_state`, stored) state has shape `n :: sh`. -/
theorem C71_state_refuted (dims : α → List Nat) (isScalar : α → Bool) (f : Leaves α → List Nat → Leaves γ × List Nat)
    (hf : ∀ X sh, (f X sh).2 = sh) (jac : (List α → List (Option γ)) → List α → List δ) (cols : Nat → Nat) (avoid : Bool) (n : Nat) (X : Leaves α)
    (hX : Uniform n X) (ht : singleType dims (sampleOf X 0) = .ok ()) (sh : List Nat) (r : Leaves δ × List Nat)
    (h : gradInputCall dims isScalar f jac cols (fun n g => n :: g 0) none avoid X sh = .ok r) : r.2 = n :: sh ∧ r.2 ≠ sh := by
  rw [gradInputCall, ht] at h
  simp only [] at h
  rw [C16_no_limit isScalar _ avoid X hX.1] at h
  cases h
  simp only [gradInput, hf, headD_length hX]
  exact ⟨trivial, fun e => by have := congrArg List.length e; simp at this⟩

example : gradInputCall (fun _ : Int => [1]) (fun _ => false) (fun X (sh : List Nat) => ((linModel X ()).1, sh)) diffJac id (fun n g => n :: g 0) none
    false [[1, 2, 3], [10, 20, 30]] [4] = .ok ([[2, 2, 2], [3, 3, 3]], [3, 4]) := by rfl

/-- **C71, refuted**: `grad_input` raises a type error for every model if two leaves have different sizes along their first
feature axis (or if a sample is a scalar), although predictions work. -/
theorem C71_leading_axis_refuted (dims : α → List Nat) (isScalar : α → Bool) (f : Leaves α → S → Leaves γ × S)
    (jac : (List α → List (Option γ)) → List α → List δ) (cols : Nat → Nat) (stack : Nat → (Nat → S) → S) (maxSize : Option Nat) (avoid : Bool)
    (X : Leaves α) (s : S) (a b : α) (ha : a ∈ sampleOf X 0) (hb : b ∈ sampleOf X 0) (hab : (dims a).head? ≠ (dims b).head? ∨ dims a = []) :
    gradInputCall dims isScalar f jac cols stack maxSize avoid X s = .error .typeError := by
  have : singleType dims (sampleOf X 0) = .error .typeError := by
    cases hx : sampleOf X 0 with
    | nil => rw [hx] at ha; cases ha
    | cons c l =>
      rw [hx] at ha hb
      rw [singleType, if_neg]
      simp only [Bool.and_eq_true, List.all_eq_true, decide_eq_true_eq, not_and]
      intro hc hall
      rcases hab with hab | hab
      · exact hab ((hall a ha).trans (hall b hb).symm)
      · have := hall a ha
        rw [hab] at this
        rw [← this] at hc
        cases hc
  rw [gradInputCall, this]

/-- Two leaves with three and four features: one sample each. -/
example : let X : Leaves (List Int) := [[[1, 2, 3]], [[1, 2, 3, 4]]]
    [1, 2, 3] ∈ sampleOf X 0 ∧ [1, 2, 3, 4] ∈ sampleOf X 0 ∧ ([3] : List Nat).head? ≠ ([4] : List Nat).head? := by decide

end Verif.Props
