import Verif.Spec.Loss
import Mathlib.Tactic.Linarith
import Mathlib.Tactic.Positivity
import Mathlib.Tactic.NormNum
import Mathlib.Algebra.Order.BigOperators.Group.List

namespace Verif.Loss
open Batch

variable {𝕜 : Type} [RCLike 𝕜]

theorem map2_aligned {T A B C : Type} (f : A → B → C) (X : Leaves T) (a : T → A) (b : T → B) :
    map2 f (map1 a X) (map1 b X) = .ok (map1 (fun t => f (a t) (b t)) X) := by
  unfold map2 map1
  rw [if_neg (by simp), if_pos]
  · congr 1
    rw [List.zipWith_map, List.zipWith_self]
    refine List.map_congr_left fun x _ => ?_
    rw [List.zipWith_map, List.zipWith_self]
  · rw [List.zipWith_map, List.zipWith_self]
    simp

theorem map1_map1 {A B C : Type} (f : B → C) (g : A → B) (X : Leaves A) : map1 f (map1 g X) = map1 (fun a => f (g a)) X := by
  simp [map1, Function.comp_def]

theorem fold_none {x : List (Option ℝ)} (h : none ∈ x) : x.foldr (lift2 (· + ·)) (some 0) = none := by
  induction x with
  | nil => simp at h
  | cons a x ih =>
    rw [List.foldr_cons]
    rcases List.mem_cons.1 h with h | h
    · subst h; rfl
    · rw [ih h]; cases a <;> rfl

theorem fold_some (x : List ℝ) : (x.map some).foldr (lift2 (· + ·)) (some 0) = some x.sum := by
  induction x with
  | nil => rfl
  | cons a x ih => simp [ih, lift2]

/-- All entries are numbers: the mean is the quotient of the sum and the number of entries. -/
theorem mean_some {T : Type} (X : Leaves T) (f : T → ℝ) (hn : X.flatten ≠ []) :
    mean (map1 (fun t => some (f t)) X) = some ((X.flatten.map f).sum / X.flatten.length) := by
  have h1 : (map1 (fun t => some (f t)) X).map fsum = (X.map fun x => (x.map f).sum).map some := by
    unfold map1 fsum
    rw [List.map_map, List.map_map]
    refine List.map_congr_left fun x _ => ?_
    simp only [Function.comp]
    rw [← fold_some, List.map_map]
    rfl
  have h2 : (X.map fun x => (x.map f).sum).sum = (X.flatten.map f).sum := by
    clear hn h1
    induction X with
    | nil => rfl
    | cons x X ih =>
      simp only [List.map_cons, List.sum_cons, List.flatten_cons, List.map_append, List.sum_append, ih]
  have h3 : ((map1 (fun t => some (f t)) X).map List.length).sum = X.flatten.length := by
    simp [map1, List.length_flatten, Function.comp_def]
  unfold mean
  simp only [h1, fold_some, h2, h3]
  have hne : (X.flatten.length : ℝ) ≠ 0 := by
    have := List.length_pos_of_ne_nil hn
    positivity
  simp only [fdiv, Option.bind_some, if_neg hne]

theorem mean_none {T : Type} (X : Leaves T) (f : T → Option ℝ) (h : ∃ t ∈ X.flatten, f t = none) :
    mean (map1 f X) = none := by
  obtain ⟨t, ht, hf⟩ := h
  obtain ⟨x, hx, htx⟩ := List.mem_flatten.1 ht
  have h1 : none ∈ (map1 f X).map fsum := by
    refine List.mem_map.2 ⟨x.map f, List.mem_map.2 ⟨x, hx, rfl⟩, ?_⟩
    exact fold_none (List.mem_map.2 ⟨t, htx, hf⟩)
  unfold mean
  simp [fold_none h1, fdiv]

theorem mean_empty {T : Type} (X : Leaves T) (f : T → Option ℝ) (h : X.flatten = []) : mean (map1 f X) = none := by
  have h3 : ((map1 f X).map List.length).sum = 0 := by
    have : ((map1 f X).map List.length).sum = X.flatten.length := by
      simp [map1, List.length_flatten, Function.comp_def]
    rw [this, h]; rfl
  unfold mean
  simp only [h3]
  cases List.foldr (lift2 fun x1 x2 => x1 + x2) (some (0:ℝ)) (List.map fsum (map1 f X)) <;> simp [fdiv]

/-- The value of the mean decides whether everything is defined. -/
theorem mean_iff {T : Type} (X : Leaves T) (f : T → Option ℝ) (r : ℝ) :
    mean (map1 f X) = some r ↔ X.flatten ≠ [] ∧ ∃ g : T → ℝ, (∀ t ∈ X.flatten, f t = some (g t)) ∧
      r = (X.flatten.map g).sum / X.flatten.length := by
  have hcongr : ∀ g : T → ℝ, (∀ t ∈ X.flatten, f t = some (g t)) → map1 f X = map1 (fun t => some (g t)) X := by
    intro g hg
    unfold map1
    refine List.map_congr_left fun x hx => List.map_congr_left fun t ht => hg t (List.mem_flatten.2 ⟨x, hx, ht⟩)
  constructor
  · intro h
    by_cases he : X.flatten = []
    · rw [mean_empty X f he] at h; simp at h
    · refine ⟨he, fun t => (f t).getD 0, ?_⟩
      by_cases hn : ∃ t ∈ X.flatten, f t = none
      · rw [mean_none X f hn] at h; simp at h
      · have hall : ∀ t ∈ X.flatten, f t = some ((f t).getD 0) := by
          intro t ht
          cases hft : f t with
          | none => exact absurd ⟨t, ht, hft⟩ hn
          | some v => rfl
        refine ⟨hall, ?_⟩
        rw [hcongr _ hall, mean_some X _ he] at h
        exact (Option.some.inj h).symm
  · rintro ⟨he, g, hg, rfl⟩
    rw [hcongr g hg, mean_some X g he]

theorem loss_eq (k : Kind) (T : Leaves (Entry 𝕜)) (hk : ∀ δ, k = .huber δ → T.length = 1) :
    loss k (map1 (fun t => some t.1) T) (map1 (fun t => some t.2.1) T) (map1 (fun t => some t.2.2) T) =
      .ok (mean (map1 (entryErr k) T)) := by
  unfold loss fsub fadd fmul fdivT fabs fabsSqr scalarAdd scalarMul
  simp only [map2_aligned, map1_map1, bind, Except.bind, pure, Except.pure, lift2, Option.bind_some, Option.map_some,
    throw, throwThe, MonadExceptOf.throw]
  cases k with
  | huber δ =>
    have : T.length = 1 := hk δ rfl
    simp only [map2_aligned, map1_map1, bind, Except.bind, pure, Except.pure, lift2, Option.bind_some, Option.map_some]
    rw [if_neg (by simp [map1, this])]
    simp only [Option.map_map, Function.comp_def]
    rfl
  | _ => rfl

theorem fdiv_some {x y : 𝕜} {z : 𝕜} (h : fdiv (some x) (some y) = some z) : y ≠ 0 ∧ z = x / y := by
  unfold fdiv at h
  simp only [Option.bind_some] at h
  split at h
  · simp at h
  · rename_i hy
    exact ⟨hy, (Option.some.inj h).symm⟩

theorem fdiv_ne {x y : 𝕜} (h : y ≠ 0) : fdiv (some x) (some y) = some (x / y) := by
  simp [fdiv, h]

theorem entryErr_def (k : Kind) (t : Entry 𝕜) (h : divisor k t ≠ 0) :
    ∃ v, entryErr k t = some v ∧ 0 ≤ v ∧ (v = 0 ↔ t.1 = t.2.1) := by
  have hz : ∀ d : 𝕜, d ≠ 0 → (‖(t.1 - t.2.1) / d‖ = 0 ↔ t.1 = t.2.1) := by
    intro d hd
    rw [norm_eq_zero, div_eq_zero_iff]
    simp [hd, sub_eq_zero]
  cases k with
  | mse => exact ⟨_, rfl, by positivity, by rw [pow_eq_zero_iff (by norm_num), norm_eq_zero, sub_eq_zero]⟩
  | mae => exact ⟨_, rfl, by positivity, by rw [norm_eq_zero, sub_eq_zero]⟩
  | huber δ =>
    have hd : ((δ : ℝ) : 𝕜) ≠ 0 := h
    have hδ : δ ≠ 0 := by rintro rfl; simp at hd
    refine ⟨_, by simp only [entryErr, fdiv_ne hd]; rfl, ?_, ?_⟩
    · have : 1 ≤ Real.sqrt (1 + ‖(t.1 - t.2.1) / ((δ : ℝ) : 𝕜)‖ ^ 2) := by
        rw [Real.one_le_sqrt]; nlinarith [sq_nonneg ‖(t.1 - t.2.1) / ((δ : ℝ) : 𝕜)‖]
      have h2 : 0 ≤ δ ^ 2 := sq_nonneg _
      exact mul_nonneg h2 (by linarith)
    · rw [mul_eq_zero]
      constructor
      · rintro (h1 | h1)
        · exact absurd (pow_eq_zero_iff (by norm_num) |>.1 h1) hδ
        · have h2 : Real.sqrt (1 + ‖(t.1 - t.2.1) / ((δ : ℝ) : 𝕜)‖ ^ 2) = 1 := by linarith
          rw [Real.sqrt_eq_one] at h2
          have h3 : ‖(t.1 - t.2.1) / ((δ : ℝ) : 𝕜)‖ ^ 2 = 0 := by linarith
          exact (hz _ hd).1 (pow_eq_zero_iff (by norm_num) |>.1 h3)
      · intro h1
        right
        rw [(hz _ hd).2 h1]
        simp
  | mseUnc =>
    refine ⟨_, by simp only [entryErr, fdiv_ne (show t.2.2 ≠ 0 from h)]; rfl, by positivity, ?_⟩
    rw [pow_eq_zero_iff (by norm_num)]
    exact hz _ h
  | maeUnc => exact ⟨_, by simp only [entryErr, fdiv_ne (show t.2.2 ≠ 0 from h)]; rfl, by positivity, hz _ h⟩
  | mre => exact ⟨_, by simp only [entryErr, fdiv_ne (show t.2.1 + tiny ≠ 0 from h)]; rfl, by positivity, hz _ h⟩
  | mreUnc =>
    exact ⟨_, by simp only [entryErr, fdiv_ne (show (t.2.1 + tiny) * t.2.2 ≠ 0 from h)]; rfl, by positivity, hz _ h⟩
  | mrd =>
    exact ⟨_, by simp only [entryErr, fdiv_ne (show (t.2.1 + t.1) * 2 + tiny ≠ 0 from h)]; rfl, by positivity, hz _ h⟩
  | mrdUnc =>
    exact ⟨_, by simp only [entryErr, fdiv_ne (show ((t.2.1 + t.1) * 2 + tiny) * t.2.2 ≠ 0 from h)]; rfl, by positivity, hz _ h⟩

theorem entryErr_none (k : Kind) (t : Entry 𝕜) (h : divisor k t = 0) : entryErr k t = none := by
  have hn : ∀ (x : 𝕜), fdiv (some x) (some (0 : 𝕜)) = none := fun x => by simp [fdiv]
  cases k with
  | mse => simp [divisor] at h
  | mae => simp [divisor] at h
  | _ => simp only [divisor] at h; simp [entryErr, h, hn]

theorem mean_zero {l : List ℝ} (hn : l ≠ []) (h : ∀ x ∈ l, 0 ≤ x) : l.sum / l.length = 0 ↔ ∀ x ∈ l, x = 0 := by
  have hl : (l.length : ℝ) ≠ 0 := by
    have := List.length_pos_of_ne_nil hn
    positivity
  rw [div_eq_zero_iff]
  simp only [hl, or_false]
  constructor
  · intro hs
    clear hn hl
    induction l with
    | nil => simp
    | cons a l ih =>
      have ha := h a (by simp)
      have hl := List.sum_nonneg (fun x hx => h x (List.mem_cons_of_mem _ hx))
      rw [List.sum_cons] at hs
      have ha0 : a = 0 := by linarith
      have hl0 : l.sum = 0 := by linarith
      intro x hx
      rcases List.mem_cons.1 hx with rfl | hx
      · exact ha0
      · exact ih (fun x hx => h x (List.mem_cons_of_mem _ hx)) hl0 x hx
  · intro hz
    exact List.sum_eq_zero hz

end Verif.Loss
