import Verif.Props.Robust
import Verif.Spec.Units
import Verif.Lemmas.Quantile
import Mathlib.Data.List.Perm.Basic
import Mathlib.Data.Fintype.Card

/-! # Statistics of the same samples in other units and in another order -/

namespace Verif.Units
open Verif.Tree Verif.Scalers Verif.NdSpec Verif.ForwardSpec Verif.Loss Verif.NArr Verif.ScalerSpec Verif.UnitsSpec Verif.Props
open Verif.Quantile

theorem range_perm {n : Nat} {σ : Nat → Nat} (h : Rearranges n σ) : ((List.range n).map σ).Perm (List.range n) := by
  have hnd : ((List.range n).map σ).Nodup := by
    rw [List.nodup_map_iff_inj_on List.nodup_range]
    intro x hx y hy e
    exact h.once x (List.mem_range.1 hx) y (List.mem_range.1 hy) e
  refine (hnd.subperm ?_).perm_of_length_le (by simp)
  intro v hv
  obtain ⟨r, hr, rfl⟩ := List.mem_map.1 hv
  exact List.mem_range.2 (h.below r (List.mem_range.1 hr))

theorem headD_of_inB {s : List Nat} {r : Nat} {j : List Nat} (h : InB s (r :: j)) : r < s.headD 0 := by
  cases s with
  | nil => have := h.1; simp at this
  | cons n s => exact (inB_cons.1 h).1

theorem inB_of_row {s : List Nat} {r : Nat} {j : List Nat} (h : InB s.tail j) (hr : r < s.headD 0) : InB s (r :: j) := by
  cases s with
  | nil => simp at hr
  | cons n s => exact inB_cons.2 ⟨hr, h⟩

theorem column_restates {a b : List Nat → ℝ} {σ : Nat → Nat} {x y : RArr} (h : Restates a b σ x y) (hσ : Rearranges (x.shape.headD 0) σ)
    {j : List Nat} (hj : InB x.shape.tail j) :
    (column y j).Perm ((column x j).map (Option.map fun v => a j * v + b j)) := by
  have e : column y j = ((List.range (x.shape.headD 0)).map σ).map fun r => (x.val (r :: j)).map fun v => a j * v + b j := by
    unfold column
    rw [h.shape, List.map_map]
    refine List.map_congr_left fun r hr => ?_
    exact h.vals r j (inB_of_row hj (List.mem_range.1 hr))
  rw [e]
  have e' : (column x j).map (Option.map fun v => a j * v + b j) =
      (List.range (x.shape.headD 0)).map fun r => (x.val (r :: j)).map fun v => a j * v + b j := by
    unfold column
    rw [List.map_map]
    rfl
  rw [e']
  exact (range_perm hσ).map _

theorem allSome_eq_some {A : Type} {l : List (Option A)} {m : List A} : allSome l = some m ↔ l = m.map some := by
  induction l generalizing m with
  | nil => cases m <;> simp [allSome]
  | cons o l ih =>
    cases o with
    | none => cases m <;> simp [allSome]
    | some a =>
      cases m with
      | nil => simp [allSome]
      | cons b m =>
        simp only [allSome, Option.map_eq_some_iff, List.map_cons, List.cons.injEq, Option.some.injEq]
        constructor
        · rintro ⟨m', h1, rfl, rfl⟩; exact ⟨rfl, ih.1 h1⟩
        · rintro ⟨rfl, h⟩; exact ⟨m, ih.2 h, rfl, rfl⟩

theorem allSome_none_iff {A : Type} {l : List (Option A)} : allSome l = Option.none ↔ Option.none ∈ l := by
  induction l with
  | nil => simp [allSome]
  | cons o l ih => cases o <;> simp [allSome, ih]

/-- A statistic that does not depend on the order and follows a change of units does so on columns with missing numbers too. -/
theorem stat_follows {f : List ℝ → Option ℝ} {φ g : ℝ → ℝ} (hf : ∀ l m : List ℝ, m.Perm (l.map φ) → f m = (f l).map g)
    {k l : List (Option ℝ)} (h : k.Perm (l.map (Option.map φ))) : (allSome k).bind f = ((allSome l).bind f).map g := by
  cases hl : allSome l with
  | none =>
    have : Option.none ∈ k := h.mem_iff.2 (List.mem_map.2 ⟨_, allSome_none_iff.1 hl, rfl⟩)
    rw [allSome_none_iff.2 this]
    rfl
  | some m =>
    rw [allSome_eq_some] at hl
    subst hl
    cases hk : allSome k with
    | none =>
      have := h.mem_iff.1 (allSome_none_iff.1 hk)
      simp at this
    | some m' =>
      rw [allSome_eq_some] at hk
      subst hk
      simp only [Option.bind_some]
      refine hf m m' ?_
      rw [List.map_map, show Option.map φ ∘ some = some ∘ φ from rfl, ← List.map_map] at h
      exact (List.map_perm_map_iff (Option.some_injective ℝ)).1 h

theorem rd_follows {f : List ℝ → Option ℝ} {g : ℝ → ℝ} {a b : List Nat → ℝ} {σ : Nat → Nat} {x y : RArr} (h : Restates a b σ x y)
    (hσ : Rearranges (x.shape.headD 0) σ) {r t : Nat} {j : List Nat} (hj : InB x.shape.tail j)
    (hf : ∀ l m : List ℝ, m.Perm (l.map fun v => a j * v + b j) → f m = (f l).map g) :
    rd (stat0 f y) (r :: j) = (rd (stat0 f x) (t :: j)).map g := by
  rw [rd_stat (by rw [h.shape]; exact hj), rd_stat hj]
  exact stat_follows hf (column_restates h hσ hj)

theorem meanL_follows (a b : ℝ) (l m : List ℝ) (h : m.Perm (l.map fun v => a * v + b)) :
    meanL m = (meanL l).map fun v => a * v + b := by
  unfold meanL
  cases l with
  | nil => simp at h; simp [h]
  | cons c l =>
    have hm : m ≠ [] := by rintro rfl; simpa using h.length_eq
    rw [if_neg hm, if_neg (by simp), h.sum_eq, h.length_eq]
    simp only [Option.map_some, List.length_map, Option.some.injEq]
    generalize hl : c :: l = k
    have hk : (k.length : ℝ) ≠ 0 := by rw [← hl]; simp; positivity
    have : (k.map fun v => a * v + b).sum = a * k.sum + k.length * b := by
      clear hl hk h
      induction k with
      | nil => simp
      | cons d k ih => simp only [List.map_cons, List.sum_cons, ih, List.length_cons]; push_cast; ring
    rw [this]
    field_simp

theorem stdL_follows (a b : ℝ) (ha : 0 < a) (l m : List ℝ) (h : m.Perm (l.map fun v => a * v + b)) :
    stdL m = (stdL l).map fun v => a * v := by
  unfold stdL
  rw [meanL_follows a b l m h]
  cases meanL l with
  | none => rfl
  | some μ =>
    simp only [Option.map_some, Option.bind_some]
    have hp : (m.map fun x => (x - (a * μ + b)) ^ 2).Perm ((l.map fun x => (x - μ) ^ 2).map fun v => a ^ 2 * v + 0) := by
      refine (h.map _).trans ?_
      rw [List.map_map, List.map_map]
      refine List.Perm.of_eq (List.map_congr_left fun v _ => ?_)
      simp only [Function.comp_apply]
      ring
    rw [meanL_follows _ _ _ _ hp]
    cases meanL (l.map fun x => (x - μ) ^ 2) with
    | none => rfl
    | some v =>
      simp only [Option.map_some, add_zero, Option.some.injEq]
      rw [Real.sqrt_mul (by positivity), Real.sqrt_sq ha.le]

theorem minL_eq {l : List ℝ} {m : ℝ} : minL l = some m ↔ m ∈ l ∧ ∀ v ∈ l, m ≤ v := by
  cases l with
  | nil => simp [minL]
  | cons c l =>
    obtain ⟨h1, h2, h3⟩ := foldl_min_spec l c
    have hmem : l.foldl min c ∈ c :: l := by
      rcases h3 with e | e
      · rw [e]; exact List.mem_cons_self
      · exact List.mem_cons_of_mem _ e
    have hle : ∀ v ∈ c :: l, l.foldl min c ≤ v := fun v hv => by
      rcases List.mem_cons.1 hv with rfl | hv
      · exact h1
      · exact h2 v hv
    simp only [minL, Option.some.injEq]
    constructor
    · rintro rfl; exact ⟨hmem, hle⟩
    · rintro ⟨h, h'⟩; exact le_antisymm (hle m h) (h' _ hmem)

theorem maxL_eq {l : List ℝ} {m : ℝ} : maxL l = some m ↔ m ∈ l ∧ ∀ v ∈ l, v ≤ m := by
  cases l with
  | nil => simp [maxL]
  | cons c l =>
    obtain ⟨h1, h2, h3⟩ := foldl_max_spec l c
    have hmem : l.foldl max c ∈ c :: l := by
      rcases h3 with e | e
      · rw [e]; exact List.mem_cons_self
      · exact List.mem_cons_of_mem _ e
    have hle : ∀ v ∈ c :: l, v ≤ l.foldl max c := fun v hv => by
      rcases List.mem_cons.1 hv with rfl | hv
      · exact h1
      · exact h2 v hv
    simp only [maxL, Option.some.injEq]
    constructor
    · rintro rfl; exact ⟨hmem, hle⟩
    · rintro ⟨h, h'⟩; exact le_antisymm (h' _ hmem) (hle m h)

theorem minL_follows (a b : ℝ) (ha : 0 < a) (l m : List ℝ) (h : m.Perm (l.map fun v => a * v + b)) :
    minL m = (minL l).map fun v => a * v + b := by
  cases hl : minL l with
  | none =>
    cases l with
    | nil => simp at h; simp [h, minL]
    | cons c l => simp [minL] at hl
  | some v =>
    obtain ⟨h1, h2⟩ := minL_eq.1 hl
    refine minL_eq.2 ⟨h.mem_iff.2 (List.mem_map.2 ⟨v, h1, rfl⟩), fun w hw => ?_⟩
    obtain ⟨u, hu, rfl⟩ := List.mem_map.1 (h.mem_iff.1 hw)
    have := mul_le_mul_of_nonneg_left (h2 u hu) ha.le
    show a * v + b ≤ a * u + b
    linarith

theorem maxL_follows (a b : ℝ) (ha : 0 < a) (l m : List ℝ) (h : m.Perm (l.map fun v => a * v + b)) :
    maxL m = (maxL l).map fun v => a * v + b := by
  cases hl : maxL l with
  | none =>
    cases l with
    | nil => simp at h; simp [h, maxL]
    | cons c l => simp [maxL] at hl
  | some v =>
    obtain ⟨h1, h2⟩ := maxL_eq.1 hl
    refine maxL_eq.2 ⟨h.mem_iff.2 (List.mem_map.2 ⟨v, h1, rfl⟩), fun w hw => ?_⟩
    obtain ⟨u, hu, rfl⟩ := List.mem_map.1 (h.mem_iff.1 hw)
    have := mul_le_mul_of_nonneg_left (h2 u hu) ha.le
    show a * u + b ≤ a * v + b
    linarith

theorem sort_follows (a b : ℝ) (ha : 0 < a) (l m : List ℝ) (h : m.Perm (l.map fun v => a * v + b)) :
    m.insertionSort (· ≤ ·) = (l.insertionSort (· ≤ ·)).map fun v => a * v + b := by
  refine List.Perm.eq_of_pairwise (le := fun x y : ℝ => x ≤ y) (fun x y _ _ h1 h2 => le_antisymm h1 h2)
    (List.pairwise_insertionSort _ _) ?_ ?_
  · refine (List.pairwise_insertionSort (fun x y : ℝ => x ≤ y) l).map _ fun x y hxy => ?_
    have := mul_le_mul_of_nonneg_left hxy ha.le
    linarith
  · exact (List.perm_insertionSort _ m).trans (h.trans ((List.perm_insertionSort _ l).map _).symm)

theorem quant_follows (a b : ℝ) (ha : 0 < a) (q : ℝ) (l m : List ℝ) (h : m.Perm (l.map fun v => a * v + b)) :
    quant m q = (quant l q).map fun v => a * v + b := by
  unfold quant
  rw [sort_follows a b ha l m h]
  simp only [List.length_map]
  by_cases h0 : (l.insertionSort fun x1 x2 => x1 ≤ x2).length = 0
  · simp only [if_pos h0]; rfl
  · simp only [if_neg h0, Option.map_some, Option.some.injEq]
    set s := l.insertionSort fun x1 x2 => x1 ≤ x2
    have hc : ∀ i : ℤ, clamp s.length i < s.length := fun i => by unfold clamp; omega
    have hg : ∀ i : ℤ, (s.map fun v => a * v + b).getD (clamp s.length i) 0 = a * s.getD (clamp s.length i) 0 + b := by
      intro i
      simp [List.getD, hc i]
    rw [hg, hg]
    ring

/-! ## Going through the transformations -/

theorem std_quotient {a b : ℝ} (ha : 0 < a) (x m s : Option ℝ) :
    fdiv (lift2 (· - ·) (x.map fun v => a * v + b) (m.map fun v => a * v + b)) (s.map fun v => a * v) = fdiv (lift2 (· - ·) x m) s := by
  cases x <;> cases m <;> cases s <;> simp only [Option.map_none, Option.map_some, lift2, Option.bind_none, Option.bind_some, fdiv]
  rename_i x m s
  by_cases hs : s = 0
  · simp [hs]
  · rw [if_neg (mul_ne_zero ha.ne' hs), if_neg hs]
    congr 1
    field_simp
    ring

theorem std_product {a b : ℝ} (x m s : Option ℝ) :
    lift2 (· + ·) (lift2 (· * ·) x (s.map fun v => a * v)) (m.map fun v => a * v + b) =
      (lift2 (· + ·) (lift2 (· * ·) x s) m).map fun v => a * v + b := by
  cases x <;> cases m <;> cases s <;> simp only [Option.map_none, Option.map_some, lift2, Option.bind_none, Option.bind_some]
  congr 1
  ring

theorem mm_quotient {a b : ℝ} (ha : 0 < a) (x m s : Option ℝ) :
    fdiv (lift2 (· - ·) (x.map fun v => a * v + b) (m.map fun v => a * v + b))
      (lift2 (· - ·) (s.map fun v => a * v + b) (m.map fun v => a * v + b)) = fdiv (lift2 (· - ·) x m) (lift2 (· - ·) s m) := by
  cases x <;> cases m <;> cases s <;> simp only [Option.map_none, Option.map_some, lift2, Option.bind_none, Option.bind_some, fdiv]
  rename_i x m s
  have e : a * s + b - (a * m + b) = a * (s - m) := by ring
  rw [e]
  by_cases hs : s - m = 0
  · simp [hs]
  · rw [if_neg (mul_ne_zero ha.ne' hs), if_neg hs]
    congr 1
    field_simp
    ring

theorem mm_product {a b : ℝ} (q m s : Option ℝ) :
    lift2 (· + ·) (lift2 (· * ·) q (lift2 (· - ·) (s.map fun v => a * v + b) (m.map fun v => a * v + b))) (m.map fun v => a * v + b) =
      (lift2 (· + ·) (lift2 (· * ·) q (lift2 (· - ·) s m)) m).map fun v => a * v + b := by
  cases q <;> cases m <;> cases s <;> simp only [Option.map_none, Option.map_some, lift2, Option.bind_none, Option.bind_some]
  congr 1
  ring

theorem stdBwd_ok {x : RArr} {vs : List (Tree RArr)} {w : Tree RArr} (h : stdBwd x vs = .ok w) :
    ∃ m s z, vs = [.leaf m, .leaf s] ∧ w = .leaf z ∧ z.shape = x.shape ∧
      ∀ i, InB x.shape i → z.val i = lift2 (· + ·) (lift2 (· * ·) (x.val i) (rd s i)) (rd m i) := by
  unfold stdBwd at h
  split at h
  case h_2 => cases h
  rename_i m s
  obtain ⟨b, hb, h⟩ := bind_ok h
  obtain ⟨z, hz, h⟩ := bind_ok h
  obtain ⟨rfl, hs⟩ := checked_ok h
  obtain ⟨e1, v1⟩ := bop_ok hb
  obtain ⟨e2, v2⟩ := bop_ok hz
  obtain ⟨l1, l2⟩ := bshape_le e1
  obtain ⟨l3, l4⟩ := bshape_le e2
  rw [hs] at l3 l4
  have hbx : b.shape = x.shape := ble_antisymm l3 l1
  refine ⟨m, s, z, rfl, rfl, hs, fun i hi => ?_⟩
  rw [v2, v1, hbx, bidx_self hi, bidx_self hi]
  rfl

theorem mmFwd_ok {x dn dx mn mx : RArr} {w : Tree RArr} (h : mmFwd x [.leaf dn, .leaf dx, .leaf mn, .leaf mx] = .ok w) :
    ∃ z, w = .leaf z ∧ z.shape = x.shape ∧
      ∀ i, InB x.shape i → z.val i = lift2 (· + ·) (lift2 (· * ·) (fdiv (lift2 (· - ·) (x.val i) (rd dn i))
        (lift2 (· - ·) (rd dx i) (rd dn i))) (lift2 (· - ·) (rd mx i) (rd mn i))) (rd mn i) := by
  obtain ⟨z, rfl, hs, -, -, -, -, hv⟩ := affine_ok h
  exact ⟨z, rfl, hs, hv⟩

theorem mmBwd_ok {x dn dx mn mx : RArr} {w : Tree RArr} (h : mmBwd x [.leaf dn, .leaf dx, .leaf mn, .leaf mx] = .ok w) :
    ∃ z, w = .leaf z ∧ z.shape = x.shape ∧
      ∀ i, InB x.shape i → z.val i = lift2 (· + ·) (lift2 (· * ·) (fdiv (lift2 (· - ·) (x.val i) (rd mn i))
        (lift2 (· - ·) (rd mx i) (rd mn i))) (lift2 (· - ·) (rd dx i) (rd dn i))) (rd dn i) := by
  obtain ⟨z, rfl, hs, -, -, -, -, hv⟩ := affine_ok h
  exact ⟨z, rfl, hs, hv⟩

end Verif.Units
