import Verif.Model.AxisActivations
import Verif.Props.SamplewiseModules
import Verif.Props.Normalization

/-!
# C132: the activation functions that combine several entries
-/

namespace Verif.Props
open Tree ForwardSpec NArr NdSpec Elementwise Samplewise AxisActivations
open scoped BigOperators

theorem lane_eq {V : Type} {x : NArr V} {s : List Nat} {n : Nat} (h : x.shape = s ++ [n]) (i : List Nat) (j : Nat) :
    lane x (i ++ [j]) = (List.range n).map fun k => x.val (i ++ [k]) := by
  unfold lane; rw [h]; simp

theorem range_sum (f : Nat → ℝ) (n : Nat) : ((List.range n).map f).sum = ∑ k ∈ Finset.range n, f k := by
  induction n with
  | zero => rfl
  | succ n ih => rw [List.range_succ, List.map_append, List.sum_append, ih, Finset.sum_range_succ]; simp

theorem along_val {x : NArr ℝ} {s : List Nat} {n : Nat} (h : x.shape = s ++ [n]) (g : List ℝ → ℝ → ℝ) (i : List Nat) {j : Nat} (hj : j < n) :
    (alongLast (fun xs => xs.map (g xs)) x).val (i ++ [j]) = g ((List.range n).map fun k => x.val (i ++ [k])) (x.val (i ++ [j])) := by
  unfold alongLast
  simp only [lane_eq h]
  simp [hj]

theorem exp_shift (f : Nat → ℝ) (n : Nat) (m : ℝ) : ((List.range n).map fun k => Real.exp (f k - m)).sum = (∑ k ∈ Finset.range n, Real.exp (f k)) * Real.exp (-m) := by
  rw [range_sum, Finset.sum_mul]
  exact Finset.sum_congr rfl fun k _ => by rw [← Real.exp_add]; rfl

theorem exp_sum_pos (f : Nat → ℝ) {n : Nat} (hn : 0 < n) : 0 < ∑ k ∈ Finset.range n, Real.exp (f k) :=
  Finset.sum_pos (fun _ _ => Real.exp_pos _) ⟨0, by simpa using hn⟩

/-- **C132 (softmax).** Along the last axis the entries become `exp x / Σ exp x`: positive numbers with the sum one in the order of the entries. -/
theorem C132_softmax (data : Tree (NArr ℝ)) (p : List Step) (x : NArr ℝ) (hx : At data p x) (s : List Nat) (n : Nat) (hs : x.shape = s ++ [n]) :
    ∃ y, At (activation softmax data) p y ∧ y.shape = x.shape ∧ ∀ i,
      (∀ j < n, y.val (i ++ [j]) = Real.exp (x.val (i ++ [j])) / ∑ k ∈ Finset.range n, Real.exp (x.val (i ++ [k]))) ∧
      (∀ j < n, 0 < y.val (i ++ [j])) ∧ (0 < n → ∑ j ∈ Finset.range n, y.val (i ++ [j]) = 1) ∧
      ∀ j < n, ∀ k < n, (y.val (i ++ [j]) ≤ y.val (i ++ [k]) ↔ x.val (i ++ [j]) ≤ x.val (i ++ [k])) := by
  refine ⟨softmax x, at_map.2 ⟨x, at_norm.2 hx, rfl⟩, rfl, fun i => ?_⟩
  have hv : ∀ j < n, (softmax x).val (i ++ [j]) = Real.exp (x.val (i ++ [j])) / ∑ k ∈ Finset.range n, Real.exp (x.val (i ++ [k])) := by
    intro j hj
    have := along_val hs (fun xs v => Real.exp (v - top xs) / (xs.map fun w => Real.exp (w - top xs)).sum) i hj
    refine this.trans ?_
    rw [List.map_map]
    refine (congrArg _ (exp_shift (fun k => x.val (i ++ [k])) n _)).trans ?_
    rw [sub_eq_add_neg, Real.exp_add, mul_div_mul_right _ _ (Real.exp_pos _).ne']
  refine ⟨hv, fun j hj => ?_, fun hn => ?_, fun j hj k hk => ?_⟩
  · rw [hv j hj]
    exact div_pos (Real.exp_pos _) (exp_sum_pos _ (by omega))
  · rw [Finset.sum_congr rfl fun j hj => hv j (Finset.mem_range.1 hj), ← Finset.sum_div]
    exact div_self (exp_sum_pos _ hn).ne'
  · rw [hv j hj, hv k hk, div_le_div_iff_of_pos_right (exp_sum_pos _ (by omega)), Real.exp_le_exp]

/-- **C132 (log-softmax).** Along the last axis the logarithm of the sum of the exponentials is subtracted: what `Softmax` gives, in logarithms. -/
theorem C132_logSoftmax (data : Tree (NArr ℝ)) (p : List Step) (x : NArr ℝ) (hx : At data p x) (s : List Nat) (n : Nat) (hs : x.shape = s ++ [n]) :
    ∃ y z, At (activation logSoftmax data) p y ∧ At (activation softmax data) p z ∧ y.shape = x.shape ∧ ∀ i, ∀ j < n,
      y.val (i ++ [j]) = x.val (i ++ [j]) - Real.log (∑ k ∈ Finset.range n, Real.exp (x.val (i ++ [k]))) ∧ Real.exp (y.val (i ++ [j])) = z.val (i ++ [j]) := by
  obtain ⟨z, hz, -, hzv⟩ := C132_softmax data p x hx s n hs
  refine ⟨logSoftmax x, z, at_map.2 ⟨x, at_norm.2 hx, rfl⟩, hz, rfl, fun i j hj => ?_⟩
  have hp := exp_sum_pos (fun k => x.val (i ++ [k])) (n := n) (by omega)
  have hv : (logSoftmax x).val (i ++ [j]) = x.val (i ++ [j]) - Real.log (∑ k ∈ Finset.range n, Real.exp (x.val (i ++ [k]))) := by
    have := along_val hs (fun xs v => (v - top xs) - Real.log (xs.map fun w => Real.exp (w - top xs)).sum) i hj
    refine this.trans ?_
    rw [List.map_map]
    refine (congrArg (fun t => _ - Real.log t) (exp_shift (fun k => x.val (i ++ [k])) n _)).trans ?_
    rw [Real.log_mul hp.ne' (Real.exp_pos _).ne', Real.log_exp]
    ring
  refine ⟨hv, ?_⟩
  rw [hv, (hzv i).1 j hj, Real.exp_sub, Real.exp_log hp]

/-- The mean along the last axis. -/
noncomputable def laneMean (x : NArr ℝ) (n : Nat) (i : List Nat) : ℝ := (∑ k ∈ Finset.range n, x.val (i ++ [k])) / n
/-- The mean squared distance from the mean along the last axis. -/
noncomputable def laneVar (x : NArr ℝ) (n : Nat) (i : List Nat) : ℝ := (∑ k ∈ Finset.range n, (x.val (i ++ [k]) - laneMean x n i) ^ 2) / n

/-- **C132 (standardize).** Along the last axis the entries have the mean zero afterwards, and the variance `v / (v + 1e-5)` for a variance `v` before; all differences are divided by the same number. -/
theorem C132_standardize (data : Tree (NArr ℝ)) (p : List Step) (x : NArr ℝ) (hx : At data p x) (s : List Nat) (n : Nat) (hn : 0 < n) (hs : x.shape = s ++ [n]) :
    ∃ y, At (activation standardize data) p y ∧ y.shape = x.shape ∧ ∀ i,
      (∀ j < n, y.val (i ++ [j]) = (x.val (i ++ [j]) - laneMean x n i) / Real.sqrt (laneVar x n i + 1 / 100000)) ∧
      laneMean y n i = 0 ∧ laneVar y n i = laneVar x n i / (laneVar x n i + 1 / 100000) := by
  refine ⟨standardize x, at_map.2 ⟨x, at_norm.2 hx, rfl⟩, rfl, fun i => ?_⟩
  have hn' : (n : ℝ) ≠ 0 := by exact_mod_cast hn.ne'
  have hvar : (∑ k ∈ Finset.range n, x.val (i ++ [k]) ^ 2) / n - laneMean x n i ^ 2 = laneVar x n i := by
    unfold laneVar
    have : ∑ k ∈ Finset.range n, (x.val (i ++ [k]) - laneMean x n i) ^ 2 = ∑ k ∈ Finset.range n, x.val (i ++ [k]) ^ 2 - n * laneMean x n i ^ 2 := by
      have hm : ∑ k ∈ Finset.range n, x.val (i ++ [k]) = n * laneMean x n i := by unfold laneMean; field_simp
      simp only [sub_sq, Finset.sum_add_distrib, Finset.sum_sub_distrib, Finset.sum_const, Finset.card_range, nsmul_eq_mul, mul_assoc, ← Finset.mul_sum, ← Finset.sum_mul, hm]
      ring
    rw [this]; field_simp
  have hpos : 0 < laneVar x n i + 1 / 100000 := by
    have : 0 ≤ laneVar x n i := div_nonneg (Finset.sum_nonneg fun k _ => sq_nonneg _) (Nat.cast_nonneg n)
    linarith
  have hv : ∀ j < n, (standardize x).val (i ++ [j]) = (x.val (i ++ [j]) - laneMean x n i) / Real.sqrt (laneVar x n i + 1 / 100000) := by
    intro j hj
    have := along_val hs (fun xs v => (v - xs.sum / xs.length) * (Real.sqrt ((xs.map fun v => v ^ 2).sum / xs.length - (xs.sum / xs.length) ^ 2 + 1 / 100000))⁻¹) i hj
    refine this.trans ?_
    rw [List.map_map, List.length_map, List.length_range, range_sum, ← div_eq_mul_inv]
    refine Eq.trans ?_ (congrArg (fun t => (x.val (i ++ [j]) - laneMean x n i) / Real.sqrt (t + 1 / 100000)) hvar)
    rw [show (∑ k ∈ Finset.range n, x.val (i ++ [k])) / n = laneMean x n i from rfl]
    rw [← range_sum (fun k => x.val (i ++ [k]) ^ 2)]
    rfl
  have hmean : laneMean (standardize x) n i = 0 := by
    rw [laneMean, Finset.sum_congr rfl fun j hj => hv j (Finset.mem_range.1 hj), ← Finset.sum_div, Finset.sum_sub_distrib, Finset.sum_const, Finset.card_range, nsmul_eq_mul]
    have : ∑ k ∈ Finset.range n, x.val (i ++ [k]) - n * laneMean x n i = 0 := by unfold laneMean; field_simp; ring
    rw [this]; simp
  refine ⟨hv, hmean, ?_⟩
  conv_lhs => rw [laneVar, hmean]
  rw [Finset.sum_congr rfl fun j hj => by rw [sub_zero, hv j (Finset.mem_range.1 hj), div_pow, Real.sq_sqrt hpos.le], ← Finset.sum_div, div_right_comm]
  rfl

/-- The rows of the examples: two samples with the features 0, log 3. -/
noncomputable def twoRows : NArr ℝ := ⟨[2, 2], fun i => if i.getD 1 0 = 0 then 0 else Real.log 3⟩

example : ∃ y, At (activation softmax (.list [.leaf twoRows])) [.idx 0] y ∧ y.val [1, 0] = 1 / 4 ∧ y.val [1, 1] = 3 / 4 := by
  obtain ⟨y, h1, -, h⟩ := C132_softmax (.list [.leaf twoRows]) [.idx 0] twoRows (.list rfl (.leaf _)) [2] 2 rfl
  have a := (h [1]).1 0 (by decide)
  have b := (h [1]).1 1 (by decide)
  simp only [Finset.sum_range_succ, Finset.sum_range_zero] at a b
  refine ⟨y, h1, a.trans ?_, b.trans ?_⟩ <;> simp [twoRows, Real.exp_log] <;> norm_num

example : ∃ y, At (activation standardize (.leaf twoRows)) [] y ∧ laneMean y 2 [1] = 0 :=
  (C132_standardize (.leaf twoRows) [] twoRows (.leaf _) [2] 2 (by decide) rfl).elim fun y h => ⟨y, h.1, (h.2.2 [1]).2.1⟩

/-! ### Samples -/

theorem inB_last {t j : List Nat} {b c k : Nat} (h : InB (t ++ [b]) (j ++ [c])) (hk : k < b) : InB (t ++ [b]) (j ++ [k]) := by
  have hl : j.length = t.length := by simpa using h.1
  refine ⟨by simp [hl], fun q d e hd he => ?_⟩
  rcases Nat.lt_or_ge q t.length with hq | hq
  · rw [List.getElem?_append_left (by omega)] at he
    exact h.2 q d e hd (by rw [List.getElem?_append_left (by omega)]; exact he)
  · rw [List.getElem?_append_right hq] at hd
    rw [List.getElem?_append_right (by omega), hl] at he
    cases hz : q - t.length with
    | zero => rw [hz] at hd he; simp at hd he; omega
    | succ z => rw [hz] at hd; simp at hd

theorem lane_leafwise (F : List ℝ → List ℝ) : LeafwiseOn (fun x : NArr ℝ => 2 ≤ x.shape.length) fun x => .ok (alongLast F x) := by
  rintro f n m hs x y hx ⟨s, h1, h2, hv⟩
  have hne : s ≠ [] := by rintro rfl; rw [h1] at hx; simp at hx
  refine ⟨s, h1, h2, fun i hi j hj => ?_⟩
  have hjn : j ≠ [] := by rintro rfl; exact hne (List.length_eq_zero_iff.1 hj.1.symm)
  have hl : lane y (i :: j) = lane x (f i :: j) := by
    unfold lane
    rw [h1, h2, List.dropLast_cons_of_ne_nil hjn, List.dropLast_cons_of_ne_nil hjn]
    obtain ⟨t, b, rfl⟩ := List.eq_nil_or_concat s |>.resolve_left hne
    obtain ⟨u, c, rfl⟩ := List.eq_nil_or_concat j |>.resolve_left hjn
    have e : ∀ q : Nat, (q :: (t ++ [b])).getLastD 0 = b := fun q => (List.getLastD_concat (l := q :: t))
    simp only [List.concat_eq_append] at hv hj ⊢
    rw [e, e, List.dropLast_concat]
    exact List.map_congr_left fun k hk => hv i hi _ (inB_last hj (List.mem_range.1 hk))
  show (F (lane y (i :: j))).getD ((i :: j).getLastD 0) 0 = (F (lane x (f i :: j))).getD ((f i :: j).getLastD 0) 0
  rw [hl]
  obtain ⟨t, b, rfl⟩ := List.eq_nil_or_concat j |>.resolve_left hjn
  have e : ∀ q : Nat, (q :: t.concat b).getLastD 0 = b := fun q => by rw [List.concat_eq_append]; exact (List.getLastD_concat (l := q :: t))
  rw [e, e]

/-- Arrays with at least one axis besides the samples. -/
def HasFeatures (d : Tree (NArr ℝ)) : Prop := ∀ p x, At d p x → 2 ≤ x.shape.length

theorem lane_samplewise (F : List ℝ → List ℝ) : SamplewiseOn HasFeatures fun d => .ok (activation (alongLast F) d) := by
  intro f n m hs d d' hD h
  have h' := norm_related h
  obtain ⟨z, h1, h2⟩ := h'
  refine ⟨map (fun p => if hp : 2 ≤ p.1.1.shape.length then ⟨(alongLast F p.1.1, alongLast F p.1.2), lane_leafwise F f n m hs _ _ hp p.2⟩ else ⟨(⟨n :: [], fun _ => 0⟩, ⟨m :: [], fun _ => 0⟩), [], rfl, rfl, fun _ _ _ _ => rfl⟩) z, ?_, ?_⟩
  all_goals
    unfold activation
    have hz : ∀ q ∈ z.flat, 2 ≤ q.1.1.shape.length := by
      intro q hq
      obtain ⟨r, hr⟩ := mem_flat_at.1 hq
      exact hD r q.1.1 (at_norm.1 (by rw [h1]; exact at_map.2 ⟨q, hr, rfl⟩))
  · rw [h1, map_map, map_map]
    exact (Tree.map_congr_iff _ _ _).2 fun q hq => by simp [dif_pos (hz q hq)]
  · rw [h2, map_map, map_map]
    exact (Tree.map_congr_iff _ _ _).2 fun q hq => by simp [dif_pos (hz q hq)]

/-- **C132 (samples).** On arrays with at least one axis besides the samples `Softmax`, `LogSoftmax` and `Standardize` compute every sample on its own. -/
theorem C132_samplewise :
    SamplewiseOn HasFeatures (fun d => .ok (activation softmax d)) ∧ SamplewiseOn HasFeatures (fun d => .ok (activation logSoftmax d)) ∧
      SamplewiseOn HasFeatures fun d => .ok (activation standardize d) :=
  ⟨lane_samplewise _, lane_samplewise _, lane_samplewise _⟩

example : HasFeatures (.list [.leaf twoRows]) := by
  intro p x hx
  cases hx with
  | list h1 h2 =>
    rename_i i c q
    match i, h1 with
    | 0, h1 => cases h1; cases h2; decide

theorem glu_leafwise : LeafwiseOn (fun x : NArr ℝ => 2 ≤ x.shape.length) gluLeaf := by
  rintro f n m hs x y hx ⟨s, h1, h2, hv⟩
  have hne : s ≠ [] := by rintro rfl; rw [h1] at hx; simp at hx
  obtain ⟨t, b, rfl⟩ := List.eq_nil_or_concat s |>.resolve_left hne
  simp only [List.concat_eq_append] at h1 h2 hv
  have l1 : x.shape.getLastD 0 = b := by rw [h1]; exact List.getLastD_concat (l := n :: t)
  have l2 : y.shape.getLastD 0 = b := by rw [h2]; exact List.getLastD_concat (l := m :: t)
  unfold gluLeaf
  simp only [l1, l2]
  by_cases hb : b % 2 = 0
  · rw [if_pos hb, if_pos hb]
    refine ⟨t ++ [b / 2], ?_, ?_, fun i hi j hj => ?_⟩
    · show x.shape.dropLast ++ _ = _
      rw [h1, show n :: (t ++ [b]) = (n :: t) ++ [b] from rfl, List.dropLast_concat]; rfl
    · show y.shape.dropLast ++ _ = _
      rw [h2, show m :: (t ++ [b]) = (m :: t) ++ [b] from rfl, List.dropLast_concat]; rfl
    · obtain ⟨u, c, rfl⟩ := List.eq_nil_or_concat j |>.resolve_left (by rintro rfl; simpa using hj.1)
      rw [List.concat_eq_append] at hj ⊢
      have hl : u.length = t.length := by simpa using hj.1
      have hc : c < b / 2 := hj.2 t.length (b / 2) c (by simp) (by simp [← hl])
      have hin : ∀ k < b, InB (t ++ [b]) (u ++ [k]) := by
        intro k hk
        refine ⟨by simp [hl], fun q d e hd he => ?_⟩
        rcases Nat.lt_or_ge q t.length with hq | hq
        · rw [List.getElem?_append_left (by omega)] at hd he
          exact hj.2 q d e (by rw [List.getElem?_append_left (by omega)]; exact hd) (by rw [List.getElem?_append_left (by omega)]; exact he)
        · rw [List.getElem?_append_right hq] at hd
          rw [List.getElem?_append_right (by omega), hl] at he
          cases hz : q - t.length with
          | zero => rw [hz] at hd he; simp at hd he; omega
          | succ z => rw [hz] at hd; simp at hd
      have e : ∀ q : Nat, (q :: (u ++ [c])).getLastD 0 = c := fun q => (List.getLastD_concat (l := q :: u))
      have d : ∀ q : Nat, (q :: (u ++ [c])).dropLast = q :: u := fun q => List.dropLast_concat (l₁ := q :: u)
      simp only [e, d, List.cons_append]
      rw [hv i hi _ (hin c (by omega)), hv i hi _ (hin (c + b / 2) (by omega))]
  · rw [if_neg hb, if_neg hb]; rfl

/-- **C132 (samples), `GLU`.** -/
theorem C132_glu_samplewise : SamplewiseOn HasFeatures gluCall := by
  intro f n m hs d d' hD h
  unfold gluCall
  refine jaxMap_related_at h fun q a b vs ha hR _ _ => ?_
  rcases agree_cases (glu_leafwise f n m hs a b (hD q a ha) hR) with ⟨e, e1, e2⟩ | ⟨x, y, e1, e2, hq⟩
  · simp only [e1, e2]; rfl
  · simp only [e1, e2]; exact related_leaf hq

/-- **C132 (samples), `OneHot`**: for all samples, also numbers. -/
theorem C132_oneHot_samplewise (c : Nat) : Samplewise fun d => .ok (activation (oneHot c) d) := by
  intro f n m hs d d' _ h
  refine map_related (Q := Picked f n m) (fun x y hxy => ?_) (norm_related h)
  obtain ⟨s, h1, h2, hv⟩ := hxy
  refine ⟨s ++ [c], by simp [oneHot, h1], by simp [oneHot, h2], fun i hi j hj => ?_⟩
  obtain ⟨u, k, rfl⟩ := List.eq_nil_or_concat j |>.resolve_left (by rintro rfl; simpa using hj.1)
  rw [List.concat_eq_append] at hj ⊢
  have hl : u.length = s.length := by simpa using hj.1
  have hin : InB s u := ⟨hl, fun q d e hd he => hj.2 q d e (by rw [List.getElem?_append_left (List.getElem?_eq_some_iff.1 hd).1]; exact hd)
    (by rw [List.getElem?_append_left (List.getElem?_eq_some_iff.1 he).1]; exact he)⟩
  have e : ∀ q : Nat, (q :: (u ++ [k])).getLastD 0 = k := fun q => (List.getLastD_concat (l := q :: u))
  have d : ∀ q : Nat, (q :: (u ++ [k])).dropLast = q :: u := fun q => List.dropLast_concat (l₁ := q :: u)
  simp only [oneHot, e, d, hv i hi u hin]

/-- **C132 refuted for samples that are numbers.** The last axis is then the batch: two equal samples get the probability 1/2 each, one of them alone gets 1. -/
theorem C132_scalar_refuted : ¬ Samplewise fun d => .ok (activation softmax d) := by
  intro h
  have := h id 2 1 ⟨by decide, by decide, fun i hi => by simp; omega⟩ (.leaf ⟨[2], fun _ => 0⟩) (.leaf ⟨[1], fun _ => 0⟩) trivial
    (related_leaf ⟨[], rfl, rfl, fun _ _ _ _ => rfl⟩)
  obtain ⟨b, hb, s, h1, -, hv⟩ := related_leaf_inv this
  cases hb
  cases h1
  have hv' := hv 0 (by decide) [] ⟨rfl, by simp⟩
  simp [softmax, alongLast, lane, softmaxLane, top] at hv'

/-! ### Functions with another shape than declared -/

theorem foldl_max_le : ∀ (xs : List ℝ) (a : ℝ), a ≤ xs.foldl max a ∧ ∀ x ∈ xs, x ≤ xs.foldl max a
  | [], a => ⟨le_rfl, by simp⟩
  | b :: xs, a => by
    obtain ⟨h1, h2⟩ := foldl_max_le xs (max a b)
    refine ⟨(le_max_left _ _).trans h1, fun x hx => ?_⟩
    rcases List.mem_cons.1 hx with rfl | hx
    · exact (le_max_right _ _).trans h1
    · exact h2 x hx

theorem sum_exp_shift (xs : List ℝ) (m : ℝ) : (xs.map fun w => Real.exp (w - m)).sum = (xs.map Real.exp).sum * Real.exp (-m) := by
  induction xs with
  | nil => simp
  | cons a xs ih => simp only [List.map_cons, List.sum_cons, ih, add_mul, ← Real.exp_add]; rfl

theorem sum_exp_pos {xs : List ℝ} (h : xs ≠ []) : 0 < (xs.map Real.exp).sum := by
  cases xs with
  | nil => exact absurd rfl h
  | cons a xs =>
    rw [List.map_cons, List.sum_cons]
    exact add_pos_of_pos_of_nonneg (Real.exp_pos a) (List.sum_nonneg fun x hx => by obtain ⟨y, -, rfl⟩ := List.mem_map.1 hx; exact (Real.exp_pos y).le)

/-- **C132 (logsumexp).** The value is the logarithm of the sum of the exponentials of all entries of the array, whatever is subtracted before. -/
theorem C132_logSumExp (x : NArr ℝ) (hne : x.entries ≠ []) :
    (logSumExp x).val [] = Real.log (x.entries.map Real.exp).sum ∧ ∀ v ∈ x.entries, v ≤ (logSumExp x).val [] := by
  have hv : (logSumExp x).val [] = Real.log (x.entries.map Real.exp).sum := by
    unfold logSumExp
    simp only
    rw [sum_exp_shift, Real.log_mul (sum_exp_pos hne).ne' (Real.exp_pos _).ne', Real.log_exp]
    ring
  refine ⟨hv, fun v hvm => ?_⟩
  rw [hv, Real.le_log_iff_exp_le (sum_exp_pos hne)]
  exact List.single_le_sum (fun y hy => by obtain ⟨z, -, rfl⟩ := List.mem_map.1 hy; exact (Real.exp_pos z).le) _ (List.mem_map_of_mem hvm)

example : (twoRows : NArr ℝ).entries = [0, Real.log 3, 0, Real.log 3] := by simp [twoRows, NArr.entries, indices, List.range_succ]

theorem glu_leaf (x : NArr ℝ) : gluCall (.leaf x) = match gluLeaf x with
    | .ok y => .ok (.leaf y)
    | .error e => .error e := rfl

/-- **C132 refuted for `LogSumExp`, `OneHot` and `GLU`.** They declare the shape of their input. `LogSumExp` gives one number for all samples, `OneHot` an axis more and `GLU`
half the entries; for an odd number of entries in a sample `GLU` raises. -/
theorem C132_shape_refuted (x : NArr ℝ) (b n : Nat) (s : List Nat) (hx : x.shape = b :: s ++ [n]) :
    activationShape (.leaf x.shape.tail) = .leaf x.shape.tail ∧
    (∃ y, activation logSumExp (.leaf x) = .leaf y ∧ y.shape = []) ∧
    (∀ c, ∃ y, activation (oneHot c) (.leaf x) = .leaf y ∧ y.shape.tail = x.shape.tail ++ [c]) ∧
    (n % 2 = 1 → gluCall (.leaf x) = .error .assertionError) ∧
    (n % 2 = 0 → ∃ y, gluCall (.leaf x) = .ok (.leaf y) ∧ y.shape = b :: s ++ [n / 2] ∧
      ∀ i, ∀ j < n / 2, y.val (i ++ [j]) = x.val (i ++ [j]) / (1 + Real.exp (-x.val (i ++ [n / 2 + j])))) := by
  have hlast : x.shape.getLastD 0 = n := by rw [hx]; exact List.getLastD_concat (l := b :: s)
  refine ⟨rfl, ⟨_, rfl, rfl⟩, fun c => ⟨_, rfl, ?_⟩, fun h => ?_, fun h => ?_⟩
  · show (x.shape ++ [c]).tail = _
    rw [hx]; rfl
  · rw [glu_leaf, gluLeaf]
    simp only [hlast, h]
    rfl
  · refine ⟨⟨b :: s ++ [n / 2], fun i => x.val i * sigmoid (x.val (i.dropLast ++ [i.getLastD 0 + n / 2]))⟩, ?_, rfl, fun i j hj => ?_⟩
    · rw [glu_leaf, gluLeaf]
      simp only [hlast, h, if_true]
      rw [hx, List.dropLast_concat]
    · simp only [List.dropLast_concat]
      simp [sigmoid, add_comm, div_eq_mul_inv]

example : gluCall (.leaf ⟨[2, 3], fun _ => 1⟩) = .error .assertionError :=
  (C132_shape_refuted ⟨[2, 3], fun _ => 1⟩ 2 3 [] rfl).2.2.2.1 rfl

theorem top_spec {l : List ℝ} (hne : l ≠ []) : top l ∈ l ∧ ∀ v ∈ l, v ≤ top l := by
  cases l with
  | nil => exact absurd rfl hne
  | cons a l =>
    obtain ⟨h1, h2, h3⟩ := foldl_max_bound l a
    show l.foldl max a ∈ a :: l ∧ ∀ v ∈ a :: l, v ≤ l.foldl max a
    refine ⟨?_, fun v hv => ?_⟩
    · rcases h1 with h | h
      · rw [h]; simp
      · exact List.mem_cons_of_mem _ h
    · rcases List.mem_cons.1 hv with rfl | hv
      · exact h2
      · exact h3 v hv

theorem bottom_spec {l : List ℝ} (hne : l ≠ []) : bottom l ∈ l ∧ ∀ v ∈ l, bottom l ≤ v := by
  cases l with
  | nil => exact absurd rfl hne
  | cons a l =>
    obtain ⟨h1, h2, h3⟩ := foldl_min_bound l a
    show l.foldl min a ∈ a :: l ∧ ∀ v ∈ a :: l, l.foldl min a ≤ v
    refine ⟨?_, fun v hv => ?_⟩
    · rcases h1 with h | h
      · rw [h]; simp
      · exact List.mem_cons_of_mem _ h
    · rcases List.mem_cons.1 hv with rfl | hv
      · exact h2
      · exact h3 v hv

theorem extremeCall_leaf (pick : List ℝ → ℝ) (x : NArr ℝ) : extremeCall pick (.leaf x) = match extreme pick x with
    | .ok y => .ok (.leaf y)
    | .error e => .error e := rfl

theorem extreme_leaf (pick : List ℝ → ℝ) {x : NArr ℝ} (hne : x.entries ≠ []) : extremeCall pick (.leaf x) = .ok (.leaf ⟨[], fun _ => pick x.entries⟩) := by
  have h : extreme pick x = .ok ⟨[], fun _ => pick x.entries⟩ := if_neg (by simpa using hne)
  rw [extremeCall_leaf, h]

/-- **C132 refuted for `AMax` and `AMin`.** They declare the shape of their input, but without arguments they give one number, the largest (smallest) entry of all samples together, and
raise if there is none. So a prediction depends on the other samples. -/
theorem C132_extreme_refuted (x : NArr ℝ) :
    (x.entries ≠ [] → ∃ hi lo, extremeCall top (.leaf x) = .ok (.leaf hi) ∧ extremeCall bottom (.leaf x) = .ok (.leaf lo) ∧ hi.shape = [] ∧ lo.shape = [] ∧
      hi.val [] ∈ x.entries ∧ lo.val [] ∈ x.entries ∧ ∀ v ∈ x.entries, lo.val [] ≤ v ∧ v ≤ hi.val []) ∧
    (x.entries = [] → extremeCall top (.leaf x) = .error .valueError ∧ extremeCall bottom (.leaf x) = .error .valueError) ∧
    (∀ a b, a < b → extremeCall top (.leaf ⟨[1], fun _ => a⟩) = .ok (.leaf ⟨[], fun _ => a⟩) ∧
      extremeCall top (.leaf ⟨[2], fun i => if i = [0] then a else b⟩) = .ok (.leaf ⟨[], fun _ => b⟩)) ∧
    ¬ Samplewise (extremeCall top) ∧ ¬ Samplewise (extremeCall bottom) := by
  have hno : ∀ pick : List ℝ → ℝ, ¬ Samplewise (extremeCall pick) := by
    intro pick h
    have := h id 1 1 ⟨by decide, by decide, fun i hi => by simpa using hi⟩ (.leaf ⟨[1], fun _ => 0⟩) (.leaf ⟨[1], fun _ => 0⟩) trivial
      (related_leaf ⟨[], rfl, rfl, fun _ _ _ _ => rfl⟩)
    rw [extreme_leaf pick (by simp [NArr.entries, indices, List.range_succ])] at this
    obtain ⟨b, hb, s, h1, -, -⟩ := related_leaf_inv this
    cases hb
    cases h1
  refine ⟨fun hne => ⟨_, _, extreme_leaf top hne, extreme_leaf bottom hne, rfl, rfl, (top_spec hne).1, (bottom_spec hne).1,
    fun v hv => ⟨(bottom_spec hne).2 v hv, (top_spec hne).2 v hv⟩⟩, fun he => ?_, fun a b hab => ⟨?_, ?_⟩, hno _, hno _⟩
  rotate_left
  · rw [extreme_leaf top (by simp [NArr.entries, indices, List.range_succ])]
    simp [NArr.entries, indices, List.range_succ, top]
  · rw [extreme_leaf top (by simp [NArr.entries, indices, List.range_succ])]
    simp [NArr.entries, indices, List.range_succ, top, hab.le]
  have h : ∀ pick, extreme pick x = .error .valueError := fun pick => if_pos (by simpa using he)
  exact ⟨by rw [extremeCall_leaf, h], by rw [extremeCall_leaf, h]⟩

example : (twoRows : NArr ℝ).entries ≠ [] := by simp [twoRows, NArr.entries, indices, List.range_succ]

end Verif.Props
