import Verif.Props.ConformalInterval
import Mathlib.MeasureTheory.Measure.Typeclasses.Probability
import Mathlib.MeasureTheory.Measure.Dirac
import Mathlib.MeasureTheory.Integral.Lebesgue.Add
import Mathlib.MeasureTheory.Constructions.BorelSpace.Order

/-!
# C51: marginal coverage
-/

namespace Verif.Props
open Verif.Tree Verif.ForwardSpec Verif.NdSpec Verif.Conformal Verif.Quantile NArr MeasureTheory
open scoped Classical

theorem countP_ofFn {m : Nat} (s : Fin m → ℝ) (P : ℝ → Prop) :
    (List.ofFn s).countP (fun x => decide (P x)) = (Finset.univ.filter fun i => P (s i)).card := by
  rw [List.ofFn_eq_map, List.countP_map, List.countP_eq_length_filter]
  rfl

/-- Among `m` numbers at least `L ≤ m` have fewer than `L` smaller ones. -/
theorem card_low_ranks {m L : Nat} (hL0 : 0 < L) (hL : L ≤ m) (s : Fin m → ℝ) :
    L ≤ (Finset.univ.filter fun j => (Finset.univ.filter fun i => s i < s j).card < L).card := by
  have hl : (List.ofFn s).length = m := List.length_ofFn
  have h1 := seq_count (xs := List.ofFn s) (k := L - 1) (by omega)
  have h2 := seq_count_lt (xs := List.ofFn s) (k := L - 1) (by omega)
  rw [countP_ofFn s (fun x => x ≤ seq (List.ofFn s) ((L - 1 : ℕ) : ℤ))] at h1
  rw [countP_ofFn s (fun x => x < seq (List.ofFn s) ((L - 1 : ℕ) : ℤ))] at h2
  have h3 : (Finset.univ.filter fun j => s j ≤ seq (List.ofFn s) ((L - 1 : ℕ) : ℤ)) ⊆
      Finset.univ.filter fun j => (Finset.univ.filter fun i => s i < s j).card < L := by
    intro j hj
    rw [Finset.mem_filter] at hj ⊢
    have hc : (Finset.univ.filter fun i => s i < s j).card ≤ (Finset.univ.filter fun i => s i < seq (List.ofFn s) ((L - 1 : ℕ) : ℤ)).card :=
      Finset.card_le_card fun i hi => by
        rw [Finset.mem_filter] at hi ⊢
        exact ⟨hi.1, lt_of_lt_of_le hi.2 hj.2⟩
    exact ⟨Finset.mem_univ _, by omega⟩
  have := Finset.card_le_card h3
  omega

/-- The event that fewer than `L` of the numbers are smaller than the `j`-th. -/
def lowRank {m : Nat} (L : Nat) (j : Fin m) : Set (Fin m → ℝ) := {s | (Finset.univ.filter fun i => s i < s j).card < L}

theorem measurable_lowRank {m : Nat} (L : Nat) (j : Fin m) : MeasurableSet (lowRank L j) := by
  have h1 : Measurable fun s : Fin m → ℝ => (Finset.univ.filter fun i => s i < s j).card := by
    have : (fun s : Fin m → ℝ => (Finset.univ.filter fun i => s i < s j).card) = fun s => ∑ i, if s i < s j then 1 else 0 := by
      funext s
      rw [Finset.card_filter]
    rw [this]
    refine Finset.measurable_sum _ fun i _ => ?_
    exact Measurable.ite (measurableSet_lt (measurable_pi_apply i) (measurable_pi_apply j)) measurable_const measurable_const
  exact h1 (MeasurableSet.of_discrete (s := {c : ℕ | c < L}))

/-- The scores of calibration samples and test sample are exchangeable: their joint distribution does not depend on their order. -/
def Exchangeable {Ω : Type} [MeasurableSpace Ω] (P : Measure Ω) {m : Nat} (S : Fin m → Ω → ℝ) : Prop :=
  ∀ σ : Equiv.Perm (Fin m), P.map (fun ω i => S (σ i) ω) = P.map fun ω i => S i ω

/-- Exchangeable scores: the probability that the last one has a low rank, times their number, is the expected number of low ranks. -/
theorem prob_lowRank_mul {Ω : Type} [MeasurableSpace Ω] (P : Measure Ω) {n : Nat} (L : Nat)
    (S : Fin (n + 1) → Ω → ℝ) (hS : ∀ i, Measurable (S i)) (hex : Exchangeable P S) :
    (n + 1 : ℕ) * P {ω | (fun i => S i ω) ∈ lowRank L (Fin.last n)} =
      ∫⁻ ω, ((Finset.univ.filter fun j => (Finset.univ.filter fun i => S i ω < S j ω).card < L).card : ENNReal) ∂P := by
  have hm : ∀ σ : Equiv.Perm (Fin (n + 1)), Measurable fun ω i => S (σ i) ω := fun σ => measurable_pi_lambda _ fun i => hS _
  have same : ∀ j, P {ω | (fun i => S i ω) ∈ lowRank L j} = P {ω | (fun i => S i ω) ∈ lowRank L (Fin.last n)} := by
    intro j
    have h := congrArg (fun μ => μ (lowRank L (Fin.last n))) (hex (Equiv.swap j (Fin.last n)))
    rw [Measure.map_apply (hm _) (measurable_lowRank _ _), Measure.map_apply (show Measurable fun ω i => S i ω from hm 1) (measurable_lowRank _ _)] at h
    refine Eq.trans (congrArg P ?_) h
    ext ω
    simp only [lowRank, Set.mem_setOf_eq, Set.mem_preimage, Equiv.swap_apply_right]
    have : (Finset.univ.filter fun i => S i ω < S j ω).card = (Finset.univ.filter fun i => S (Equiv.swap j (Fin.last n) i) ω < S j ω).card := by
      refine Finset.card_bij (fun i _ => Equiv.swap j (Fin.last n) i) (fun i hi => ?_) (fun a _ b _ h => (Equiv.swap j (Fin.last n)).injective h)
        fun i hi => ⟨Equiv.swap j (Fin.last n) i, ?_, Equiv.swap_apply_self _ _ _⟩
      · simpa using hi
      · simpa using hi
    rw [this]
  have hms : ∀ j, MeasurableSet {ω | (fun i => S i ω) ∈ lowRank L j} := fun j => hm 1 (measurable_lowRank L j)
  have hsum : ∑ j : Fin (n + 1), P {ω | (fun i => S i ω) ∈ lowRank L j} = (n + 1 : ℕ) * P {ω | (fun i => S i ω) ∈ lowRank L (Fin.last n)} := by
    rw [Finset.sum_congr rfl fun j _ => same j, Finset.sum_const, Finset.card_univ, Fintype.card_fin, nsmul_eq_mul]
  rw [← hsum]
  symm
  calc ∫⁻ ω, ((Finset.univ.filter fun j => (Finset.univ.filter fun i => S i ω < S j ω).card < L).card : ENNReal) ∂P
      = ∫⁻ ω, ∑ j : Fin (n + 1), Set.indicator {ω | (fun i => S i ω) ∈ lowRank L j} (fun _ => (1 : ENNReal)) ω ∂P := by
          refine lintegral_congr fun ω => ?_
          rw [Finset.card_filter]
          push_cast
          refine Finset.sum_congr rfl fun j _ => ?_
          simp [Set.indicator_apply, lowRank]
    _ = ∑ j : Fin (n + 1), P {ω | (fun i => S i ω) ∈ lowRank L j} := by
          rw [lintegral_finsetSum _ fun j _ => measurable_const.indicator (hms j)]
          refine Finset.sum_congr rfl fun j _ => ?_
          rw [lintegral_indicator_const (hms j), one_mul]

theorem prob_lowRank {Ω : Type} [MeasurableSpace Ω] (P : Measure Ω) [IsProbabilityMeasure P] {n L : Nat} (hL0 : 0 < L) (hL : L ≤ n + 1)
    (S : Fin (n + 1) → Ω → ℝ) (hS : ∀ i, Measurable (S i)) (hex : Exchangeable P S) :
    (L : ENNReal) / (n + 1 : ℕ) ≤ P {ω | (fun i => S i ω) ∈ lowRank L (Fin.last n)} := by
  refine ENNReal.div_le_of_le_mul ?_
  rw [mul_comm, prob_lowRank_mul P L S hS hex]
  calc (L : ENNReal) = ∫⁻ _, (L : ENNReal) ∂P := by simp
    _ ≤ _ := lintegral_mono fun ω => Nat.cast_le.2 (card_low_ranks hL0 hL fun i => S i ω)

theorem le_quant_of_lowRank {n : Nat} {α : ℝ} (h1 : α < 1) (hL : needed n α ≤ n) (s : Fin (n + 1) → ℝ)
    (h : s ∈ lowRank (needed n α).toNat (Fin.last n)) :
    ∃ q, quant (List.ofFn fun i : Fin n => s i.castSucc) (level n α) = some q ∧ s (Fin.last n) ≤ q := by
  set l := List.ofFn fun i : Fin n => s i.castSucc with hl
  have hlen : l.length = n := List.length_ofFn
  have hp := needed_pos n h1
  obtain ⟨q, hq, hle⟩ := quant_covers l h1 (by rw [hlen]; exact hL)
  rw [hlen] at hq hle
  refine ⟨q, hq, ?_⟩
  by_contra hlt
  rw [not_le] at hlt
  have hc := seq_count (xs := l) (k := (needed n α - 1).toNat) (by omega)
  have e1 : (((needed n α - 1).toNat : ℕ) : ℤ) = needed n α - 1 := by omega
  rw [e1, hl, countP_ofFn (fun i : Fin n => s i.castSucc) (fun x => x ≤ seq l (needed n α - 1))] at hc
  have : (Finset.univ.filter fun i : Fin n => s i.castSucc ≤ seq l (needed n α - 1)).card ≤
      (Finset.univ.filter fun i : Fin (n + 1) => s i < s (Fin.last n)).card := by
    refine Finset.card_le_card_of_injOn Fin.castSucc (fun i hi => ?_) fun a _ b _ h => Fin.castSucc_injective n h
    rw [Finset.mem_coe, Finset.mem_filter] at hi ⊢
    exact ⟨Finset.mem_univ _, lt_of_le_of_lt (hi.2.trans hle) hlt⟩
  unfold lowRank at h
  rw [Set.mem_setOf_eq] at h
  omega

theorem prob_covered {Ω : Type} [MeasurableSpace Ω] (P : Measure Ω) [IsProbabilityMeasure P] {n : Nat} (S : Fin (n + 1) → Ω → ℝ)
    (hS : ∀ i, Measurable (S i)) (hex : Exchangeable P S) {α : ℝ} (h1 : α < 1) (hL : needed n α ≤ n) :
    ENNReal.ofReal (1 - α) ≤ P {ω | ∃ q, quant (List.ofFn fun i : Fin n => S i.castSucc ω) (level n α) = some q ∧ S (Fin.last n) ω ≤ q} := by
  have hp := needed_pos n h1
  refine le_trans ?_ ((prob_lowRank P (L := (needed n α).toNat) (by omega) (by omega) S hS hex).trans (measure_mono fun ω hω => ?_))
  · rw [ENNReal.le_div_iff_mul_le (by simp) (by simp)]
    have hr : ((n : ℝ) + 1) * (1 - α) ≤ ((needed n α).toNat : ℝ) := by
      have e : (((needed n α).toNat : ℕ) : ℝ) = ((needed n α : ℤ) : ℝ) := by
        have : (((needed n α).toNat : ℕ) : ℤ) = needed n α := by omega
        exact_mod_cast this
      rw [e]
      exact Int.le_ceil _
    have : ENNReal.ofReal (1 - α) * ((n + 1 : ℕ) : ENNReal) = ENNReal.ofReal ((1 - α) * (n + 1)) := by
      rw [ENNReal.ofReal_mul (by linarith)]
      congr 1
      rw [← Nat.cast_succ, ENNReal.ofReal_natCast]
    rw [this, ← ENNReal.ofReal_natCast]
    exact ENNReal.ofReal_le_ofReal (by linarith)
  · exact le_quant_of_lowRank h1 hL _ hω

/-- An array of `n` samples of shape `sh`, taken from the samples `j, j + 1, …`. -/
def batch (j n : Nat) (sh : List Nat) (v : Nat → List Nat → ℝ) : Arrs := .leaf ⟨n :: sh, fun i => some (v (j + i.headD 0) i.tail)⟩

/-- The array `x` has shape `n :: sh` and the given entries. -/
def HasEntries (x : NArr (Option ℝ)) (n : Nat) (sh : List Nat) (v : Nat → List Nat → ℝ) : Prop :=
  x.shape = n :: sh ∧ ∀ k i, k < n → InB sh i → x.val (k :: i) = some (v k i)

theorem leaf_scores {y z w : NArr (Option ℝ)} {n : Nat} {sh : List Nat} {Y F U : Nat → List Nat → ℝ} (hy : HasEntries y n sh Y) (hz : HasEntries z n sh F)
    (hw : HasEntries w n sh U) (hU : ∀ k j, 0 < U k j) :
    ∃ S, scoresOf (.leaf y) (.leaf z) (.leaf w) = .ok (.leaf S) ∧ HasEntries S n sh fun k j => |Y k j - F k j| / U k j := by
  obtain ⟨S, s1, s2, s3⟩ := C52_scores (.leaf y) (.leaf z) (.leaf w) (by simp [KeysOk]) (by simp [KeysOk]) (by simp [KeysOk]) rfl rfl
    (fun p a b c ha hb hc => by cases ha; cases hb; cases hc; exact ⟨hz.1.trans hy.1.symm, hw.1.trans hy.1.symm⟩)
  obtain ⟨sc, c1, c2, c3⟩ := s3 [] _ _ _ (.leaf _) (.leaf _) (.leaf _)
  have hSleaf : S = .leaf sc := by
    cases c1
    rfl
  subst hSleaf
  refine ⟨sc, s1, c2.trans hy.1, fun k j hk hj => ?_⟩
  obtain ⟨h, -⟩ := c3 (k :: j) (by rw [hy.1]; exact inB_cons.2 ⟨hk, hj⟩) _ _ _ (hy.2 k j hk hj) (hz.2 k j hk hj) (hw.2 k j hk hj)
  obtain ⟨v, hv, -, he⟩ := h (hU k j)
  have := (hU k j).ne'
  rw [hv]
  simp only [← he]
  rw [mul_div_assoc, div_self this, mul_one]

theorem leaf_interval {S y w : NArr (Option ℝ)} {n : Nat} {sh : List Nat} {s : Nat → List Nat → ℝ} {F U : Nat → List Nat → ℝ} (hS : HasEntries S n sh s)
    (hy : HasEntries y 1 sh F) (hw : HasEntries w 1 sh U) {α : ℝ} (h0 : 0 < α) (h1 : α < 1) {i : List Nat} (hi : InB sh i) {q : ℝ}
    (hq : quant (List.ofFn fun k : Fin n => s k i) (level n α) = some q) :
    ∃ Q st l r, getQhat (fresh (.leaf S)) [α] = .ok ([Q], st) ∧ interval (.leaf y) (.leaf w) Q = .ok (.leaf l, .leaf r) ∧
      l.val (0 :: i) = some (F 0 i - q * U 0 i) ∧ r.val (0 :: i) = some (F 0 i + q * U 0 i) := by
  obtain ⟨st, hst⟩ := getQhat_fresh (scores := .leaf S) (n := n) (by simp [samples, jaxLeaves, Tree.norm, flat, hS.1]) (alphas := [α]) (by simp [h0, h1])
  have hcol : column S i = (List.ofFn fun k : Fin n => s k i).map some := by
    unfold column
    rw [hS.1, List.headD_cons, List.ofFn_eq_map, List.map_map, ← List.map_coe_finRange_eq_range, List.map_map]
    exact List.map_congr_left fun k _ => hS.2 k i k.2 hi
  obtain ⟨lo, hi', i1, -, -, i2⟩ := C50_interval (.leaf y) (.leaf w) (.leaf (quantLeaf (level n α) S)) (by
    refine ⟨by simp [KeysOk], by simp [KeysOk], by simp [KeysOk], rfl, rfl, fun p a b c ha hb hc => ?_⟩
    cases ha
    cases hb
    cases hc
    exact ⟨1, by simp [quantLeaf, hS.1, hy.1], by simp [quantLeaf, hS.1, hw.1]⟩)
  obtain ⟨l, r, l1, r1, -, -, v⟩ := i2 [] _ _ _ (.leaf _) (.leaf _) (.leaf _)
  obtain ⟨v1, v2, -⟩ := v 0 i (by rw [hy.1]; exact inB_cons.2 ⟨Nat.zero_lt_one, hi⟩) _ _ q (hy.2 0 i Nat.zero_lt_one hi) (hw.2 0 i Nat.zero_lt_one hi) (by
    show quantO (column S i) (level n α) = some q
    rw [hcol, quantO_some]
    exact hq)
  have e1 : lo = .leaf l := by
    cases l1
    rfl
  have e2 : hi' = .leaf r := by
    cases r1
    rfl
  subst e1 e2
  exact ⟨_, st, l, r, hst, i1, v1, v2⟩

theorem bin_leaf_leaf {f : Option ℝ → Option ℝ → Option ℝ} {y z r : NArr (Option ℝ)} (h : bop f y z = .ok r) :
    TreeArith.bin f (.leaf y) (.leaf z) = .ok (.leaf r) := by
  obtain ⟨t, h1, -, h2⟩ := bin_total f (t := .leaf y) (u := .leaf z) (by simp [KeysOk]) rfl (fun p a b ha hb => by cases ha; cases hb; exact ⟨r, h⟩)
  obtain ⟨w, a, b⟩ := h2 [] _ _ (.leaf _) (.leaf _)
  rw [h] at b
  cases b
  cases a
  exact h1

theorem sub_leaf_leaf {y z : NArr (Option ℝ)} {b : Nat} {s : List Nat} {Y F : Nat → List Nat → ℝ} (hy : HasEntries y b s Y) (hz : HasEntries z b s F) :
    ∃ r, TreeArith.sub (.leaf y) (.leaf z) = .ok (.leaf r) ∧ HasEntries r b s fun k i => Y k i - F k i := by
  obtain ⟨r, h1, h2, h3⟩ := bop_rows (Loss.lift2 ((· - ·) : ℝ → ℝ → ℝ)) y z (.inl hy.1) (.inl hz.1) (.inl hy.1)
  have hne : b :: s ≠ s := fun e => by have := congrArg List.length e; simp at this
  refine ⟨r, ?_, h2, fun k i hk hi => ?_⟩
  · exact bin_leaf_leaf h1
  · rw [h3 k i (inB_cons.2 ⟨hk, hi⟩)]
    unfold entryAt
    rw [if_neg (by rw [hy.1]; exact hne), if_neg (by rw [hz.1]; exact hne), hy.2 k i hk hi, hz.2 k i hk hi]
    rfl

theorem add_leaf_leaf {y z : NArr (Option ℝ)} {b : Nat} {s : List Nat} {F : Nat → List Nat → ℝ} {c : List Nat → ℝ} (hy : HasEntries y b s F) (hz : z.shape = s)
    (hc : ∀ i, InB s i → z.val i = some (c i)) : ∃ r, TreeArith.add (.leaf y) (.leaf z) = .ok (.leaf r) ∧ HasEntries r b s fun k i => F k i + c i := by
  obtain ⟨r, h1, h2, h3⟩ := bop_rows (Loss.lift2 ((· + ·) : ℝ → ℝ → ℝ)) y z (.inl hy.1) (.inr hz) (.inl hy.1)
  have hne : b :: s ≠ s := fun e => by have := congrArg List.length e; simp at this
  refine ⟨r, ?_, h2, fun k i hk hi => ?_⟩
  · exact bin_leaf_leaf h1
  · rw [h3 k i (inB_cons.2 ⟨hk, hi⟩)]
    unfold entryAt
    rw [if_neg (by rw [hy.1]; exact hne), if_pos hz, hy.2 k i hk hi, hc i hi]
    rfl

theorem batch_entries (j n : Nat) (sh : List Nat) (v : Nat → List Nat → ℝ) :
    ∃ x, batch j n sh v = .leaf x ∧ HasEntries x n sh fun k i => v (j + k) i := ⟨_, rfl, rfl, fun _ _ _ _ => rfl⟩

/-- After calibration with the samples `0, …, n-1` the wrapper computes the interval from `a` to `b` for output `i` of the test sample `n`. `bias` is the flag for the
global bias correction. -/
def Computes (bias : Bool) (n : Nat) (sh : List Nat) (α : ℝ) (Y F U : Nat → List Nat → ℝ) (i : List Nat) (a b : ℝ) : Prop :=
  ∃ c l r, calibrate bias (batch 0 n sh Y) (batch 0 n sh F) (batch 0 n sh U) = .ok c ∧ predict c (batch n 1 sh F) (batch n 1 sh U) α = .ok (.leaf l, .leaf r) ∧
    l.val (0 :: i) = some a ∧ r.val (0 :: i) = some b

/-- The target of output `i` of the test sample lies in the computed interval. -/
def Covered (bias : Bool) (n : Nat) (sh : List Nat) (α : ℝ) (Y F U : Nat → List Nat → ℝ) (i : List Nat) : Prop :=
  ∃ a b, Computes bias n sh α Y F U i a b ∧ a ≤ Y n i ∧ Y n i ≤ b

/-- Without bias correction the test target is covered exactly if its score is at most the quantile of the calibration scores. -/
theorem covered_iff {n : Nat} (hn : 0 < n) {sh : List Nat} {Y F U : Nat → List Nat → ℝ} (hU : ∀ k j, 0 < U k j) {i : List Nat} (hi : InB sh i) {α : ℝ}
    (h0 : 0 < α) (h1 : α < 1) : Covered false n sh α Y F U i ↔
      ∃ q, quant (List.ofFn fun k : Fin n => |Y k i - F k i| / U k i) (level n α) = some q ∧ |Y n i - F n i| / U n i ≤ q := by
  obtain ⟨q, hq⟩ : ∃ q, quant (List.ofFn fun k : Fin n => |Y k i - F k i| / U k i) (level n α) = some q :=
    ⟨_, quant_eq (by intro e; have := congrArg List.length e; simp at this; omega) _⟩
  obtain ⟨y, ey, hy⟩ := batch_entries 0 n sh Y
  obtain ⟨z, ez, hz⟩ := batch_entries 0 n sh F
  obtain ⟨w, ew, hw⟩ := batch_entries 0 n sh U
  obtain ⟨z', ez', hz'⟩ := batch_entries n 1 sh F
  obtain ⟨w', ew', hw'⟩ := batch_entries n 1 sh U
  obtain ⟨R, r1, -⟩ := sub_leaf_leaf hy hz
  obtain ⟨S, s1, s2⟩ := leaf_scores hy hz hw fun k j => hU _ _
  obtain ⟨Q, st, l, r, q1, q2, q3, q4⟩ := leaf_interval s2 hz' hw' h0 h1 hi (q := q) (by simpa using hq)
  have hcal : calibrate false (batch 0 n sh Y) (batch 0 n sh F) (batch 0 n sh U) = .ok (Option.none, fresh (.leaf S)) := by
    rw [ey, ez, ew]
    simp [calibrate, r1, correct, s1, fresh]
  have hpred : predict (Option.none, fresh (.leaf S)) (batch n 1 sh F) (batch n 1 sh U) α = .ok (.leaf l, .leaf r) := by
    rw [ez', ew']
    simp [predict, correct, q1, q2]
  rw [hq]
  simp only [Option.some.injEq, exists_eq_left']
  rw [div_le_iff₀ (hU n i), abs_le]
  simp only [Nat.add_zero] at q3 q4
  constructor
  · rintro ⟨a, b, ⟨c, l', r', c1, c2, c3, c4⟩, ha, hb⟩
    rw [hcal] at c1
    cases c1
    rw [hpred] at c2
    cases c2
    rw [q3] at c3
    rw [q4] at c4
    cases c3
    cases c4
    constructor <;> linarith
  · rintro ⟨ha, hb⟩
    refine ⟨_, _, ⟨_, l, r, hcal, hpred, q3, q4⟩, ?_, ?_⟩ <;> linarith

/-- **C51 (marginal coverage).** Let targets, predictions and positive heuristics of `n` calibration samples and a test sample be random. If the scores `|Y - F| / U` of
an output are exchangeable and `⌈(n+1)(1-α)⌉ ≤ n`, then the target of the test sample lies in the interval that the wrapper computes for it with probability at least `1 - α`. -/
theorem C51_coverage {Ω : Type} [MeasurableSpace Ω] (P : Measure Ω) [IsProbabilityMeasure P] (n : Nat) (sh : List Nat) (Y F U : Ω → Nat → List Nat → ℝ)
    (hU : ∀ ω k j, 0 < U ω k j) (i : List Nat) (hi : InB sh i) (hS : ∀ k, Measurable fun ω => |Y ω k i - F ω k i| / U ω k i)
    (hex : Exchangeable P fun (k : Fin (n + 1)) ω => |Y ω k i - F ω k i| / U ω k i) (α : ℝ) (h0 : 0 < α) (h1 : α < 1)
    (hL : ⌈((n : ℝ) + 1) * (1 - α)⌉ ≤ n) : ENNReal.ofReal (1 - α) ≤ P {ω | Covered false n sh α (Y ω) (F ω) (U ω) i} := by
  have hn : 0 < n := by
    have := needed_pos n h1
    unfold needed at this
    omega
  refine (prob_covered P _ (fun k => hS k) hex h1 hL).trans (measure_mono fun ω hω => ?_)
  exact (covered_iff hn (hU ω) hi h0 h1).2 hω

/-- **C51 (bias correction).** With the global bias correction and one calibration sample the interval for every further sample is a single point: the prediction plus the
residual of the calibration sample. -/
theorem C51_bias_degenerate (sh : List Nat) (Y F U : Nat → List Nat → ℝ) (hU : ∀ k j, 0 < U k j) (i : List Nat) (hi : InB sh i) (α : ℝ) (h0 : 0 < α) (h1 : α < 1) :
    Computes true 1 sh α Y F U i (F 1 i + (Y 0 i - F 0 i)) (F 1 i + (Y 0 i - F 0 i)) := by
  obtain ⟨y, ey, hy⟩ := batch_entries 0 1 sh Y
  obtain ⟨z, ez, hz⟩ := batch_entries 0 1 sh F
  obtain ⟨w, ew, hw⟩ := batch_entries 0 1 sh U
  obtain ⟨z', ez', hz'⟩ := batch_entries 1 1 sh F
  obtain ⟨w', ew', hw'⟩ := batch_entries 1 1 sh U
  obtain ⟨R, r1, r2⟩ := sub_leaf_leaf hy hz
  have one : ∀ x q : ℝ, quant [x] q = some x := fun x q => by
    rw [quant_eq (by simp)]
    simp [interp, seq, clamp]
  have hb : ∀ j, InB sh j → (quantLeaf (1 / 2) R).val j = some (Y 0 j - F 0 j) := by
    intro j hj
    show quantO (column R j) (1 / 2) = _
    have : column R j = [Y 0 j - F 0 j].map some := by
      unfold column
      rw [r2.1]
      simp [r2.2 0 j Nat.zero_lt_one hj]
    rw [this, quantO_some, one]
  have hbs : (quantLeaf (1 / 2) R).shape = sh := by simp [quantLeaf, r2.1]
  obtain ⟨zc, c1, c2⟩ := add_leaf_leaf hz hbs hb
  obtain ⟨zc', c1', c2'⟩ := add_leaf_leaf hz' hbs hb
  obtain ⟨S, s1, s2⟩ := leaf_scores hy c2 hw fun k j => hU _ _
  obtain ⟨Q, st, l, r, q1, q2, q3, q4⟩ := leaf_interval s2 c2' hw' h0 h1 hi (q := 0) (by
    have : (List.ofFn fun k : Fin 1 => |Y (0 + k) i - (F (0 + k) i + (Y 0 i - F 0 i))| / U (0 + k) i) = [0] := by simp
    rw [this, one])
  refine ⟨(some (.leaf (quantLeaf (1 / 2) R)), fresh (.leaf S)), l, r, ?_, ?_, ?_, ?_⟩
  · rw [ey, ez, ew]
    simp only [calibrate, r1, fitGlobal, Tree.norm, Tree.map, correct, c1, s1, fresh, if_true]
  · rw [ez', ew']
    simp only [predict, correct, c1', q1, q2]
  · simpa using q3
  · simpa using q4

/-- A fair coin. -/
noncomputable def coin : Measure Bool := (2⁻¹ : ENNReal) • Measure.dirac true + (2⁻¹ : ENNReal) • Measure.dirac false

instance : IsProbabilityMeasure coin := ⟨by simp [coin, ENNReal.inv_two_add_inv_two]⟩

/-- Two samples with the values `x` and `y` in random order. -/
def twoValues (x y : ℝ) (ω : Bool) (k : Nat) : ℝ := if decide (k = 0) = ω then x else y

theorem coin_exchangeable (f : ℝ → ℝ) (x y : ℝ) : Exchangeable coin fun (k : Fin 2) ω => f (twoValues x y ω k) := by
  intro σ
  have hm : ∀ g : Bool → Fin 2 → ℝ, coin.map g = (2⁻¹ : ENNReal) • Measure.dirac (g true) + (2⁻¹ : ENNReal) • Measure.dirac (g false) := by
    intro g
    have : Measurable g := measurable_of_countable g
    rw [coin, Measure.map_add _ _ this, Measure.map_smul, Measure.map_smul, Measure.map_dirac' this, Measure.map_dirac' this]
  rw [hm, hm]
  have hσ : (σ 0 = 0 ∧ σ 1 = 1) ∨ (σ 0 = 1 ∧ σ 1 = 0) := by
    have := σ.injective.ne (show (0 : Fin 2) ≠ 1 by decide)
    revert this
    generalize σ 0 = a
    generalize σ 1 = b
    revert a b
    decide
  have ext2 : ∀ g h : Fin 2 → ℝ, g 0 = h 0 → g 1 = h 1 → g = h := fun g h e0 e1 => by
    funext k
    rcases (by revert k; decide : ∀ k : Fin 2, k = 0 ∨ k = 1) k with e | e <;> subst e <;> assumption
  rcases hσ with ⟨e0, e1⟩ | ⟨e0, e1⟩
  · congr 3 <;> exact ext2 _ _ (by rw [e0]) (by rw [e1])
  · rw [add_comm]
    congr 3 <;> exact ext2 _ _ (by rw [e0]; simp [twoValues]) (by rw [e1]; simp [twoValues])

/-- The hypotheses of `C51_coverage` hold for two samples with residuals 1 and 2 in random order. -/
example : ENNReal.ofReal (1 - 1 / 2) ≤ coin {ω | Covered false 1 [] (1 / 2) (fun k _ => twoValues 1 2 ω k) (fun _ _ => 0) (fun _ _ => 1) []} := by
  refine C51_coverage coin 1 [] (fun ω k _ => twoValues 1 2 ω k) (fun _ _ _ => 0) (fun _ _ _ => 1) (fun _ _ _ => one_pos) [] ⟨rfl, by simp⟩
    (fun k => measurable_of_countable _) (coin_exchangeable (fun v => |v - 0| / 1) 1 2) (1 / 2) (by norm_num) (by norm_num) (by norm_num)

/-- **C51 (refuted with bias correction).** With the global bias correction the coverage can be 0 although residuals are exchangeable and the heuristic constant. -/
theorem C51_bias_refuted : ∃ (Ω : Type) (_ : MeasurableSpace Ω) (P : Measure Ω) (_ : IsProbabilityMeasure P) (Y F U : Ω → Nat → List Nat → ℝ),
    (∀ ω k j, 0 < U ω k j) ∧ (Exchangeable P fun (k : Fin 2) ω => Y ω k [] - F ω k []) ∧ (Exchangeable P fun (k : Fin 2) ω => |Y ω k [] - F ω k []| / U ω k []) ∧
    ⌈(((1 : ℕ) : ℝ) + 1) * (1 - 1 / 2)⌉ ≤ ((1 : ℕ) : ℤ) ∧ P {ω | Covered true 1 [] (1 / 2) (Y ω) (F ω) (U ω) []} = 0 := by
  refine ⟨Bool, inferInstance, coin, inferInstance, fun ω k _ => twoValues 1 2 ω k, fun _ _ _ => 0, fun _ _ _ => 1, fun _ _ _ => one_pos,
    coin_exchangeable (fun v => v - 0) 1 2, coin_exchangeable (fun v => |v - 0| / 1) 1 2, by norm_num, ?_⟩
  have : {ω | Covered true 1 [] (1 / 2) (fun k _ => twoValues 1 2 ω k) (fun _ _ => 0) (fun _ _ => 1) []} = ∅ := by
    ext ω
    simp only [Set.mem_setOf_eq, Set.mem_empty_iff_false, iff_false]
    rintro ⟨a, b, ⟨c, l, r, c1, c2, c3, c4⟩, h1, h2⟩
    obtain ⟨c', l', r', d1, d2, d3, d4⟩ := C51_bias_degenerate [] (fun k _ => twoValues 1 2 ω k) (fun _ _ => 0) (fun _ _ => 1) (fun _ _ => one_pos) [] ⟨rfl, by simp⟩ (1 / 2)
      (by norm_num) (by norm_num)
    rw [c1] at d1
    cases d1
    rw [c2] at d2
    cases d2
    rw [c3] at d3
    rw [c4] at d4
    cases d3
    cases d4
    cases ω
    · norm_num [twoValues] at h1
    · norm_num [twoValues] at h2
  rw [this]
  exact measure_empty

end Verif.Props
