import Verif.Props.ConformalCoverage

/-!
# C51: how sharp the coverage is, and what happens for small calibration sets
-/

namespace Verif.Props
open Verif.Tree Verif.ForwardSpec Verif.NdSpec Verif.Conformal Verif.Quantile NArr MeasureTheory
open scoped Classical

/-- Of `m` different numbers exactly `L ≤ m` have fewer than `L` smaller ones. -/
theorem card_low_ranks_eq {m L : Nat} (hL : L ≤ m) (s : Fin m → ℝ) (hs : Function.Injective s) :
    (Finset.univ.filter fun j => (Finset.univ.filter fun i => s i < s j).card < L).card = L := by
  have hlt : ∀ j, (Finset.univ.filter fun i => s i < s j).card < m := fun j => by
    have : (Finset.univ.filter fun i => s i < s j) ⊂ Finset.univ :=
      ⟨Finset.subset_univ _, fun h => by simpa using h (Finset.mem_univ j)⟩
    simpa using Finset.card_lt_card this
  let rank : Fin m → Fin m := fun j => ⟨_, hlt j⟩
  have mono : ∀ j k, s j < s k → rank j < rank k := fun j k h => by
    show (Finset.univ.filter fun i => s i < s j).card < (Finset.univ.filter fun i => s i < s k).card
    refine Finset.card_lt_card ⟨fun i hi => ?_, fun hsub => ?_⟩
    · rw [Finset.mem_filter] at hi ⊢
      exact ⟨hi.1, hi.2.trans h⟩
    · have := @hsub j (by simp [h])
      simp at this
  have inj : Function.Injective rank := fun j k h => by
    rcases lt_trichotomy (s j) (s k) with h' | h' | h'
    · exact absurd h (mono j k h').ne
    · exact hs h'
    · exact absurd h (mono k j h').ne'
  have bij : Function.Bijective rank := Finite.injective_iff_bijective.1 inj
  have h1 : (Finset.univ.filter fun j => (Finset.univ.filter fun i => s i < s j).card < L).card =
      (Finset.univ.filter fun x : Fin m => (x : ℕ) < L).card :=
    Finset.card_bij (fun j _ => rank j) (fun j hj => by
      rw [Finset.mem_filter] at hj ⊢
      exact ⟨Finset.mem_univ _, hj.2⟩) (fun a _ b _ h => inj h) fun x hx => by
      obtain ⟨j, rfl⟩ := bij.2 x
      rw [Finset.mem_filter] at hx
      exact ⟨j, by rw [Finset.mem_filter]; exact ⟨Finset.mem_univ _, hx.2⟩, rfl⟩
  rw [h1, Fin.card_filter_val_lt]
  omega

/-- No two of the scores are ever equal (up to events of probability 0). -/
def NoTies {Ω : Type} [MeasurableSpace Ω] (P : Measure Ω) {m : Nat} (S : Fin m → Ω → ℝ) : Prop :=
  P {ω | ∃ i j, i ≠ j ∧ S i ω = S j ω} = 0

theorem ae_injective {Ω : Type} [MeasurableSpace Ω] {P : Measure Ω} {m : Nat} {S : Fin m → Ω → ℝ} (h : NoTies P S) :
    ∀ᵐ ω ∂P, Function.Injective fun i => S i ω := by
  rw [ae_iff]
  refine measure_mono_null (fun ω hω => ?_) h
  simp only [Set.mem_setOf_eq, Function.Injective, not_forall] at hω ⊢
  obtain ⟨i, j, e, ne⟩ := hω
  exact ⟨i, j, ne, e⟩

theorem prob_lowRank_eq {Ω : Type} [MeasurableSpace Ω] (P : Measure Ω) [IsProbabilityMeasure P] {n L : Nat} (hL : L ≤ n + 1)
    (S : Fin (n + 1) → Ω → ℝ) (hS : ∀ i, Measurable (S i)) (hex : Exchangeable P S) (hne : NoTies P S) :
    P {ω | (fun i => S i ω) ∈ lowRank L (Fin.last n)} = (L : ENNReal) / (n + 1 : ℕ) := by
  rw [ENNReal.eq_div_iff (by simp) (by simp), prob_lowRank_mul P L S hS hex]
  have : ∫⁻ ω, ((Finset.univ.filter fun j => (Finset.univ.filter fun i => S i ω < S j ω).card < L).card : ENNReal) ∂P = ∫⁻ _, (L : ENNReal) ∂P := by
    refine lintegral_congr_ae ?_
    filter_upwards [ae_injective hne] with ω hω
    rw [card_low_ranks_eq hL (fun i => S i ω) hω]
  rw [this]
  simp

theorem lowRank_of_le_quant {n : Nat} {α : ℝ} (h1 : α < 1) (hL : needed n α ≤ n) (s : Fin (n + 1) → ℝ) (hs : Function.Injective s) {q : ℝ}
    (hq : quant (List.ofFn fun i : Fin n => s i.castSucc) (level n α) = some q) (hle : s (Fin.last n) ≤ q) :
    s ∈ lowRank ((needed n α).toNat + 1) (Fin.last n) := by
  have hp := needed_pos n h1
  have hn : 0 < n := by omega
  set l := List.ofFn fun i : Fin n => s i.castSucc with hl
  have hlen : l.length = n := List.length_ofFn
  have hne : l ≠ [] := fun e => by rw [e] at hlen; simp at hlen; omega
  -- the ranks among all scores are those among the calibration scores
  have hcard : (Finset.univ.filter fun i : Fin (n + 1) => s i < s (Fin.last n)).card =
      (Finset.univ.filter fun i : Fin n => s i.castSucc < s (Fin.last n)).card := by
    symm
    refine Finset.card_bij (fun i _ => i.castSucc) (fun i hi => ?_) (fun a _ b _ h => Fin.castSucc_injective n h) fun i hi => ?_
    · rw [Finset.mem_filter] at hi ⊢
      exact ⟨Finset.mem_univ _, hi.2⟩
    · rw [Finset.mem_filter] at hi
      have hlast : i ≠ Fin.last n := fun e => by rw [e] at hi; exact lt_irrefl _ hi.2
      exact ⟨i.castPred hlast, by rw [Finset.mem_filter]; exact ⟨Finset.mem_univ _, by simpa using hi.2⟩, by simp⟩
  unfold lowRank
  rw [Set.mem_setOf_eq, hcard]
  by_cases hlt : needed n α < n
  · rw [quant_eq hne, Option.some.injEq, hlen] at hq
    have hfl : ⌊level n α * ((n : ℝ) - 1)⌋ + 1 ≤ needed n α := by
      have hnr : (0 : ℝ) < n := by exact_mod_cast hn
      have hpr : (0 : ℝ) < needed n α := by exact_mod_cast hp
      have hle' : level n α * ((n : ℝ) - 1) < needed n α := by
        have e : level n α = (needed n α : ℝ) / n := rfl
        rw [e, div_mul_eq_mul_div, div_lt_iff₀ hnr]
        nlinarith
      exact Int.floor_lt.2 hle'
    have hq2 : q ≤ seq l (needed n α) := by
      rw [← hq]
      exact (interp_le (seq_mono l) _).trans (seq_mono l hfl)
    obtain ⟨k, hk⟩ : ∃ k : Fin n, seq l (needed n α) = s k.castSucc := by
      have := seq_mem hne (needed n α)
      rw [hl, List.mem_ofFn] at this
      obtain ⟨k, hk⟩ := this
      exact ⟨k, by rw [← hl] at hk; exact hk.symm⟩
    have hstrict : s (Fin.last n) < seq l (needed n α) := by
      refine lt_of_le_of_ne (hle.trans hq2) fun e => ?_
      rw [hk] at e
      exact absurd (hs e) (Fin.castSucc_lt_last k).ne'
    have hc := seq_count_lt (xs := l) (k := (needed n α).toNat) (by omega)
    have e1 : (((needed n α).toNat : ℕ) : ℤ) = needed n α := by omega
    rw [e1, hl, countP_ofFn (fun i : Fin n => s i.castSucc) (fun x => x < seq l (needed n α))] at hc
    have : (Finset.univ.filter fun i : Fin n => s i.castSucc < s (Fin.last n)).card ≤
        (Finset.univ.filter fun i : Fin n => s i.castSucc < seq l (needed n α)).card :=
      Finset.card_le_card fun i hi => by
        rw [Finset.mem_filter] at hi ⊢
        exact ⟨hi.1, hi.2.trans hstrict⟩
    omega
  · have : (Finset.univ.filter fun i : Fin n => s i.castSucc < s (Fin.last n)).card ≤ n :=
      (Finset.card_le_univ _).trans (by simp)
    omega

/-- **C51 (the intervals are not much too wide).** If in addition no two scores coincide, the coverage is at most `1 - α + 2/(n+1)`: the wrapper interpolates between
two order statistics, so it may exceed the usual bound `1 - α + 1/(n+1)`, but by one rank only. -/
theorem C51_upper {Ω : Type} [MeasurableSpace Ω] (P : Measure Ω) [IsProbabilityMeasure P] (n : Nat) (sh : List Nat) (Y F U : Ω → Nat → List Nat → ℝ)
    (hU : ∀ ω k j, 0 < U ω k j) (i : List Nat) (hi : InB sh i) (hS : ∀ k, Measurable fun ω => |Y ω k i - F ω k i| / U ω k i)
    (hex : Exchangeable P fun (k : Fin (n + 1)) ω => |Y ω k i - F ω k i| / U ω k i)
    (hne : NoTies P fun (k : Fin (n + 1)) ω => |Y ω k i - F ω k i| / U ω k i) (α : ℝ) (h0 : 0 < α) (h1 : α < 1)
    (hL : ⌈((n : ℝ) + 1) * (1 - α)⌉ ≤ n) : P {ω | Covered false n sh α (Y ω) (F ω) (U ω) i} ≤ ENNReal.ofReal (1 - α + 2 / (n + 1)) := by
  have hp := needed_pos n h1
  have hL' : needed n α ≤ n := hL
  have hn : 0 < n := by omega
  have hae : {ω | Covered false n sh α (Y ω) (F ω) (U ω) i} ≤ᵐ[P]
      {ω | (fun k : Fin (n + 1) => |Y ω k i - F ω k i| / U ω k i) ∈ lowRank ((needed n α).toNat + 1) (Fin.last n)} := by
    filter_upwards [ae_injective hne] with ω hω hc
    obtain ⟨q, hq, hle⟩ := (covered_iff hn (hU ω) hi h0 h1).1 hc
    exact lowRank_of_le_quant h1 hL' _ hω hq hle
  refine (measure_mono_ae hae).trans ?_
  rw [prob_lowRank_eq P (by omega) _ (fun k => hS k) hex hne]
  refine ENNReal.div_le_of_le_mul ?_
  have hpos : (0 : ℝ) ≤ 1 - α + 2 / (n + 1) := by
    have : (0 : ℝ) ≤ 2 / ((n : ℝ) + 1) := by positivity
    linarith
  rw [← ENNReal.ofReal_natCast (n + 1), ← ENNReal.ofReal_mul hpos, ← ENNReal.ofReal_natCast]
  refine ENNReal.ofReal_le_ofReal ?_
  have e : (((needed n α).toNat : ℕ) : ℝ) = ((needed n α : ℤ) : ℝ) := by
    have : (((needed n α).toNat : ℕ) : ℤ) = needed n α := by omega
    exact_mod_cast this
  have hr : ((needed n α : ℤ) : ℝ) < ((n : ℝ) + 1) * (1 - α) + 1 := Int.ceil_lt_add_one _
  have hd : (1 - α + 2 / ((n : ℝ) + 1)) * ((n : ℝ) + 1) = ((n : ℝ) + 1) * (1 - α) + 2 := by field_simp
  push_cast
  rw [hd, e]
  linarith

/-- **C51 (too few calibration samples, refuted).** If `⌈(n+1)(1-α)⌉ > n`, which happens for every `α < 1/(n+1)`, then the wrapper still answers, and for every
exchangeable score distribution without ties the target lies in the interval with probability exactly `n/(n+1)`, which is less than the promised `1 - α`. -/
theorem C51_small_refuted {Ω : Type} [MeasurableSpace Ω] (P : Measure Ω) [IsProbabilityMeasure P] (n : Nat) (hn : 0 < n) (sh : List Nat) (Y F U : Ω → Nat → List Nat → ℝ)
    (hU : ∀ ω k j, 0 < U ω k j) (i : List Nat) (hi : InB sh i) (hS : ∀ k, Measurable fun ω => |Y ω k i - F ω k i| / U ω k i)
    (hex : Exchangeable P fun (k : Fin (n + 1)) ω => |Y ω k i - F ω k i| / U ω k i)
    (hne : NoTies P fun (k : Fin (n + 1)) ω => |Y ω k i - F ω k i| / U ω k i) (α : ℝ) (h0 : 0 < α) (h1 : α < 1)
    (hL : (n : ℤ) < ⌈((n : ℝ) + 1) * (1 - α)⌉) :
    P {ω | Covered false n sh α (Y ω) (F ω) (U ω) i} = (n : ENNReal) / (n + 1 : ℕ) ∧
      P {ω | Covered false n sh α (Y ω) (F ω) (U ω) i} < ENNReal.ofReal (1 - α) := by
  have hae : {ω | Covered false n sh α (Y ω) (F ω) (U ω) i} =ᵐ[P]
      {ω | (fun k : Fin (n + 1) => |Y ω k i - F ω k i| / U ω k i) ∈ lowRank n (Fin.last n)} := by
    filter_upwards [ae_injective hne] with ω hω
    refine propext ?_
    show Covered false n sh α (Y ω) (F ω) (U ω) i ↔ (Finset.univ.filter fun k : Fin (n + 1) => |Y ω k i - F ω k i| / U ω k i < |Y ω (Fin.last n) i - F ω (Fin.last n) i| / U ω (Fin.last n) i).card < n
    rw [covered_iff hn (hU ω) hi h0 h1]
    set s : Fin (n + 1) → ℝ := fun k => |Y ω k i - F ω k i| / U ω k i with hs
    have hlen : (List.ofFn fun k : Fin n => |Y ω k i - F ω k i| / U ω k i).length = n := List.length_ofFn
    obtain ⟨q, hq, hm, hle⟩ := quant_max (List.ofFn fun k : Fin n => |Y ω k i - F ω k i| / U ω k i) (by rintro e; rw [e] at hlen; simp at hlen; omega) (α := α) (by rw [hlen]; exact hL)
    rw [hlen] at hq
    rw [hq]
    simp only [Option.some.injEq, exists_eq_left']
    obtain ⟨k, hk⟩ := List.mem_ofFn.1 hm
    constructor
    · intro hc
      have hsub : (Finset.univ.filter fun j : Fin (n + 1) => s j < s (Fin.last n)) ⊆ (Finset.univ.erase (Fin.last n)).erase k.castSucc := by
        intro j hj
        rw [Finset.mem_filter] at hj
        rw [Finset.mem_erase, Finset.mem_erase]
        refine ⟨fun e => ?_, fun e => ?_, Finset.mem_univ _⟩
        · rw [e] at hj
          have : s k.castSucc = q := hk
          rw [this] at hj
          exact absurd hj.2 (not_lt.2 hc)
        · rw [e] at hj
          exact lt_irrefl _ hj.2
      have hcard := Finset.card_le_card hsub
      have hkl : k.castSucc ≠ Fin.last n := (Fin.castSucc_lt_last k).ne
      rw [Finset.card_erase_of_mem (Finset.mem_erase.2 ⟨hkl, Finset.mem_univ _⟩), Finset.card_erase_of_mem (Finset.mem_univ _), Finset.card_univ,
        Fintype.card_fin] at hcard
      exact lt_of_le_of_lt hcard (by omega)
    · intro hc
      by_contra hlt
      rw [not_le] at hlt
      have hsub : Finset.univ.erase (Fin.last n) ⊆ Finset.univ.filter fun j : Fin (n + 1) => s j < s (Fin.last n) := by
        intro j hj
        rw [Finset.mem_erase] at hj
        rw [Finset.mem_filter]
        refine ⟨Finset.mem_univ _, lt_of_le_of_lt ?_ hlt⟩
        refine hle _ (List.mem_ofFn.2 ⟨j.castPred hj.1, ?_⟩)
        simp [hs]
      have hcard := Finset.card_le_card hsub
      rw [Finset.card_erase_of_mem (Finset.mem_univ _), Finset.card_univ, Fintype.card_fin] at hcard
      exact absurd (lt_of_le_of_lt hcard hc) (by omega)
  have heq : P {ω | Covered false n sh α (Y ω) (F ω) (U ω) i} = (n : ENNReal) / (n + 1 : ℕ) := by
    rw [measure_congr hae]
    exact prob_lowRank_eq P (by omega) _ (fun k => hS k) hex hne
  refine ⟨heq, ?_⟩
  rw [heq]
  have hlt : (n : ℝ) < ((n : ℝ) + 1) * (1 - α) := by exact_mod_cast Int.lt_ceil.1 hL
  refine ENNReal.div_lt_of_lt_mul ?_
  rw [← ENNReal.ofReal_natCast (n + 1), ← ENNReal.ofReal_mul (by linarith), ← ENNReal.ofReal_natCast]
  have hlt' : (n : ℝ) < (1 - α) * ((n + 1 : ℕ) : ℝ) := by
    push_cast
    linarith
  exact (ENNReal.ofReal_lt_ofReal_iff (lt_of_le_of_lt (Nat.cast_nonneg n) hlt')).2 hlt'

/-- The hypotheses of `C51_upper` and `C51_small_refuted` hold for two samples with residuals 1 and 2 in random order, with levels 1/2 and 1/10. -/
example : NoTies coin (fun (k : Fin 2) ω => |twoValues 1 2 ω k - 0| / 1) ∧
    coin {ω | Covered false 1 [] (1 / 10) (fun k _ => twoValues 1 2 ω k) (fun _ _ => 0) (fun _ _ => 1) []} = ((1 : ℕ) : ENNReal) / (1 + 1 : ℕ) ∧
    coin {ω | Covered false 1 [] (1 / 2) (fun k _ => twoValues 1 2 ω k) (fun _ _ => 0) (fun _ _ => 1) []} ≤ ENNReal.ofReal (1 - 1 / 2 + 2 / ((1 : ℕ) + 1)) := by
  have hn : NoTies coin fun (k : Fin 2) ω => |twoValues 1 2 ω k - 0| / 1 := by
    have : {ω | ∃ i j : Fin 2, i ≠ j ∧ |twoValues 1 2 ω i - 0| / 1 = |twoValues 1 2 ω j - 0| / 1} = ∅ := by
      ext ω
      simp only [Set.mem_setOf_eq, Set.mem_empty_iff_false, iff_false]
      rintro ⟨i, j, ne, e⟩
      fin_cases i <;> fin_cases j <;> cases ω <;> simp [twoValues] at ne e
    rw [NoTies, this, measure_empty]
  refine ⟨hn, ?_, ?_⟩
  · exact (C51_small_refuted coin 1 one_pos [] (fun ω k _ => twoValues 1 2 ω k) (fun _ _ _ => 0) (fun _ _ _ => 1) (fun _ _ _ => one_pos) [] ⟨rfl, by simp⟩
      (fun k => measurable_of_countable _) (coin_exchangeable (fun v => |v - 0| / 1) 1 2) hn (1 / 10) (by norm_num) (by norm_num) (by rw [Int.lt_ceil]; norm_num)).1
  · exact C51_upper coin 1 [] (fun ω k _ => twoValues 1 2 ω k) (fun _ _ _ => 0) (fun _ _ _ => 1) (fun _ _ _ => one_pos) [] ⟨rfl, by simp⟩
      (fun k => measurable_of_countable _) (coin_exchangeable (fun v => |v - 0| / 1) 1 2) hn (1 / 2) (by norm_num) (by norm_num) (by norm_num)

end Verif.Props
