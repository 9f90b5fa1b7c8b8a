import Verif.Model.Quantile
import Mathlib.Tactic.Linarith
import Mathlib.Tactic.Ring
import Mathlib.Tactic.FieldSimp
import Mathlib.Tactic.Positivity
import Mathlib.Algebra.Order.Floor.Ring
import Mathlib.Data.List.Count

/-! # Lemmas on quantiles -/

namespace Verif
namespace Quantile

/-- Linear interpolation of a sequence. -/
noncomputable def interp (a : ℤ → ℝ) (x : ℝ) : ℝ := a ⌊x⌋ + Int.fract x * (a (⌊x⌋ + 1) - a ⌊x⌋)

theorem interp_ge {a : ℤ → ℝ} (ha : Monotone a) (x : ℝ) : a ⌊x⌋ ≤ interp a x := by
  have := ha (show ⌊x⌋ ≤ ⌊x⌋ + 1 by omega)
  have h0 := Int.fract_nonneg x
  unfold interp
  nlinarith

theorem interp_le {a : ℤ → ℝ} (ha : Monotone a) (x : ℝ) : interp a x ≤ a (⌊x⌋ + 1) := by
  have := ha (show ⌊x⌋ ≤ ⌊x⌋ + 1 by omega)
  have h0 := (Int.fract_lt_one x).le
  unfold interp
  nlinarith

theorem interp_mono {a : ℤ → ℝ} (ha : Monotone a) : Monotone (interp a) := by
  intro x y hxy
  rcases (Int.floor_le_floor hxy).lt_or_eq with h | h
  · exact (interp_le ha x).trans ((ha (by omega)).trans (interp_ge ha y))
  · unfold interp
    rw [← h]
    have := ha (show ⌊x⌋ ≤ ⌊x⌋ + 1 by omega)
    have hf : Int.fract x ≤ Int.fract y := by unfold Int.fract; rw [← h]; linarith
    nlinarith

open scoped Classical in
/-- The sorted numbers, clamped. -/
noncomputable def seq (xs : List ℝ) (i : ℤ) : ℝ := (xs.insertionSort (· ≤ ·)).getD (clamp xs.length i) 0

theorem clamp_lt {n : Nat} (h : 0 < n) (i : ℤ) : clamp n i < n := by unfold clamp; omega

theorem clamp_of {n : Nat} {i : ℤ} (h0 : 0 ≤ i) (h1 : i < n) : clamp n i = i.toNat := by unfold clamp; omega

theorem clamp_mono (n : Nat) {i j : ℤ} (h : i ≤ j) : clamp n i ≤ clamp n j := by unfold clamp; omega

theorem seq_mono (xs : List ℝ) : Monotone (seq xs) := by
  intro i j h
  unfold seq
  cases hn : xs.length with
  | zero =>
    have : xs = [] := List.length_eq_zero_iff.1 hn
    subst this
    simp
  | succ m =>
    have hl : (xs.insertionSort (· ≤ ·)).length = m + 1 := by rw [List.length_insertionSort, hn]
    have hi := clamp_lt (Nat.succ_pos m) i
    have hj := clamp_lt (Nat.succ_pos m) j
    rw [List.getD_eq_getElem?_getD, List.getD_eq_getElem?_getD, List.getElem?_eq_getElem (by rw [hl]; exact hi),
      List.getElem?_eq_getElem (by rw [hl]; exact hj)]
    simp only [Option.getD_some]
    rcases (clamp_mono (m + 1) h).lt_or_eq with hc | hc
    · exact List.pairwise_iff_getElem.1 (List.pairwise_insertionSort (· ≤ ·) xs) _ _ _ _ hc
    · simp only [hc]; exact le_refl _

theorem quant_eq {xs : List ℝ} (h : xs ≠ []) (q : ℝ) : quant xs q = some (interp (seq xs) (q * ((xs.length : ℝ) - 1))) := by
  unfold quant
  have hl : ∀ inst : DecidableRel (fun a b : ℝ => a ≤ b), (@List.insertionSort _ (fun a b : ℝ => a ≤ b) inst xs).length = xs.length := fun inst => List.length_insertionSort _ _
  have hn : xs.length ≠ 0 := fun e => h (List.length_eq_zero_iff.1 e)
  simp only [hl, if_neg hn]
  congr 1
  unfold interp seq
  generalize hx : q * ((xs.length : ℝ) - 1) = x
  rcases eq_or_ne (Int.fract x) 0 with hf | hf
  · have : x - ⌊x⌋ = 0 := hf
    rw [this, hf]
    ring
  · have hc : ⌈x⌉ = ⌊x⌋ + 1 := by
      have := (Int.ceil_eq_iff (a := x) (z := ⌊x⌋ + 1)).2
      refine this ⟨?_, ?_⟩
      · push_cast
        have : 0 < Int.fract x := lt_of_le_of_ne (Int.fract_nonneg x) (Ne.symm hf)
        unfold Int.fract at this
        linarith
      · push_cast
        exact (Int.lt_floor_add_one x).le
    rw [hc]
    unfold Int.fract
    ring

/-- Higher levels give higher quantiles. -/
theorem quant_mono {xs : List ℝ} (h : xs ≠ []) {q q' : ℝ} (hq : q ≤ q') : ∃ a b, quant xs q = some a ∧ quant xs q' = some b ∧ a ≤ b := by
  refine ⟨_, _, quant_eq h q, quant_eq h q', interp_mono (seq_mono xs) ?_⟩
  have : (1 : ℝ) ≤ xs.length := by
    have : 1 ≤ xs.length := List.length_pos_iff.2 h
    exact_mod_cast this
  nlinarith

theorem seq_mem {xs : List ℝ} (h : xs ≠ []) (i : ℤ) : seq xs i ∈ xs := by
  have hn : 0 < xs.length := List.length_pos_iff.2 h
  unfold seq
  have hc : clamp xs.length i < (xs.insertionSort (· ≤ ·)).length := by rw [List.length_insertionSort]; exact clamp_lt hn i
  rw [List.getD_eq_getElem?_getD, List.getElem?_eq_getElem hc, Option.getD_some]
  exact (List.perm_insertionSort (· ≤ ·) xs).mem_iff.1 (List.getElem_mem _)

open scoped Classical in
/-- At least `k + 1` numbers are at most the `k`-th of the sorted ones. -/
theorem seq_count {xs : List ℝ} {k : Nat} (hk : k < xs.length) : k + 1 ≤ xs.countP fun x => decide (x ≤ seq xs k) := by
  have hp := List.perm_insertionSort (fun a b : ℝ => a ≤ b) xs
  rw [← hp.countP_eq]
  have hl : (xs.insertionSort (· ≤ ·)).length = xs.length := List.length_insertionSort _ _
  set s := xs.insertionSort (· ≤ ·) with hs
  have hsk : seq xs k = s[k]'(by omega) := by
    unfold seq
    rw [clamp_of (by omega) (by exact_mod_cast hk), Int.toNat_natCast, ← hs, List.getD_eq_getElem?_getD, List.getElem?_eq_getElem (by omega)]
    rfl
  have h1 : (s.take (k + 1)).countP (fun x => decide (x ≤ seq xs k)) = k + 1 := by
    have : (s.take (k + 1)).length = k + 1 := by rw [List.length_take]; omega
    rw [List.countP_eq_length.2, this]
    intro x hx
    obtain ⟨j, hj, rfl⟩ := List.getElem_of_mem hx
    rw [List.length_take] at hj
    rw [List.getElem_take, decide_eq_true_eq, hsk]
    rcases (show j < k ∨ j = k by omega) with h | h
    · exact List.pairwise_iff_getElem.1 (List.pairwise_insertionSort (· ≤ ·) xs) _ _ _ _ h
    · subst h; exact le_refl _
  calc k + 1 = (s.take (k + 1)).countP (fun x => decide (x ≤ seq xs k)) := h1.symm
    _ ≤ s.countP (fun x => decide (x ≤ seq xs k)) := (List.take_sublist _ _).countP_le

/-- The last one is the largest. -/
theorem le_seq_last {xs : List ℝ} {x : ℝ} (hx : x ∈ xs) (i : ℤ) (hi : (xs.length : ℤ) - 1 ≤ i) : x ≤ seq xs i := by
  classical
  have hne : xs ≠ [] := List.ne_nil_of_mem hx
  have hn : 0 < xs.length := List.length_pos_iff.2 hne
  have hc := seq_count (xs := xs) (k := xs.length - 1) (by omega)
  have hle : xs.countP (fun x => decide (x ≤ seq xs ((xs.length - 1 : ℕ) : ℤ))) = xs.length :=
    le_antisymm List.countP_le_length (by omega)
  have := of_decide_eq_true (List.countP_eq_length.1 hle x hx)
  refine this.trans (seq_mono xs ?_)
  omega

end Quantile
end Verif

namespace Verif
namespace Quantile

open scoped Classical in
/-- At most `k` numbers are smaller than the `k`-th of the sorted ones. -/
theorem seq_count_lt {xs : List ℝ} {k : Nat} (hk : k < xs.length) : (xs.countP fun x => decide (x < seq xs k)) ≤ k := by
  have hp := List.perm_insertionSort (fun a b : ℝ => a ≤ b) xs
  rw [← hp.countP_eq]
  have hl : (xs.insertionSort (· ≤ ·)).length = xs.length := List.length_insertionSort _ _
  set s := xs.insertionSort (· ≤ ·) with hs
  have hsk : seq xs k = s[k]'(by omega) := by
    unfold seq
    rw [clamp_of (by omega) (by exact_mod_cast hk), Int.toNat_natCast, ← hs, List.getD_eq_getElem?_getD, List.getElem?_eq_getElem (by omega)]
    rfl
  have h1 : (s.drop k).countP (fun x => decide (x < seq xs k)) = 0 := by
    rw [List.countP_eq_zero]
    intro x hx
    obtain ⟨j, hj, rfl⟩ := List.getElem_of_mem hx
    rw [List.length_drop] at hj
    rw [List.getElem_drop, decide_eq_true_eq, not_lt, hsk]
    rcases Nat.eq_zero_or_pos j with h | h
    · subst h; exact le_refl _
    · exact List.pairwise_iff_getElem.1 (List.pairwise_insertionSort (· ≤ ·) xs) _ _ _ _ (by omega)
  have h2 : s.countP (fun x => decide (x < seq xs k)) = (s.take k).countP (fun x => decide (x < seq xs k)) + (s.drop k).countP (fun x => decide (x < seq xs k)) := by
    rw [← List.countP_append, List.take_append_drop]
  rw [h2, h1, Nat.add_zero]
  exact List.countP_le_length.trans (by rw [List.length_take]; omega)

end Quantile
end Verif
