import Verif.Model.Conformal
import Verif.Lemmas.Quantile
import Verif.Props.TreeArith
import Verif.Props.Elementwise

/-!
# C48, C49, C50, C52: conformal quantiles, intervals and scores
-/

namespace Verif.Props
open Verif.Tree Verif.ForwardSpec Verif.NdSpec Verif.Conformal Verif.Quantile NArr

/-! ### Quantiles of one column -/

/-- The number of scores that have to be covered. -/
noncomputable def needed (n : Nat) (α : ℝ) : ℤ := ⌈((n : ℝ) + 1) * (1 - α)⌉

theorem needed_pos (n : Nat) {α : ℝ} (h1 : α < 1) : 0 < needed n α := by
  unfold needed
  rw [Int.ceil_pos]
  have : (0 : ℝ) ≤ n := Nat.cast_nonneg n
  nlinarith

theorem needed_le (n : Nat) {α : ℝ} (h0 : 0 < α) : needed n α ≤ n + 1 := by
  unfold needed
  rw [Int.ceil_le]
  push_cast
  have : (0 : ℝ) ≤ n := Nat.cast_nonneg n
  nlinarith

theorem quantO_some (l : List ℝ) (q : ℝ) : quantO (l.map some) q = quant l q := by
  unfold quantO
  have : (l.map some).mapM id = some l := by
    induction l with
    | nil => rfl
    | cons a l ih => rw [List.map_cons, List.mapM_cons, ih]; rfl
  rw [this]
  rfl

theorem column_some {s : NArr (Option ℝ)} {n : Nat} {sh i : List Nat} (hs : s.shape = n :: sh) (hi : InB sh i)
    (hf : ∀ j, InB s.shape j → ∃ v, s.val j = some v) : ∃ l : List ℝ, column s i = l.map some ∧ l.length = n ∧
      ∀ k, k < n → ∀ v, l[k]? = some v ↔ s.val (k :: i) = some v := by
  refine ⟨(List.range n).map fun k => (s.val (k :: i)).getD 0, ?_, by simp, fun k hk v => ?_⟩
  · unfold column
    rw [hs, List.headD_cons, List.map_map]
    refine List.map_congr_left fun k hk => ?_
    obtain ⟨v, hv⟩ := hf (k :: i) (by rw [hs]; exact inB_cons.2 ⟨List.mem_range.1 hk, hi⟩)
    simp [hv]
  · obtain ⟨w, hw⟩ := hf (k :: i) (by rw [hs]; exact inB_cons.2 ⟨hk, hi⟩)
    rw [List.getElem?_map, List.getElem?_range hk]
    simp [hw]

theorem quant_covers (l : List ℝ) {α : ℝ} (h1 : α < 1) (hL : needed l.length α ≤ l.length) :
    ∃ q, quant l (level l.length α) = some q ∧ seq l (needed l.length α - 1) ≤ q := by
  have hp := needed_pos l.length h1
  have hn : (0 : ℝ) < l.length := by have : 0 < (l.length : ℤ) := by omega
                                     exact_mod_cast this
  have hne : l ≠ [] := by rintro rfl; simp at hn
  refine ⟨_, quant_eq hne _, le_trans (seq_mono l ?_) (interp_ge (seq_mono l) _)⟩
  rw [Int.le_floor]
  unfold level
  change ((needed l.length α - 1 : ℤ) : ℝ) ≤ (needed l.length α : ℝ) / l.length * (l.length - 1)
  have hL' : ((needed l.length α : ℤ) : ℝ) ≤ l.length := by exact_mod_cast hL
  rw [div_mul_eq_mul_div, le_div_iff₀ hn]
  push_cast
  nlinarith

theorem quant_max (l : List ℝ) (hne : l ≠ []) {α : ℝ} (hL : (l.length : ℤ) < needed l.length α) :
    ∃ q, quant l (level l.length α) = some q ∧ q ∈ l ∧ ∀ x ∈ l, x ≤ q := by
  have hn0 : 0 < l.length := List.length_pos_iff.2 hne
  have hn : (1 : ℝ) ≤ l.length := by exact_mod_cast hn0
  refine ⟨_, quant_eq hne _, ?_⟩
  have hfl : (l.length : ℤ) - 1 ≤ ⌊level l.length α * ((l.length : ℝ) - 1)⌋ := by
    rw [Int.le_floor]
    unfold level
    change (((l.length : ℤ) - 1 : ℤ) : ℝ) ≤ (needed l.length α : ℝ) / l.length * (l.length - 1)
    have hL' : (l.length : ℝ) ≤ ((needed l.length α : ℤ) : ℝ) := by exact_mod_cast hL.le
    rw [div_mul_eq_mul_div, le_div_iff₀ (by linarith)]
    push_cast
    nlinarith
  have hc : ∀ i : ℤ, (l.length : ℤ) - 1 ≤ i → seq l i = seq l ((l.length : ℤ) - 1) := by
    intro i hi
    unfold seq
    have : clamp l.length i = clamp l.length ((l.length : ℤ) - 1) := by unfold clamp; omega
    rw [this]
  have he : interp (seq l) (level l.length α * ((l.length : ℝ) - 1)) = seq l ((l.length : ℤ) - 1) := by
    unfold interp
    rw [hc (⌊level l.length α * ((l.length : ℝ) - 1)⌋ + 1) (by omega), hc _ hfl, sub_self, mul_zero, add_zero]
  rw [he]
  exact ⟨seq_mem hne _, fun x hx => le_seq_last hx _ le_rfl⟩

/-! ### Requests -/

/-- A freshly calibrated wrapper. -/
def fresh (scores : Arrs) : State := ⟨some scores, fun _ => Option.none⟩

theorem getQhat_fresh {scores : Arrs} {n : Nat} (hn : samples scores = .ok n) {alphas : List ℝ} (ha : ∀ a ∈ alphas, 0 < a ∧ a < 1) :
    ∃ st', getQhat (fresh scores) alphas = .ok (alphas.map (quantTree scores n), st') := by
  classical
  unfold getQhat
  rw [if_neg]
  · simp only [fresh, hn]
    split
    · rename_i h
      have : alphas = [] := by
        cases alphas with
        | nil => rfl
        | cons a as => simp at h
      subst this
      exact ⟨_, rfl⟩
    · exact ⟨_, rfl⟩
  · simp only [Bool.not_eq_true, List.any_eq_false, decide_eq_true_eq, not_or, not_le]
    exact ha

/-- All scores are finite and every array has `n` of them. -/
def Finite (scores : Arrs) (n : Nat) : Prop :=
  ∀ p s, At scores p s → (∃ sh, s.shape = n :: sh) ∧ ∀ i, InB s.shape i → ∃ v, s.val i = some v

theorem samples_of {scores : Arrs} {n : Nat} (hf : Finite scores n) (hne : ∃ p s, At scores p s) : samples scores = .ok n := by
  obtain ⟨p, s, hs⟩ := hne
  have hm : s ∈ jaxLeaves scores := by
    unfold jaxLeaves
    exact mem_flat_at.2 ⟨p, at_norm.2 hs⟩
  unfold samples
  cases hl : jaxLeaves scores with
  | nil => rw [hl] at hm; cases hm
  | cons t ts =>
    have : t ∈ jaxLeaves scores := by rw [hl]; exact List.mem_cons_self
    unfold jaxLeaves at this
    obtain ⟨p', hp'⟩ := mem_flat_at.1 this
    obtain ⟨⟨sh, hsh⟩, -⟩ := hf p' t (at_norm.1 hp')
    simp only [hsh]

open scoped Classical in
/-- **C48 (coverage).** Of a freshly calibrated wrapper with finite scores every request with levels in (0, 1) is answered. The `j`-th answer has at every place an array of
quantiles, one for each output, and if `⌈(n+1)(1-α)⌉ ≤ n` then at least that many of the `n` scores of this output are at most the quantile. -/
theorem C48_covers (scores : Arrs) (n : Nat) (hf : Finite scores n) (hne : ∃ p s, At scores p s) (alphas : List ℝ) (ha : ∀ a ∈ alphas, 0 < a ∧ a < 1) :
    ∃ Qs st', getQhat (fresh scores) alphas = .ok (Qs, st') ∧ Qs.length = alphas.length ∧
      ∀ (j : Nat) (α : ℝ), alphas[j]? = some α → ∃ Q, Qs[j]? = some Q ∧ map (fun _ => ()) Q = map (fun _ => ()) scores.norm ∧
        ∀ p s, At scores p s → ∃ y, At Q p y ∧ y.shape = s.shape.tail ∧ ∀ i, InB s.shape.tail i → 0 < n → ∃ q, y.val i = some q ∧
          (⌈((n : ℝ) + 1) * (1 - α)⌉ ≤ n →
            ⌈((n : ℝ) + 1) * (1 - α)⌉ ≤ ((List.range n).countP fun k => decide (∃ v, s.val (k :: i) = some v ∧ v ≤ q) : ℕ)) := by
  obtain ⟨st', h⟩ := getQhat_fresh (samples_of hf hne) ha
  refine ⟨_, st', h, by simp, fun j α hj => ⟨quantTree scores n α, by rw [List.getElem?_map, hj]; rfl, by unfold quantTree; rw [map_map], fun p s hs => ?_⟩⟩
  refine ⟨_, at_map.2 ⟨s, at_norm.2 hs, rfl⟩, rfl, fun i hi hpos => ?_⟩
  obtain ⟨⟨sh, hsh⟩, hfin⟩ := hf p s hs
  rw [hsh, List.tail_cons] at hi
  obtain ⟨l, hl1, hl2, hl3⟩ := column_some hsh hi hfin
  have hne' : l ≠ [] := by rintro rfl; simp at hl2; omega
  have hα := ha α (List.mem_of_getElem? hj)
  unfold quantLeaf
  simp only
  rw [hl1, quantO_some]
  by_cases hL : ⌈((n : ℝ) + 1) * (1 - α)⌉ ≤ n
  · obtain ⟨q, hq, hle⟩ := quant_covers l hα.2 (by rw [hl2]; exact hL)
    rw [hl2] at hq hle
    refine ⟨q, hq, fun _ => ?_⟩
    have hp := needed_pos n hα.2
    have hc := seq_count (xs := l) (k := (needed n α - 1).toNat) (by rw [hl2]; change needed n α ≤ n at hL; omega)
    have e1 : (((needed n α - 1).toNat : ℕ) : ℤ) = needed n α - 1 := by omega
    rw [e1] at hc
    have hc2 : l.countP (fun x => decide (x ≤ seq l (needed n α - 1))) ≤ l.countP fun x => decide (x ≤ q) :=
      List.countP_mono_left fun x _ hx => by
        rw [decide_eq_true_eq] at hx ⊢
        exact hx.trans hle
    have hc3 : (l.countP fun x => decide (x ≤ q)) = (List.range n).countP fun k => decide (∃ v, s.val (k :: i) = some v ∧ v ≤ q) := by
      have : l = (List.range n).map fun k => (l[k]?).getD 0 := by
        apply List.ext_getElem?
        intro k
        rw [List.getElem?_map]
        by_cases hk : k < n
        · rw [List.getElem?_range hk, List.getElem?_eq_getElem (by omega), Option.map_some, List.getElem?_eq_getElem (by omega)]
          rfl
        · rw [List.getElem?_eq_none (by omega), List.getElem?_eq_none (by simp; omega)]
          rfl
      conv_lhs => rw [this]
      rw [List.countP_map]
      refine List.countP_congr fun k hk => ?_
      have hk := List.mem_range.1 hk
      obtain ⟨v, hv⟩ : ∃ v, l[k]? = some v := ⟨_, List.getElem?_eq_getElem (by omega)⟩
      have hv' := (hl3 k hk v).1 hv
      simp [hv, hv']
    rw [← hc3]
    change needed n α ≤ _
    omega
  · obtain ⟨q, hq⟩ : ∃ q, quant l (level n α) = some q := ⟨_, quant_eq hne' _⟩
    exact ⟨q, hq, fun h => absurd h hL⟩

/-- Three samples of one output with scores 1, 2 and 5. -/
def demoScores : Arrs := .leaf ⟨[3, 1], fun i => some ([1, 2, 5].getD (i.getD 0 0) 0)⟩

theorem demoScores_finite : Finite demoScores 3 := by
  intro p s h
  cases h
  exact ⟨⟨[1], rfl⟩, fun i _ => ⟨_, rfl⟩⟩

example : Finite demoScores 3 ∧ (∃ p s, At demoScores p s) ∧ ∀ a ∈ [(1 / 2 : ℝ), 3 / 4], 0 < a ∧ a < 1 :=
  ⟨demoScores_finite, ⟨[], _, .leaf _⟩, by intro a ha; simp at ha; rcases ha with rfl | rfl <;> norm_num⟩

example : ⌈(((3 : ℕ) : ℝ) + 1) * (1 - 1 / 2)⌉ = 2 := by norm_num

/-- The quantiles grow as `α` shrinks. -/
theorem quantTree_monotone (scores : Arrs) (n : Nat) (hn : 0 < n) (hf : Finite scores n) (α β : ℝ) (h : α ≤ β) (p : List ForwardSpec.Step) (s : NArr (Option ℝ))
    (hs : At scores p s) : ∃ a b, At (quantTree scores n α) p a ∧ At (quantTree scores n β) p b ∧
      ∀ i, InB s.shape.tail i → ∃ x y, a.val i = some x ∧ b.val i = some y ∧ y ≤ x := by
  refine ⟨_, _, at_map.2 ⟨s, at_norm.2 hs, rfl⟩, at_map.2 ⟨s, at_norm.2 hs, rfl⟩, fun i hi => ?_⟩
  obtain ⟨⟨sh, hsh⟩, hfin⟩ := hf p s hs
  rw [hsh, List.tail_cons] at hi
  obtain ⟨l, hl1, hl2, -⟩ := column_some hsh hi hfin
  unfold quantLeaf
  simp only
  rw [hl1, quantO_some, quantO_some]
  obtain ⟨y, x, h1, h2, h3⟩ := quant_mono (xs := l) (by rintro rfl; simp at hl2; omega) (q := level n β) (q' := level n α) (by
    unfold level
    have hn' : (0 : ℝ) < n := by exact_mod_cast hn
    rw [div_le_div_iff_of_pos_right hn']
    have : ⌈((n : ℝ) + 1) * (1 - β)⌉ ≤ ⌈((n : ℝ) + 1) * (1 - α)⌉ := Int.ceil_le_ceil (by nlinarith)
    exact_mod_cast this)
  exact ⟨x, y, h2, h1, h3⟩

/-- **C48 refuted for small `α`.** If `⌈(n+1)(1-α)⌉ > n`, no finite quantile can guarantee the confidence; the code does not refuse the request but returns the largest score,
which covers only `n < ⌈(n+1)(1-α)⌉` scores. -/
theorem C48_small_refuted (scores : Arrs) (n : Nat) (hn : 0 < n) (hf : Finite scores n) (α : ℝ) (h0 : 0 < α) (h1 : α < 1)
    (hL : (n : ℤ) < ⌈((n : ℝ) + 1) * (1 - α)⌉) (p : List ForwardSpec.Step) (s : NArr (Option ℝ)) (hs : At scores p s) :
    ∃ Q st', getQhat (fresh scores) [α] = .ok ([Q], st') ∧ ∃ y, At Q p y ∧ ∀ i, InB s.shape.tail i →
      ∃ q, y.val i = some q ∧ (∃ k, k < n ∧ s.val (k :: i) = some q) ∧ ∀ k v, k < n → s.val (k :: i) = some v → v ≤ q := by
  obtain ⟨st', h⟩ := getQhat_fresh (samples_of hf ⟨p, s, hs⟩) (alphas := [α]) (by simp [h0, h1])
  refine ⟨_, st', h, _, at_map.2 ⟨s, at_norm.2 hs, rfl⟩, fun i hi => ?_⟩
  obtain ⟨⟨sh, hsh⟩, hfin⟩ := hf p s hs
  rw [hsh, List.tail_cons] at hi
  obtain ⟨l, hl1, hl2, hl3⟩ := column_some hsh hi hfin
  unfold quantLeaf
  simp only
  rw [hl1, quantO_some]
  obtain ⟨q, hq, hm, hle⟩ := quant_max l (by rintro rfl; simp at hl2; omega) (α := α) (by rw [hl2]; exact hL)
  rw [hl2] at hq
  refine ⟨q, hq, ?_, fun k v hk hv => ?_⟩
  · obtain ⟨k, hk, rfl⟩ := List.getElem_of_mem hm
    exact ⟨k, by omega, (hl3 k (by omega) _).1 (List.getElem?_eq_getElem hk)⟩
  · exact hle v (List.mem_of_getElem? ((hl3 k hk v).2 hv))

example : ((3 : ℕ) : ℤ) < ⌈(((3 : ℕ) : ℝ) + 1) * (1 - 1 / 10)⌉ := by
  rw [Int.lt_ceil]; norm_num

/-! ### The cache -/

/-- The wrapper after some requests. -/
inductive Requested (scores : Arrs) : State → Prop
  | fresh : Requested scores (fresh scores)
  | request {st st' : State} {alphas : List ℝ} {Qs : List Arrs} : Requested scores st → getQhat st alphas = .ok (Qs, st') → Requested scores st'

theorem store_spec (f : ℝ → Arrs) : ∀ (as : List ℝ) (c : ℝ → Option Arrs) (a : ℝ), store f as c a = if a ∈ as then some (f a) else c a
  | [], c, a => by simp [store]
  | b :: as, c, a => by
    rw [store, store_spec f as]
    by_cases h : a ∈ as
    · simp [h]
    · by_cases hb : a = b
      · subst hb; simp [h]
      · simp [h, hb, Function.update_of_ne hb]

theorem requested_spec {scores : Arrs} {st : State} (h : Requested scores st) : st.scores = some scores ∧
    ∀ a Q, st.cache a = some Q → ∃ n, samples scores = .ok n ∧ Q = quantTree scores n a := by
  induction h with
  | fresh => exact ⟨rfl, fun a Q h => by cases h⟩
  | @request st st' alphas Qs _ h ih =>
    classical
    obtain ⟨h1, h2⟩ := ih
    unfold getQhat at h
    split at h
    · cases h
    · rw [h1] at h
      simp only at h
      split at h
      · cases h; exact ⟨h1, h2⟩
      · split at h
        · cases h
        · rename_i n hn
          cases h
          refine ⟨rfl, fun a Q hQ => ?_⟩
          simp only at hQ
          rw [store_spec] at hQ
          split at hQ
          · cases hQ; exact ⟨n, hn, rfl⟩
          · exact h2 a Q hQ

/-- **C49 (the cache is invisible).** After any history of requests since the calibration, a request is answered exactly as by a wrapper without cache, and the answer to
each level is the one it would get alone. -/
theorem C49_requests (scores : Arrs) (st : State) (h : Requested scores st) (hne : ∃ n, samples scores = .ok n) (alphas : List ℝ) :
    (getQhat st alphas).map Prod.fst = (getQhat (fresh scores) alphas).map Prod.fst ∧
    ∀ Qs st', getQhat st alphas = .ok (Qs, st') → Qs.length = alphas.length ∧ ∀ (j : Nat) (α : ℝ), alphas[j]? = some α →
      ∃ Q st'', Qs[j]? = some Q ∧ getQhat (fresh scores) [α] = .ok ([Q], st'') := by
  classical
  obtain ⟨n, hn⟩ := hne
  obtain ⟨h1, h2⟩ := requested_spec h
  have key : ∀ a, (st.cache a).getD (quantTree scores n a) = quantTree scores n a := by
    intro a
    cases hc : st.cache a with
    | none => rfl
    | some Q =>
      obtain ⟨n', hn', rfl⟩ := h2 a Q hc
      rw [hn] at hn'
      cases hn'
      rfl
  by_cases hα : alphas.any (fun a => decide (a ≤ 0 ∨ 1 ≤ a)) = true
  · have e : ∀ s, getQhat s alphas = .error .valueError := fun s => by unfold getQhat; rw [if_pos hα]
    refine ⟨by rw [e, e], fun Qs st' h => by rw [e] at h; cases h⟩
  · have ha : ∀ a ∈ alphas, 0 < a ∧ a < 1 := by
      simpa [List.any_eq_false, not_or, not_le] using hα
    have e : ∃ st', getQhat st alphas = .ok (alphas.map (quantTree scores n), st') := by
      unfold getQhat
      rw [if_neg hα, h1]
      simp only
      split
      · rename_i hnew
        refine ⟨st, ?_⟩
        congr 2
        refine List.map_congr_left fun a ha => ?_
        have : (st.cache a).isNone = false := by
          by_contra hc
          have : a ∈ alphas.filter fun a => (st.cache a).isNone := List.mem_filter.2 ⟨ha, by simpa using hc⟩
          rw [hnew] at this
          cases this
        have hk := key a
        cases hc : st.cache a with
        | none => rw [hc] at this; cases this
        | some Q => rw [hc] at hk; exact hk
      · rw [hn]
        refine ⟨⟨st.scores, store (quantTree scores n) (alphas.filter fun a => (st.cache a).isNone) st.cache⟩, ?_⟩
        rw [← h1]
        simp only [key]
    obtain ⟨s1, e1⟩ := e
    obtain ⟨s2, e2⟩ := getQhat_fresh hn ha
    refine ⟨by rw [e1, e2]; rfl, fun Qs st' h => ?_⟩
    rw [e1] at h
    cases h
    refine ⟨by simp, fun j α hj => ?_⟩
    obtain ⟨s3, e3⟩ := getQhat_fresh hn (alphas := [α]) (by
      intro a ha'
      rw [List.mem_singleton] at ha'
      subst ha'
      exact ha a (List.mem_of_getElem? hj))
    exact ⟨quantTree scores n α, s3, by rw [List.getElem?_map, hj]; rfl, e3⟩

example : ∃ st st' Q, Requested demoScores st ∧ getQhat (fresh demoScores) [1 / 2] = .ok ([Q], st) ∧ st' = st := by
  obtain ⟨st, h⟩ := getQhat_fresh (scores := demoScores) (n := 3) rfl (alphas := [1 / 2]) (by
    intro a ha; rw [List.mem_singleton] at ha; subst ha; norm_num)
  exact ⟨st, st, _, .request .fresh h, h, rfl⟩

/-- What a successful request answers to its `j`-th level. -/
theorem requested_answer {scores : Arrs} {n : Nat} (hn : samples scores = .ok n) {st st' : State} (h : Requested scores st) {as : List ℝ} {Qs : List Arrs}
    (hg : getQhat st as = .ok (Qs, st')) {j : Nat} {α : ℝ} (hj : as[j]? = some α) : Qs[j]? = some (quantTree scores n α) := by
  obtain ⟨Q, st'', hQ, hf⟩ := ((C49_requests scores st h ⟨n, hn⟩ as).2 Qs st' hg).2 j α hj
  by_cases hα : 0 < α ∧ α < 1
  · obtain ⟨s3, e3⟩ := getQhat_fresh hn (alphas := [α]) (by simpa using hα)
    rw [e3] at hf
    cases hf
    exact hQ
  · have : getQhat (fresh scores) [α] = .error .valueError := by
      unfold getQhat
      rw [if_pos]
      simp only [List.any_cons, List.any_nil, Bool.or_false, decide_eq_true_eq]
      by_contra hc
      rw [not_or, not_le, not_le] at hc
      exact hα hc
    rw [this] at hf
    cases hf

/-- **C48 (monotone).** Whatever was requested before, a smaller `α` (higher confidence) never gets a smaller quantile: the answers to two levels of two
requests to the calibrated wrapper compare the other way round, for every output. -/
theorem C48_monotone (scores : Arrs) (n : Nat) (hn : 0 < n) (hf : Finite scores n) (st₁ st₂ st₁' st₂' : State) (r₁ : Requested scores st₁)
    (r₂ : Requested scores st₂) (as₁ as₂ : List ℝ) (Qs₁ Qs₂ : List Arrs) (g₁ : getQhat st₁ as₁ = .ok (Qs₁, st₁')) (g₂ : getQhat st₂ as₂ = .ok (Qs₂, st₂'))
    (j₁ j₂ : Nat) (α β : ℝ) (hα : as₁[j₁]? = some α) (hβ : as₂[j₂]? = some β) (h : α ≤ β) (p : List ForwardSpec.Step) (s : NArr (Option ℝ))
    (hs : At scores p s) : ∃ Q₁ Q₂ a b, Qs₁[j₁]? = some Q₁ ∧ Qs₂[j₂]? = some Q₂ ∧ At Q₁ p a ∧ At Q₂ p b ∧
      ∀ i, InB s.shape.tail i → ∃ x y, a.val i = some x ∧ b.val i = some y ∧ y ≤ x := by
  have hm := samples_of hf ⟨p, s, hs⟩
  obtain ⟨a, b, ha, hb, hv⟩ := quantTree_monotone scores n hn hf α β h p s hs
  exact ⟨_, _, a, b, requested_answer hm r₁ g₁ hα, requested_answer hm r₂ g₂ hβ, ha, hb, hv⟩

/-- Two requests one after the other, to levels 1/2 and 3/4. -/
example : ∃ st st' Q Q', Requested demoScores (fresh demoScores) ∧ Requested demoScores st ∧ getQhat (fresh demoScores) [1 / 2] = .ok ([Q], st) ∧
    getQhat st [3 / 4] = .ok ([Q'], st') ∧ (1 / 2 : ℝ) ≤ 3 / 4 := by
  obtain ⟨st, h⟩ := getQhat_fresh (scores := demoScores) (n := 3) rfl (alphas := [1 / 2]) (by
    intro a ha; rw [List.mem_singleton] at ha; subst ha; norm_num)
  obtain ⟨s2, h2⟩ := getQhat_fresh (scores := demoScores) (n := 3) rfl (alphas := [3 / 4]) (by
    intro a ha; rw [List.mem_singleton] at ha; subst ha; norm_num)
  have := (C49_requests demoScores st (.request .fresh h) ⟨3, rfl⟩ [3 / 4]).1
  rw [h2] at this
  cases hg : getQhat st [3 / 4] with
  | error e => rw [hg] at this; cases this
  | ok r =>
    rw [hg] at this
    obtain ⟨Qs, st'⟩ := r
    simp only [Except.map, List.map_cons, List.map_nil] at this
    injection this with this
    subst this
    exact ⟨st, st', _, _, .fresh, .request .fresh h, h, hg, by norm_num⟩

/-- **C49 refuted after a second calibration.** A level that was requested before a second calibration is answered with the quantile of the first scores, whatever the new
scores are. -/
theorem C49_recalibration_refuted (old new : Arrs) (n : Nat) (hn : samples old = .ok n) (α : ℝ) (h0 : 0 < α) (h1 : α < 1) :
    ∃ Q st st', getQhat (fresh old) [α] = .ok ([Q], st) ∧ getQhat (calibrated st new) [α] = .ok ([Q], st') := by
  classical
  have hα : ¬ ([α].any (fun a => decide (a ≤ 0 ∨ 1 ≤ a)) = true) := by simp [h0, h1]
  refine ⟨quantTree old n α, ⟨some old, store (quantTree old n) [α] fun _ => Option.none⟩,
    calibrated ⟨some old, store (quantTree old n) [α] fun _ => Option.none⟩ new, ?_, ?_⟩
  · unfold getQhat
    rw [if_neg hα]
    simp [fresh, hn]
  · unfold getQhat
    rw [if_neg hα]
    have hc : (calibrated ⟨some old, store (quantTree old n) [α] fun _ => Option.none⟩ new).cache α = some (quantTree old n α) := by
      show store (quantTree old n) [α] (fun _ => Option.none) α = _
      rw [store_spec]
      simp
    simp only [calibrated] at hc ⊢
    simp [hc]

/-- The quantile of the second calibration is another one. -/
example : ∃ old new : Arrs, samples old = .ok 1 ∧ samples new = .ok 1 ∧ quantTree old 1 (1 / 2) ≠ quantTree new 1 (1 / 2) := by
  refine ⟨.leaf ⟨[1, 1], fun _ => some 1⟩, .leaf ⟨[1, 1], fun _ => some 2⟩, rfl, rfl, fun h => ?_⟩
  have h' : Tree.leaf (quantLeaf (level 1 (1 / 2)) ⟨[1, 1], fun _ => some 1⟩) = Tree.leaf (quantLeaf (level 1 (1 / 2)) ⟨[1, 1], fun _ => some 2⟩) := h
  have hv := congrFun (congrArg NArr.val (Tree.leaf.inj h')) [0]
  have e : ∀ c : ℝ, (quantLeaf (level 1 (1 / 2)) ⟨[1, 1], fun _ => some c⟩).val [0] = some c := by
    intro c
    have : column (⟨[1, 1], fun _ => some c⟩ : NArr (Option ℝ)) [0] = [c].map some := rfl
    show quantO (column (⟨[1, 1], fun _ => some c⟩ : NArr (Option ℝ)) [0]) _ = _
    rw [this, quantO_some, quant_eq (by simp)]
    simp [interp, seq, clamp]
  rw [e, e] at hv
  norm_num at hv

end Verif.Props
