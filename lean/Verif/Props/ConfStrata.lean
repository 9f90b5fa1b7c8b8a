import Verif.Lemmas.ConfStrata
import Verif.Props.ConfUnits
import Mathlib.Tactic.IntervalCases

/-!
# C115: prediction intervals with stratified corrections
-/

namespace Verif.Props
open Verif.Tree Verif.ForwardSpec Verif.NdSpec Verif.Conformal Verif.ConfUnits Verif.UnitsSpec NArr

/-- Calibration sample `c` of `Xc` counts for sample `k` of `X`: something is flagged and the flagged features are the same. -/
def Counts (flags : Tree Bool) (Xc X : Tree (NArr ℝ)) (c k : Nat) : Prop := (∃ p, At flags p true) ∧ SameStratum flags Xc X c k

/-- **C115 (stratified).** With stratified corrections, for outputs of sample shape `(1,)` (others are refused, C53): the interval of a sample is its prediction plus the median
residual of the calibration samples with the same flagged features, if there is one, minus and plus its heuristic times the `⌈(n+1)(1-α)⌉/n`-quantile of the scores, in which every
calibration sample is corrected by the median of its own stratum. -/
theorem C115_stratified (flags : Tree Bool) (Xc X : Tree (NArr ℝ)) (n m : Nat) (Y Yp u Z v : Arrs) (h : Together n m Y Yp u Z v) (hY : ∀ p y, At Y p y → y.shape = [n, 1])
    (hXc : Stratifiable flags Xc n) (hX : Stratifiable flags X m) (hsh : ∀ p xc x, At Xc p xc → At X p x → x.shape.tail = xc.shape.tail) (α : ℝ) (h0 : 0 < α) (h1 : α < 1) :
    ∃ c lo hi, calibrateStrata flags Xc Y Yp u = .ok c ∧ predictStrata flags c X Z v α = .ok (lo, hi) ∧ KeysOk lo ∧ KeysOk hi ∧
      map (fun _ => ()) lo.norm = map (fun _ => ()) Y.norm ∧ map (fun _ => ()) hi.norm = map (fun _ => ()) Y.norm ∧
      ∀ p y z w c d, At Y p y → At Yp p z → At u p w → At Z p c → At v p d → ∃ l r, At lo p l ∧ At hi p r ∧ l.shape = [m, 1] ∧ r.shape = [m, 1] ∧
        ∀ k < m,
          l.val [k, 0] = boundS (· - ·) n (Counts flags Xc Xc) (fun c => Counts flags Xc X c k) (fun j => y.val [j, 0]) (fun j => z.val [j, 0]) (fun j => w.val [j, 0]) α
            (c.val [k, 0]) (d.val [k, 0]) ∧
          r.val [k, 0] = boundS (· + ·) n (Counts flags Xc Xc) (fun c => Counts flags Xc X c k) (fun j => y.val [j, 0]) (fun j => z.val [j, 0]) (fun j => w.val [j, 0]) α
            (c.val [k, 0]) (d.val [k, 0]) := by
  obtain ⟨st, lo, hi, g1, g2, S, hb, hZ, rfl⟩ := whole_strata h hY hXc hX hsh ⟨h0, h1⟩
  obtain ⟨kY, kYp, ku, kZ, kv⟩ := h.keys
  have hl := hb (· - ·) lo (.inl ⟨rfl, rfl⟩)
  have hh := hb (· + ·) hi (.inr ⟨rfl, rfl⟩)
  refine ⟨st, lo, hi, g1, g2, hl.keys, hh.keys, hl.struct, hh.struct, fun p y z w c d hy hz hw hc hd => ?_⟩
  obtain ⟨l, pl⟩ := place hZ.struct hl.struct hc
  obtain ⟨r, pr⟩ := place hZ.struct hh.struct hc
  obtain ⟨el, vl⟩ := hl.arr p l pl
  obtain ⟨er, vr⟩ := hh.arr p r pr
  refine ⟨l, r, pl, pr, el, er, fun k hk => ?_⟩
  have hi : InB [m, 1] [k, 0] := inB_cons.2 ⟨hk, inB_cons.2 ⟨Nat.zero_lt_one, rfl, by simp⟩⟩
  rw [vl _ hi, vr _ hi, valOf_at kY hy, valOf_at kYp hz, valOf_at ku hw, valOf_at kZ hc, valOf_at kv hd]
  exact ⟨rfl, rfl⟩

/-- **C115 (stratified: units, order and coding).** The intervals in other units, with another scale of the heuristic, with the calibration samples in another order and with the
features coded differently are the old ones in the new units, as long as the same samples agree in their flagged features. So of the features only matters which samples share them. -/
theorem C115_stratified_units (flags flags' : Tree Bool) (Xc X Xc' X' : Tree (NArr ℝ)) (n m : Nat) (Y Yp u Z v Y' Yp' u' Z' v' : Arrs) (h : Together n m Y Yp u Z v)
    (h' : Together n m Y' Yp' u' Z' v') (hs : map (fun _ => ()) Y'.norm = map (fun _ => ()) Y.norm) (hY : ∀ p y, At Y p y → y.shape = [n, 1])
    (hXc : Stratifiable flags Xc n) (hX : Stratifiable flags X m) (hsh : ∀ p xc x, At Xc p xc → At X p x → x.shape.tail = xc.shape.tail)
    (hXc' : Stratifiable flags' Xc' n) (hX' : Stratifiable flags' X' m) (hsh' : ∀ p xc x, At Xc' p xc → At X' p x → x.shape.tail = xc.shape.tail)
    (a b c : List ForwardSpec.Step → List Nat → ℝ) (ha : ∀ p i, 0 < a p i) (hc : ∀ p i, 0 < c p i) (σ : Nat → Nat) (hσ : Rearranges n σ)
    (sc : ∀ k < n, ∀ j < n, Counts flags' Xc' Xc' k j ↔ Counts flags Xc Xc (σ k) (σ j)) (sn : ∀ k < n, ∀ j < m, Counts flags' Xc' X' k j ↔ Counts flags Xc X (σ k) j)
    (rY : ∀ p x x', At Y p x → At Y' p x' → Restates (a p) (b p) σ x x') (rYp : ∀ p x x', At Yp p x → At Yp' p x' → Restates (a p) (b p) σ x x')
    (ru : ∀ p x x', At u p x → At u' p x' → Restates (c p) (fun _ => 0) σ x x')
    (rZ : ∀ p x x', At Z p x → At Z' p x' → Restates (a p) (b p) id x x') (rv : ∀ p x x', At v p x → At v' p x' → Restates (c p) (fun _ => 0) id x x')
    (α : ℝ) (h0 : 0 < α) (h1 : α < 1) :
    ∃ w w' lo hi lo' hi', calibrateStrata flags Xc Y Yp u = .ok w ∧ predictStrata flags w X Z v α = .ok (lo, hi) ∧
      calibrateStrata flags' Xc' Y' Yp' u' = .ok w' ∧ predictStrata flags' w' X' Z' v' α = .ok (lo', hi') ∧
      map (fun _ => ()) lo'.norm = map (fun _ => ()) lo.norm ∧ map (fun _ => ()) hi'.norm = map (fun _ => ()) hi.norm ∧
      (∀ p x x', At lo p x → At lo' p x' → Restates (a p) (b p) id x x') ∧ ∀ p x x', At hi p x → At hi' p x' → Restates (a p) (b p) id x x' := by
  have hY' : ∀ p y, At Y' p y → y.shape = [n, 1] := fun p y' hy' => by
    obtain ⟨y, hy⟩ := place hs rfl hy'
    rw [(rY p y y' hy hy').shape, hY p y hy]
  obtain ⟨w, lo, hi, g1, g2, kl, kh, sl, sh, g⟩ := C115_stratified flags Xc X n m Y Yp u Z v h hY hXc hX hsh α h0 h1
  obtain ⟨w', lo', hi', g1', g2', kl', kh', sl', sh', g'⟩ := C115_stratified flags' Xc' X' n m Y' Yp' u' Z' v' h' hY' hXc' hX' hsh' α h0 h1
  refine ⟨w, w', lo, hi, lo', hi', g1, g2, g1', g2', sl'.trans (hs.trans sl.symm), sh'.trans (hs.trans sh.symm), ?_⟩
  have main : ∀ p y, At Y p y → ∃ l l' r r', At lo p l ∧ At lo' p l' ∧ At hi p r ∧ At hi' p r' ∧ Restates (a p) (b p) id l l' ∧ Restates (a p) (b p) id r r' := by
    intro p y hy
    obtain ⟨z, hz⟩ := place rfl (h.struct Yp (by simp)) hy
    obtain ⟨x, hx⟩ := place rfl (h.struct u (by simp)) hy
    obtain ⟨q, hq⟩ := place rfl (h.struct Z (by simp)) hy
    obtain ⟨d, hd⟩ := place rfl (h.struct v (by simp)) hy
    obtain ⟨y', hy'⟩ := place rfl hs hy
    obtain ⟨z', hz'⟩ := place rfl (h'.struct Yp' (by simp)) hy'
    obtain ⟨x', hx'⟩ := place rfl (h'.struct u' (by simp)) hy'
    obtain ⟨q', hq'⟩ := place rfl (h'.struct Z' (by simp)) hy'
    obtain ⟨d', hd'⟩ := place rfl (h'.struct v' (by simp)) hy'
    obtain ⟨l, r, pl, pr, el, er, vals⟩ := g p y z x q d hy hz hx hq hd
    obtain ⟨l', r', pl', pr', el', er', vals'⟩ := g' p y' z' x' q' d' hy' hz' hx' hq' hd'
    obtain ⟨s, s1, s2, s3⟩ := h.shapes p y hy
    have s0 : s = [1] := by have := hY p y hy; rw [s1] at this; exact (List.cons.inj this).2
    subst s0
    have sz := s2 Yp (by simp) z hz
    have sx := s2 u (by simp) x hx
    have sq := s3 Z (by simp) q hq
    have sd := s3 v (by simp) d hd
    have inb : ∀ {N k : Nat}, k < N → InB [N, 1] [k, 0] := fun hk => inB_cons.2 ⟨hk, inB_cons.2 ⟨Nat.zero_lt_one, rfl, by simp⟩⟩
    have both : ∀ k i, InB [m, 1] (k :: i) → l'.val (k :: i) = (l.val (k :: i)).map (fun t => a p i * t + b p i) ∧
        r'.val (k :: i) = (r.val (k :: i)).map fun t => a p i * t + b p i := by
      intro k i hi
      obtain ⟨k', hk, e⟩ := inB_one hi
      obtain ⟨rfl, rfl⟩ := List.cons.inj e
      obtain ⟨e1, e2⟩ := vals k hk
      obtain ⟨e1', e2'⟩ := vals' k hk
      have vY := fun k (hk : k < n) => (rY p y y' hy hy').vals k [0] (by rw [s1]; exact inb hk)
      have vYp := fun k (hk : k < n) => (rYp p z z' hz hz').vals k [0] (by rw [sz]; exact inb hk)
      have vu := fun k (hk : k < n) => (ru p x x' hx hx').vals k [0] (by rw [sx]; exact inb hk)
      have fq := (rZ p q q' hq hq').vals k [0] (by rw [sq]; exact inb hk)
      have fd := (rv p d d' hd hd').vals k [0] (by rw [sd]; exact inb hk)
      rw [e1', e2', e1, e2, fq, fd]
      exact ⟨boundS_follows hσ (ha p [0]) (hc p [0]) vY vYp vu (· - ·) (fun x t => by ring) sc (fun j hj => sn j hj k hk) α _ _,
        boundS_follows hσ (ha p [0]) (hc p [0]) vY vYp vu (· + ·) (fun x t => by ring) sc (fun j hj => sn j hj k hk) α _ _⟩
    refine ⟨l, l', r, r', pl, pl', pr, pr', ⟨by rw [el', el], fun k i hi => ?_⟩, ⟨by rw [er', er], fun k i hi => ?_⟩⟩
    · rw [el] at hi; exact (both k i hi).1
    · rw [er] at hi; exact (both k i hi).2
  constructor
  · intro p x x' hx hx'
    obtain ⟨y, hy⟩ := place sl rfl hx
    obtain ⟨l, l', r, r', q1, q2, -, -, q3, -⟩ := main p y hy
    rw [at_unique kl hx q1, at_unique kl' hx' q2]
    exact q3
  · intro p x x' hx hx'
    obtain ⟨y, hy⟩ := place sh rfl hx
    obtain ⟨l, l', r, r', -, -, q1, q2, -, q3⟩ := main p y hy
    rw [at_unique kh hx q1, at_unique kh' hx' q2]
    exact q3

/-- Three calibration samples with the features 0, 0, 1 and two new samples with the features 0 and 5. -/
example : ∃ c lo hi, calibrateStrata (.leaf true) (demoStrata [0, 0, 1]) (oneArr 3 fun k => k ^ 2) (oneArr 3 fun k => k) (oneArr 3 fun k => k + 1) = .ok c ∧
    predictStrata (.leaf true) c (demoStrata [0, 5]) (oneArr 2 fun k => k) (oneArr 2 fun _ => 2) (1 / 2) = .ok (lo, hi) := by
  obtain ⟨c, lo, hi, h1, h2, -⟩ := C115_stratified (.leaf true) (demoStrata [0, 0, 1]) (demoStrata [0, 5]) 3 2 _ _ _ _ _
    (oneArr_together 3 2 (fun k => k ^ 2) (fun k => k) (fun k => k + 1) (fun k => k) fun _ => 2) (fun p y hy => by rw [oneArr_at hy]) (demoStrata_ok [0, 0, 1])
    (demoStrata_ok [0, 5]) (fun p xc x h1 h2 => by cases h1; cases h2; rfl) (1 / 2) (by norm_num) (by norm_num)
  exact ⟨c, lo, hi, h1, h2⟩

theorem demo_counts (xs ys : List ℝ) (c k : Nat) : Counts (.leaf true) (demoStrata xs) (demoStrata ys) c k ↔ xs.getD c 0 = ys.getD k 0 := by
  constructor
  · rintro ⟨-, h⟩
    exact h [] _ _ (.leaf _) (.leaf _) (.leaf _) [0] (inB_cons.2 ⟨Nat.zero_lt_one, rfl, by simp⟩)
  · intro h
    refine ⟨⟨[], .leaf _⟩, fun p xc x h1 h2 h3 i _ => ?_⟩
    cases h2
    cases h3
    exact h

/-- The same samples reversed, with the features 7, 9, 9 instead of 1, 0, 0: the hypotheses about the features are met. -/
example : (∀ k < 3, ∀ j < 3, Counts (.leaf true) (demoStrata [7, 9, 9]) (demoStrata [7, 9, 9]) k j ↔
      Counts (.leaf true) (demoStrata [0, 0, 1]) (demoStrata [0, 0, 1]) (2 - k) (2 - j)) ∧
    (∀ k < 3, ∀ j < 2, Counts (.leaf true) (demoStrata [7, 9, 9]) (demoStrata [9, 8]) k j ↔ Counts (.leaf true) (demoStrata [0, 0, 1]) (demoStrata [0, 5]) (2 - k) j) ∧
    ¬ Counts (.leaf true) (demoStrata [7, 9, 9]) (demoStrata [9, 8]) 0 0 ∧ Counts (.leaf true) (demoStrata [7, 9, 9]) (demoStrata [9, 8]) 1 0 := by
  simp only [demo_counts]
  refine ⟨fun k hk j hj => ?_, fun k hk j hj => ?_, by norm_num, by norm_num⟩
  · interval_cases k <;> interval_cases j <;> norm_num
  · interval_cases k <;> interval_cases j <;> norm_num

end Verif.Props
