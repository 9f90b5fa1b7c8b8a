import Verif.Lemmas.ConfUnits

/-!
# C115: prediction intervals from calibration to answer; other units, another order
-/

namespace Verif.Props
open Verif.Tree Verif.ForwardSpec Verif.NdSpec Verif.Conformal Verif.ConfUnits Verif.UnitsSpec NArr

/-- **C115 (value).** Calibrating a new wrapper and asking it for an interval at a level between 0 and 1 succeeds if the data fit together. The answer has the structure
of the targets and the shapes of the predictions. At output `i` of sample `k` it is the prediction plus the median residual of this output (if corrections are on), minus and plus
the heuristic of the sample times the `⌈(n+1)(1-α)⌉/n`-quantile of `|corrected residual| / heuristic` over the `n` calibration samples of the same output and no other. -/
theorem C115_interval (bias : Bool) (n m : Nat) (Y Yp u Z v : Arrs) (h : Together n m Y Yp u Z v) (α : ℝ) (h0 : 0 < α) (h1 : α < 1) :
    ∃ c lo hi, calibrate bias Y Yp u = .ok c ∧ predict c Z v α = .ok (lo, hi) ∧ KeysOk lo ∧ KeysOk hi ∧
      map (fun _ => ()) lo.norm = map (fun _ => ()) Y.norm ∧ map (fun _ => ()) hi.norm = map (fun _ => ()) Y.norm ∧
      ∀ p y z w c d, At Y p y → At Yp p z → At u p w → At Z p c → At v p d → ∃ l r, At lo p l ∧ At hi p r ∧ l.shape = c.shape ∧ r.shape = c.shape ∧
        ∀ k i, InB c.shape (k :: i) →
          l.val (k :: i) = bound (· - ·) bias n y.val z.val w.val α i (c.val (k :: i)) (d.val (k :: i)) ∧
          r.val (k :: i) = bound (· + ·) bias n y.val z.val w.val α i (c.val (k :: i)) (d.val (k :: i)) := by
  obtain ⟨st, lo, hi, g1, g2, S, sh, hl, hh, hZ, rfl⟩ := whole bias h ⟨h0, h1⟩
  obtain ⟨kY, kYp, ku, kZ, kv⟩ := h.keys
  refine ⟨st, lo, hi, g1, g2, hl.keys, hh.keys, hl.struct, hh.struct, fun p y z w c d hy hz hw hc hd => ?_⟩
  obtain ⟨l, pl⟩ := place hZ.struct hl.struct hc
  obtain ⟨r, pr⟩ := place hZ.struct hh.struct hc
  have ec := (hZ.arr p c hc).1
  obtain ⟨el, vl⟩ := hl.arr p l pl
  obtain ⟨er, vr⟩ := hh.arr p r pr
  refine ⟨l, r, pl, pr, el.trans ec.symm, er.trans ec.symm, fun k i hi => ?_⟩
  rw [ec] at hi
  rw [vl _ hi, vr _ hi, valOf_at kY hy, valOf_at kYp hz, valOf_at ku hw, valOf_at kZ hc, valOf_at kv hd]
  exact ⟨rfl, rfl⟩

/-- **C115 (units and order).** State the targets and predictions of every output in other units (`a * · + b` with `a > 0`), scale the heuristic of every output by a positive
factor, and give the calibration samples in another order: the new intervals are the old ones in the new units. So neither the units of the targets, nor the scale of
the heuristic, nor the order of the calibration samples matter. Entries that are not finite are allowed. -/
theorem C115_units (bias : Bool) (n m : Nat) (Y Yp u Z v Y' Yp' u' Z' v' : Arrs) (h : Together n m Y Yp u Z v) (h' : Together n m Y' Yp' u' Z' v')
    (hs : map (fun _ => ()) Y'.norm = map (fun _ => ()) Y.norm) (a b c : List ForwardSpec.Step → List Nat → ℝ) (ha : ∀ p i, 0 < a p i) (hc : ∀ p i, 0 < c p i)
    (σ : Nat → Nat) (hσ : Rearranges n σ)
    (rY : ∀ p x x', At Y p x → At Y' p x' → Restates (a p) (b p) σ x x') (rYp : ∀ p x x', At Yp p x → At Yp' p x' → Restates (a p) (b p) σ x x')
    (ru : ∀ p x x', At u p x → At u' p x' → Restates (c p) (fun _ => 0) σ x x')
    (rZ : ∀ p x x', At Z p x → At Z' p x' → Restates (a p) (b p) id x x') (rv : ∀ p x x', At v p x → At v' p x' → Restates (c p) (fun _ => 0) id x x')
    (α : ℝ) (h0 : 0 < α) (h1 : α < 1) :
    ∃ w w' lo hi lo' hi', calibrate bias Y Yp u = .ok w ∧ predict w Z v α = .ok (lo, hi) ∧
      calibrate bias Y' Yp' u' = .ok w' ∧ predict w' Z' v' α = .ok (lo', hi') ∧
      map (fun _ => ()) lo'.norm = map (fun _ => ()) lo.norm ∧ map (fun _ => ()) hi'.norm = map (fun _ => ()) hi.norm ∧
      (∀ p x x', At lo p x → At lo' p x' → Restates (a p) (b p) id x x') ∧ ∀ p x x', At hi p x → At hi' p x' → Restates (a p) (b p) id x x' := by
  obtain ⟨w, lo, hi, g1, g2, kl, kh, sl, sh, g⟩ := C115_interval bias n m Y Yp u Z v h α h0 h1
  obtain ⟨w', lo', hi', g1', g2', kl', kh', sl', sh', g'⟩ := C115_interval bias n m Y' Yp' u' Z' v' h' α h0 h1
  refine ⟨w, w', lo, hi, lo', hi', g1, g2, g1', g2', sl'.trans (hs.trans sl.symm), sh'.trans (hs.trans sh.symm), ?_⟩
  have main : ∀ p y, At Y p y → ∃ l l' r r', At lo p l ∧ At lo' p l' ∧ At hi p r ∧ At hi' p r' ∧ Restates (a p) (b p) id l l' ∧ Restates (a p) (b p) id r r' := by
    intro p y hy
    obtain ⟨z, hz⟩ := place rfl (h.struct Yp (by simp)) hy
    obtain ⟨x, hx⟩ := place rfl (h.struct u (by simp)) hy
    obtain ⟨q, hq⟩ := place rfl (h.struct Z (by simp)) hy
    obtain ⟨d, hd⟩ := place rfl (h.struct v (by simp)) hy
    obtain ⟨y', hy'⟩ := place rfl hs hy
    obtain ⟨z', hz'⟩ := place rfl (h'.struct Yp' (by simp)) hy'
    obtain ⟨x', hx'⟩ := place rfl (h'.struct u' (by simp)) hy'
    obtain ⟨q', hq'⟩ := place rfl (h'.struct Z' (by simp)) hy'
    obtain ⟨d', hd'⟩ := place rfl (h'.struct v' (by simp)) hy'
    obtain ⟨l, r, pl, pr, el, er, vals⟩ := g p y z x q d hy hz hx hq hd
    obtain ⟨l', r', pl', pr', el', er', vals'⟩ := g' p y' z' x' q' d' hy' hz' hx' hq' hd'
    obtain ⟨s, s1, s2, s3⟩ := h.shapes p y hy
    have sz := s2 Yp (by simp) z hz
    have sx := s2 u (by simp) x hx
    have sq := s3 Z (by simp) q hq
    have sd := s3 v (by simp) d hd
    have rq := rZ p q q' hq hq'
    have rd := rv p d d' hd hd'
    have both : ∀ k i, InB q.shape (k :: i) → l'.val (k :: i) = (l.val (k :: i)).map (fun t => a p i * t + b p i) ∧
        r'.val (k :: i) = (r.val (k :: i)).map fun t => a p i * t + b p i := by
      intro k i hi
      have hi' : InB s i := by rw [sq] at hi; exact (inB_cons.1 hi).2
      obtain ⟨e1, e2⟩ := vals k i hi
      obtain ⟨e1', e2'⟩ := vals' k i (by rw [rq.shape]; exact hi)
      have hY := fun k (hk : k < n) => (rY p y y' hy hy').vals k i (by rw [s1]; exact inB_cons.2 ⟨hk, hi'⟩)
      have hYp := fun k (hk : k < n) => (rYp p z z' hz hz').vals k i (by rw [sz]; exact inB_cons.2 ⟨hk, hi'⟩)
      have hu := fun k (hk : k < n) => (ru p x x' hx hx').vals k i (by rw [sx]; exact inB_cons.2 ⟨hk, hi'⟩)
      have fq := rq.vals k i hi
      have fd := rd.vals k i (by rw [sd, ← sq]; exact hi)
      rw [e1', e2', e1, e2, fq, fd]
      exact ⟨bound_follows hσ (ha p i) (hc p i) hY hYp hu (· - ·) (fun x t => by ring) bias α _ _,
        bound_follows hσ (ha p i) (hc p i) hY hYp hu (· + ·) (fun x t => by ring) bias α _ _⟩
    refine ⟨l, l', r, r', pl, pl', pr, pr', ⟨by rw [el', el, rq.shape], fun k i hi => ?_⟩, ⟨by rw [er', er, rq.shape], fun k i hi => ?_⟩⟩
    · exact (both k i (by rw [← el]; exact hi)).1
    · exact (both k i (by rw [← er]; exact hi)).2
  constructor
  · intro p x x' hx hx'
    obtain ⟨y, hy⟩ := place sl rfl hx
    obtain ⟨l, l', r, r', q1, q2, -, -, q3, -⟩ := main p y hy
    rw [at_unique kl hx q1, at_unique kl' hx' q2]
    exact q3
  · intro p x x' hx hx'
    obtain ⟨y, hy⟩ := place sh rfl hx
    obtain ⟨l, l', r, r', -, -, q1, q2, -, q3⟩ := main p y hy
    rw [at_unique kh hx q1, at_unique kh' hx' q2]
    exact q3

/-- An array of one output in a dictionary, for the examples. -/
def oneArr (n : Nat) (f : Nat → ℝ) : Arrs := .dict [(['y'], .leaf ⟨[n, 1], fun i => some (f (i.headD 0))⟩)]

theorem oneArr_at {n : Nat} {f : Nat → ℝ} {p : List ForwardSpec.Step} {x : NArr (Option ℝ)} (h : At (oneArr n f) p x) :
    x = ⟨[n, 1], fun i => some (f (i.headD 0))⟩ := by
  unfold oneArr at h
  cases h with
  | dict h1 h2 =>
    simp only [List.mem_singleton, Prod.mk.injEq] at h1
    obtain ⟨rfl, rfl⟩ := h1
    cases h2
    rfl

theorem oneArr_together (n m : Nat) (f1 f2 f3 f4 f5 : Nat → ℝ) :
    Together n m (oneArr n f1) (oneArr n f2) (oneArr n f3) (oneArr m f4) (oneArr m f5) := by
  have hk : ∀ n f, KeysOk (oneArr n f) := fun n f => by simp [oneArr, KeysOk, KeysOkD]
  refine ⟨⟨hk _ _, hk _ _, hk _ _, hk _ _, hk _ _⟩, fun t ht => ?_, ⟨_, _, .dict (List.mem_singleton.2 rfl) (.leaf _)⟩, fun p y hy => ⟨[1], by rw [oneArr_at hy], fun t ht x hx => ?_, fun t ht x hx => ?_⟩⟩
  · simp only [List.mem_cons, List.not_mem_nil, or_false] at ht
    rcases ht with rfl | rfl | rfl | rfl <;> rfl
  · simp only [List.mem_cons, List.not_mem_nil, or_false] at ht
    rcases ht with rfl | rfl <;> rw [oneArr_at hx]
  · simp only [List.mem_cons, List.not_mem_nil, or_false] at ht
    rcases ht with rfl | rfl <;> rw [oneArr_at hx]

theorem oneArr_restates (n : Nat) (f : Nat → ℝ) (a b : ℝ) (σ : Nat → Nat) (p : List ForwardSpec.Step) (x x' : NArr (Option ℝ))
    (h : At (oneArr n f) p x) (h' : At (oneArr n fun r => a * f (σ r) + b) p x') : Restates (fun _ => a) (fun _ => b) σ x x' := by
  rw [oneArr_at h, oneArr_at h']
  exact ⟨rfl, fun _ _ _ => rfl⟩

/-- Three calibration samples and two new ones. -/
example : ∃ c lo hi, calibrate true (oneArr 3 fun k => k ^ 2) (oneArr 3 fun k => k) (oneArr 3 fun k => k + 1) = .ok c ∧
    predict c (oneArr 2 fun k => k) (oneArr 2 fun _ => 2) (1 / 2) = .ok (lo, hi) := by
  obtain ⟨c, lo, hi, h1, h2, -⟩ := C115_interval true 3 2 _ _ _ _ _ (oneArr_together 3 2 (fun k => k ^ 2) (fun k => k) (fun k => k + 1) (fun k => k) fun _ => 2)
    (1 / 2) (by norm_num) (by norm_num)
  exact ⟨c, lo, hi, h1, h2⟩

/-- The same data in degrees Fahrenheit with a doubled heuristic and the calibration samples reversed. -/
example (bias : Bool) (α : ℝ) (h0 : 0 < α) (h1 : α < 1) (y z w c d : Nat → ℝ) : ∃ s s' lo hi lo' hi',
    calibrate bias (oneArr 3 y) (oneArr 3 z) (oneArr 3 w) = .ok s ∧ predict s (oneArr 2 c) (oneArr 2 d) α = .ok (lo, hi) ∧
    calibrate bias (oneArr 3 fun k => 9 / 5 * y (2 - k) + 32) (oneArr 3 fun k => 9 / 5 * z (2 - k) + 32) (oneArr 3 fun k => 2 * w (2 - k) + 0) = .ok s' ∧
    predict s' (oneArr 2 fun k => 9 / 5 * c (id k) + 32) (oneArr 2 fun k => 2 * d (id k) + 0) α = .ok (lo', hi') ∧
    ∀ p x x', At lo p x → At lo' p x' → Restates (fun _ => 9 / 5) (fun _ => 32) id x x' := by
  obtain ⟨s, s', lo, hi, lo', hi', e1, e2, e3, e4, -, -, e5, -⟩ := C115_units bias 3 2 _ _ _ _ _ _ _ _ _ _ (oneArr_together 3 2 y z w c d)
    (oneArr_together 3 2 (fun k => 9 / 5 * y (2 - k) + 32) (fun k => 9 / 5 * z (2 - k) + 32) (fun k => 2 * w (2 - k) + 0) (fun k => 9 / 5 * c (id k) + 32)
      fun k => 2 * d (id k) + 0) rfl (fun _ _ => 9 / 5) (fun _ _ => 32) (fun _ _ => 2) (fun _ _ => by norm_num) (fun _ _ => by norm_num) (fun r => 2 - r)
    ⟨fun r hr => by omega, fun r hr t ht e => by omega⟩ (fun p => oneArr_restates 3 y _ _ (fun r => 2 - r) p) (fun p => oneArr_restates 3 z _ _ (fun r => 2 - r) p)
    (fun p => oneArr_restates 3 w _ _ (fun r => 2 - r) p) (fun p => oneArr_restates 2 c _ _ id p) (fun p => oneArr_restates 2 d _ _ id p) α h0 h1
  exact ⟨s, s', lo, hi, lo', hi', e1, e2, e3, e4, e5⟩

end Verif.Props
