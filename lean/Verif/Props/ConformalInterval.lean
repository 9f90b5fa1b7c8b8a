import Verif.Props.Conformal

/-!
# C50, C52: intervals and scores
-/

namespace Verif.Props
open Verif.Tree Verif.ForwardSpec Verif.NdSpec Verif.Conformal Verif.Quantile NArr

variable {A B C : Type}

/-- The entry of an array that belongs to output `i` of sample `k`: arrays of shape `s` are the same for all samples. -/
def entryAt (x : NArr A) (s : List Nat) (k : Nat) (i : List Nat) : A := if x.shape = s then x.val i else x.val (k :: i)

theorem ble_tail (b : Nat) (s : List Nat) : BLe s (b :: s) := by
  unfold BLe
  rw [List.reverse_cons]
  exact bleR_append _ _

theorem bshape_tail (b : Nat) (s : List Nat) : bshape s (b :: s) = some (b :: s) := by
  obtain ⟨q, h1, h2⟩ := bshapeRev_sup (ble_tail b s) (bleR_refl _)
  have := bleR_antisymm h2 (bshapeRev_le h1).2
  unfold bshape
  rw [h1, this, Option.map_some, List.reverse_reverse]

theorem bidx_row {s i : List Nat} {b k : Nat} (hi : InB (b :: s) (k :: i)) : bidx s (k :: i) = i := by
  have hlen : i.length = s.length := by have := hi.1; simpa using this
  have : InB s i := (inB_cons.1 hi).2
  have e : bidx s (k :: i) = bidx s i := by
    unfold bidx
    rw [List.length_cons, hlen, Nat.sub_self, List.drop_zero, Nat.add_sub_cancel_left]
    rfl
  rw [e, bidx_self this]

theorem bop_rows (f : A → B → C) (x : NArr A) (y : NArr B) {b : Nat} {s : List Nat} (hx : x.shape = b :: s ∨ x.shape = s)
    (hy : y.shape = b :: s ∨ y.shape = s) (h : x.shape = b :: s ∨ y.shape = b :: s) :
    ∃ z, bop f x y = .ok z ∧ z.shape = b :: s ∧ ∀ k i, InB (b :: s) (k :: i) → z.val (k :: i) = f (entryAt x s k i) (entryAt y s k i) := by
  have hne : ∀ (b : Nat) (s : List Nat), b :: s ≠ s := fun b s e => by have := congrArg List.length e; simp at this
  have hs : bshape x.shape y.shape = some (b :: s) := by
    rcases hx with hx | hx <;> rcases hy with hy | hy <;> rw [hx, hy]
    · exact bshape_self _
    · exact bshape_of_le (ble_tail b s)
    · exact bshape_tail b s
    · rw [hx, hy] at h
      rcases h with h | h <;> exact absurd h.symm (hne b s)
  refine ⟨⟨b :: s, fun i => f (x.val (bidx x.shape i)) (y.val (bidx y.shape i))⟩, ?_, rfl, fun k i hi => ?_⟩
  · unfold bop; rw [hs]
  · simp only
    have key : ∀ {D : Type} (w : NArr D), (w.shape = b :: s ∨ w.shape = s) → w.val (bidx w.shape (k :: i)) = entryAt w s k i := by
      intro D w hw
      unfold entryAt
      rcases hw with hw | hw
      · rw [if_neg (by rw [hw]; exact hne b s), hw, bidx_self hi]
      · rw [if_pos hw, hw, bidx_row hi]
    rw [key x hx, key y hy]

/-- A leafwise operation on trees of the same structure whose arrays can be combined. -/
theorem bin_total (f : A → B → C) {t : Tree (NArr A)} {u : Tree (NArr B)} (hu : KeysOk u)
    (hs : map (fun _ => ()) t.norm = map (fun _ => ()) u.norm) (hb : ∀ p x y, At t p x → At u p y → ∃ z, bop f x y = .ok z) :
    ∃ r, TreeArith.bin f t u = .ok r ∧ map (fun _ => ()) r = map (fun _ => ()) t.norm ∧
      ∀ p x y, At t p x → At u p y → ∃ z, At r p z ∧ bop f x y = .ok z := by
  unfold TreeArith.bin
  rw [if_pos ((sameStruct_iff _ _).2 hs)]
  refine jaxMap_two (R := fun _ (x : NArr A) (y : NArr B) (z : NArr C) => bop f x y = .ok z) hu hs (fun x vs w hw => ?_) fun p x y hx hy => ?_
  · obtain ⟨y, z, -, -, rfl⟩ := bin_leaf hw
    exact ⟨z, rfl⟩
  · obtain ⟨z, hz⟩ := hb p x y hx hy
    exact ⟨z, by simp only [hz], hz⟩

/-- Predictions, heuristic and quantiles that fit together: the same structure, arrays of shape `(b, s…)` and quantiles of shape `s`. -/
structure Fits (Y u q : Arrs) : Prop where
  keysY : KeysOk Y
  keysU : KeysOk u
  keysQ : KeysOk q
  structU : map (fun _ => ()) Y.norm = map (fun _ => ()) u.norm
  structQ : map (fun _ => ()) Y.norm = map (fun _ => ()) q.norm
  shapes : ∀ p y w c, At Y p y → At u p w → At q p c → ∃ b, y.shape = b :: c.shape ∧ w.shape = b :: c.shape

/-- **C50 (intervals).** The interval is centred at the prediction: at output `i` of sample `k` it is `y ± q·u` with the quantile of this output and the heuristic of this
sample, so the halves are equal; it contains the prediction if quantile and heuristic are nonnegative. Structure and shapes are those of the prediction. -/
theorem C50_interval (Y u q : Arrs) (h : Fits Y u q) : ∃ lo hi, interval Y u q = .ok (lo, hi) ∧
    map (fun _ => ()) lo = map (fun _ => ()) Y.norm ∧ map (fun _ => ()) hi = map (fun _ => ()) Y.norm ∧
    ∀ p y w c, At Y p y → At u p w → At q p c → ∃ l r, At lo p l ∧ At hi p r ∧ l.shape = y.shape ∧ r.shape = y.shape ∧
      ∀ k i, InB y.shape (k :: i) → ∀ a d e, y.val (k :: i) = some a → w.val (k :: i) = some d → c.val i = some e →
        l.val (k :: i) = some (a - e * d) ∧ r.val (k :: i) = some (a + e * d) ∧ (0 ≤ e → 0 ≤ d → a - e * d ≤ a ∧ a ≤ a + e * d) := by
  have hqu : map (fun _ => ()) q.norm = map (fun _ => ()) u.norm := h.structQ.symm.trans h.structU
  have place : ∀ {A B : Type} {t : Tree A} {v : Tree B}, map (fun _ => ()) t.norm = map (fun _ => ()) v.norm → ∀ {p a}, At t p a → ∃ b, At v p b := by
    intro A B t v hs p a ha
    obtain ⟨b, hb⟩ := Scalers.at_of_struct hs (at_norm.2 ha)
    exact ⟨b, at_norm.1 hb⟩
  obtain ⟨m, m1, m2, m3⟩ := bin_total (Loss.lift2 ((· * ·) : ℝ → ℝ → ℝ)) h.keysU hqu (fun p c w hc hw => by
    obtain ⟨y, hy⟩ := place h.structQ.symm hc
    obtain ⟨b, -, e2⟩ := h.shapes p y w c hy hw hc
    obtain ⟨z, hz, -⟩ := bop_rows (Loss.lift2 ((· * ·) : ℝ → ℝ → ℝ)) c w (.inr rfl) (.inl e2) (.inr e2)
    exact ⟨z, hz⟩)
  have hkm : KeysOk m := keysOk_of_struct m2 (keysOk_norm' h.keysQ)
  have hmn : map (fun _ => ()) m.norm = map (fun _ => ()) q.norm := by
    rw [← norm_map, m2, norm_map, norm_norm h.keysQ]
  have hYm : map (fun _ => ()) Y.norm = map (fun _ => ()) m.norm := h.structQ.trans hmn.symm
  have full : ∀ p y w c, At Y p y → At u p w → At q p c → ∃ z, At m p z ∧ z.shape = y.shape ∧
      ∀ k i, InB y.shape (k :: i) → z.val (k :: i) = Loss.lift2 (· * ·) (c.val i) (w.val (k :: i)) := by
    intro p y w c hy hw hc
    obtain ⟨b, e1, e2⟩ := h.shapes p y w c hy hw hc
    obtain ⟨z, hz, hz'⟩ := m3 p c w hc hw
    obtain ⟨z', g1, g2, g3⟩ := bop_rows (Loss.lift2 ((· * ·) : ℝ → ℝ → ℝ)) c w (b := b) (s := c.shape) (.inr rfl) (.inl e2) (.inr e2)
    rw [hz'] at g1
    cases g1
    refine ⟨z, hz, by rw [g2, e1], fun k i hi => ?_⟩
    rw [e1] at hi
    rw [g3 k i hi]
    unfold entryAt
    rw [if_pos rfl, if_neg (by rw [e2]; intro e; have := congrArg List.length e; simp at this)]
  have combine : ∀ f : Option ℝ → Option ℝ → Option ℝ, ∃ r, TreeArith.bin f Y m = .ok r ∧ map (fun _ => ()) r = map (fun _ => ()) Y.norm ∧
      ∀ p y w c, At Y p y → At u p w → At q p c → ∃ z, At r p z ∧ z.shape = y.shape ∧
        ∀ k i, InB y.shape (k :: i) → z.val (k :: i) = f (y.val (k :: i)) (Loss.lift2 (· * ·) (c.val i) (w.val (k :: i))) := by
    intro f
    obtain ⟨r, r1, r2, r3⟩ := bin_total f (t := Y) hkm hYm (fun p y z hy hz => by
      obtain ⟨w, hw⟩ := place h.structU hy
      obtain ⟨c, hc⟩ := place h.structQ hy
      obtain ⟨z', g1, g2, -⟩ := full p y w c hy hw hc
      rw [at_unique hkm hz g1]
      unfold bop
      rw [g2, bshape_self]
      exact ⟨_, rfl⟩)
    refine ⟨r, r1, r2, fun p y w c hy hw hc => ?_⟩
    obtain ⟨z, g1, g2, g3⟩ := full p y w c hy hw hc
    obtain ⟨v, hv, hv'⟩ := r3 p y z hy g1
    have := elementwise_same (bop_elementwise hv') g2.symm
    exact ⟨v, hv, this.1, fun k i hi => by rw [this.2 _ hi, g3 k i hi]⟩
  obtain ⟨lo, l1, l2, l3⟩ := combine (Loss.lift2 (· - ·))
  obtain ⟨hi', u1, u2, u3⟩ := combine (Loss.lift2 (· + ·))
  refine ⟨lo, hi', ?_, l2, u2, fun p y w c hy hw hc => ?_⟩
  · unfold interval TreeArith.mul TreeArith.sub TreeArith.add
    rw [m1]
    simp only
    rw [l1]
    simp only
    rw [u1]
  · obtain ⟨l, hl, hls, hlv⟩ := l3 p y w c hy hw hc
    obtain ⟨r, hr, hrs, hrv⟩ := u3 p y w c hy hw hc
    refine ⟨l, r, hl, hr, hls, hrs, fun k i hi a d e ha hd he => ?_⟩
    rw [hlv k i hi, hrv k i hi, ha, hd, he]
    refine ⟨rfl, rfl, fun h1 h2 => ?_⟩
    have := mul_nonneg h1 h2
    constructor <;> linarith

/-- The intervals of two quantiles of the same scores. -/
theorem quantTree_nested (Y u scores : Arrs) (n : Nat) (hn : 0 < n) (hf : Finite scores n) (α β : ℝ) (hαβ : α ≤ β)
    (hα : Fits Y u (quantTree scores n α)) (hβ : Fits Y u (quantTree scores n β)) (lo₁ hi₁ lo₂ hi₂ : Arrs)
    (h1 : interval Y u (quantTree scores n α) = .ok (lo₁, hi₁)) (h2 : interval Y u (quantTree scores n β) = .ok (lo₂, hi₂))
    (p : List ForwardSpec.Step) (y w s : NArr (Option ℝ)) (hy : At Y p y) (hw : At u p w) (hs : At scores p s) (k : Nat) (i : List Nat)
    (hi : InB y.shape (k :: i)) (a d : ℝ) (ha : y.val (k :: i) = some a) (hd : w.val (k :: i) = some d) (hd0 : 0 ≤ d) :
    ∃ l₁ r₁ l₂ r₂ x₁ y₁ x₂ y₂, At lo₁ p l₁ ∧ At hi₁ p r₁ ∧ At lo₂ p l₂ ∧ At hi₂ p r₂ ∧ l₁.val (k :: i) = some x₁ ∧ r₁.val (k :: i) = some y₁ ∧
      l₂.val (k :: i) = some x₂ ∧ r₂.val (k :: i) = some y₂ ∧ x₁ ≤ x₂ ∧ y₂ ≤ y₁ := by
  obtain ⟨qa, qb, ga, gb, gm⟩ := quantTree_monotone scores n hn hf α β hαβ p s hs
  have hsh : qa.shape = s.shape.tail ∧ qb.shape = s.shape.tail := by
    have ua := at_unique hα.keysQ ga (show At (quantTree scores n α) p _ from at_map.2 ⟨s, at_norm.2 hs, rfl⟩)
    have ub := at_unique hβ.keysQ gb (show At (quantTree scores n β) p _ from at_map.2 ⟨s, at_norm.2 hs, rfl⟩)
    rw [ua, ub]
    exact ⟨rfl, rfl⟩
  obtain ⟨b, e1, -⟩ := hα.shapes p y w qa hy hw ga
  have hi' : InB s.shape.tail i := by
    rw [e1, hsh.1] at hi
    exact (inB_cons.1 hi).2
  obtain ⟨ea, eb, v1, v2, hle⟩ := gm i hi'
  obtain ⟨A, B, i1, -, -, i4⟩ := C50_interval Y u _ hα
  rw [h1] at i1
  cases i1
  obtain ⟨A, B, j1, -, -, j4⟩ := C50_interval Y u _ hβ
  rw [h2] at j1
  cases j1
  obtain ⟨l₁, r₁, a1, a2, -, -, a3⟩ := i4 p y w qa hy hw ga
  obtain ⟨l₂, r₂, b1, b2, -, -, b3⟩ := j4 p y w qb hy hw gb
  obtain ⟨c1, c2, -⟩ := a3 k i hi a d ea ha hd v1
  obtain ⟨d1, d2, -⟩ := b3 k i hi a d eb ha hd v2
  refine ⟨l₁, r₁, l₂, r₂, _, _, _, _, a1, a2, b1, b2, c1, c2, d1, d2, ?_, ?_⟩ <;> nlinarith

/-- Two test samples for the demonstration scores. -/
def demoPred : Arrs := .leaf ⟨[2, 1], fun i => some (i.getD 0 0 : Nat)⟩

theorem demoPred_fits (α : ℝ) : Fits demoPred demoPred (quantTree demoScores 3 α) := by
  refine ⟨by simp [KeysOk, demoPred], by simp [KeysOk, demoPred], by simp [KeysOk, demoScores, quantTree, Tree.norm, Tree.map], rfl, rfl, fun p y w c hy hw hc => ?_⟩
  cases hy
  cases hw
  cases hc
  exact ⟨2, rfl, rfl⟩

/-- **C50 (nesting).** For the same wrapper, whatever was requested before, a smaller `α` gives an interval that contains the one of a larger `α`, wherever the heuristic is
nonnegative. -/
theorem C50_nested (Y u scores : Arrs) (n : Nat) (hn : 0 < n) (hf : Finite scores n) (st₁ st₂ st₁' st₂' : State) (r₁ : Requested scores st₁)
    (r₂ : Requested scores st₂) (as₁ as₂ : List ℝ) (Qs₁ Qs₂ : List Arrs) (g₁ : getQhat st₁ as₁ = .ok (Qs₁, st₁')) (g₂ : getQhat st₂ as₂ = .ok (Qs₂, st₂'))
    (j₁ j₂ : Nat) (α β : ℝ) (hjα : as₁[j₁]? = some α) (hjβ : as₂[j₂]? = some β) (hαβ : α ≤ β) (Qα Qβ : Arrs) (qα : Qs₁[j₁]? = some Qα) (qβ : Qs₂[j₂]? = some Qβ)
    (hα : Fits Y u Qα) (hβ : Fits Y u Qβ) (lo₁ hi₁ lo₂ hi₂ : Arrs)
    (h1 : interval Y u Qα = .ok (lo₁, hi₁)) (h2 : interval Y u Qβ = .ok (lo₂, hi₂))
    (p : List ForwardSpec.Step) (y w s : NArr (Option ℝ)) (hy : At Y p y) (hw : At u p w) (hs : At scores p s) (k : Nat) (i : List Nat)
    (hi : InB y.shape (k :: i)) (a d : ℝ) (ha : y.val (k :: i) = some a) (hd : w.val (k :: i) = some d) (hd0 : 0 ≤ d) :
    ∃ l₁ e₁ l₂ e₂ x₁ y₁ x₂ y₂, At lo₁ p l₁ ∧ At hi₁ p e₁ ∧ At lo₂ p l₂ ∧ At hi₂ p e₂ ∧ l₁.val (k :: i) = some x₁ ∧ e₁.val (k :: i) = some y₁ ∧
      l₂.val (k :: i) = some x₂ ∧ e₂.val (k :: i) = some y₂ ∧ x₁ ≤ x₂ ∧ y₂ ≤ y₁ := by
  have hm := samples_of hf ⟨p, s, hs⟩
  have e1 := requested_answer hm r₁ g₁ hjα
  have e2 := requested_answer hm r₂ g₂ hjβ
  rw [qα] at e1
  rw [qβ] at e2
  cases e1
  cases e2
  exact quantTree_nested Y u scores n hn hf α β hαβ hα hβ lo₁ hi₁ lo₂ hi₂ h1 h2 p y w s hy hw hs k i hi a d ha hd hd0

/-- The answer of the calibrated wrapper fits two test samples. -/
example : ∃ Q st, getQhat (fresh demoScores) [1 / 2] = .ok ([Q], st) ∧ Fits demoPred demoPred Q := by
  obtain ⟨st, h⟩ := getQhat_fresh (scores := demoScores) (n := 3) rfl (alphas := [1 / 2]) (by
    intro a ha; rw [List.mem_singleton] at ha; subst ha; norm_num)
  exact ⟨_, st, h, demoPred_fits (1 / 2)⟩

/-- **C52 (scores).** The scores have the structure and the shapes of the targets, one for every output of every calibration sample; where the heuristic is positive the score is
`|target − prediction| / heuristic`, so it is nonnegative and multiplying it by the heuristic gives back the size of the residual. -/
theorem C52_scores (Y Yp u : Arrs) (hY : KeysOk Y) (hYp : KeysOk Yp) (hu : KeysOk u) (s1 : map (fun _ => ()) Y.norm = map (fun _ => ()) Yp.norm)
    (s2 : map (fun _ => ()) Y.norm = map (fun _ => ()) u.norm) (hsh : ∀ p y z w, At Y p y → At Yp p z → At u p w → z.shape = y.shape ∧ w.shape = y.shape) :
    ∃ S, scoresOf Y Yp u = .ok S ∧ map (fun _ => ()) S = map (fun _ => ()) Y.norm ∧
      ∀ p y z w, At Y p y → At Yp p z → At u p w → ∃ sc, At S p sc ∧ sc.shape = y.shape ∧
        ∀ i, InB y.shape i → ∀ a b d, y.val i = some a → z.val i = some b → w.val i = some d →
          (0 < d → ∃ v, sc.val i = some v ∧ 0 ≤ v ∧ v * d = |a - b|) ∧ (d = 0 → sc.val i = Option.none) := by
  have place : ∀ {A B : Type} {t : Tree A} {v : Tree B}, map (fun _ => ()) t.norm = map (fun _ => ()) v.norm → ∀ {p a}, At t p a → ∃ b, At v p b := by
    intro A B t v hs p a ha
    obtain ⟨b, hb⟩ := Scalers.at_of_struct hs (at_norm.2 ha)
    exact ⟨b, at_norm.1 hb⟩
  obtain ⟨r, r1, r2, r3⟩ := bin_total (Loss.lift2 ((· - ·) : ℝ → ℝ → ℝ)) (t := Y) hYp s1 (fun p y z hy hz => by
    obtain ⟨w, hw⟩ := place s2 hy
    unfold bop
    rw [(hsh p y z w hy hz hw).1, bshape_self]
    exact ⟨_, rfl⟩)
  have hkr : KeysOk r := keysOk_of_struct r2 (keysOk_norm' hY)
  have hrn : map (fun _ => ()) r.norm = map (fun _ => ()) Y.norm := by rw [← norm_map, r2, norm_map, norm_norm hY]
  have habs : ∀ {p x}, At (TreeArith.abs r) p x ↔ ∃ v, At r p v ∧ uop (Option.map fun x : ℝ => ‖x‖) v = x := by
    intro p x
    unfold TreeArith.abs TreeArith.una
    rw [at_map]
    simp only [at_norm]
  obtain ⟨S, q1, q2, q3⟩ := bin_total (Loss.fdiv (𝕜 := ℝ)) (t := TreeArith.abs r) hu (by
      unfold TreeArith.abs TreeArith.una
      rw [← norm_map, map_map, norm_map, norm_norm hkr, hrn, s2]) (fun p x w hx hw => by
    obtain ⟨v, hv, rfl⟩ := habs.1 hx
    obtain ⟨y, hy⟩ := place hrn hv
    obtain ⟨z, hz⟩ := place s1 hy
    obtain ⟨v', hv', hb⟩ := r3 p y z hy hz
    have e := (elementwise_same (bop_elementwise hb) (hsh p y z w hy hz hw).1.symm).1
    rw [at_unique hkr hv hv']
    unfold bop
    show ∃ z, (match bshape v'.shape w.shape with
      | Option.none => Except.error PyErr.typeError
      | some s => Except.ok _) = Except.ok z
    rw [e, (hsh p y z w hy hz hw).2, bshape_self]
    exact ⟨_, rfl⟩)
  refine ⟨S, ?_, ?_, fun p y z w hy hz hw => ?_⟩
  · unfold scoresOf TreeArith.sub TreeArith.div
    rw [r1]
    exact q1
  · rw [q2]
    unfold TreeArith.abs TreeArith.una
    rw [← norm_map, map_map, norm_map, norm_norm hkr, hrn]
  · obtain ⟨v, hv, hb⟩ := r3 p y z hy hz
    obtain ⟨e1, e2⟩ := elementwise_same (bop_elementwise hb) (hsh p y z w hy hz hw).1.symm
    obtain ⟨sc, hsc, hb'⟩ := q3 p _ w (habs.2 ⟨v, hv, rfl⟩) hw
    obtain ⟨g1, g2⟩ := elementwise_same (bop_elementwise hb') (show v.shape = w.shape by rw [e1, (hsh p y z w hy hz hw).2])
    refine ⟨sc, hsc, g1.trans e1, fun i hi a b d ha hb2 hd => ?_⟩
    have e3 : sc.val i = Loss.fdiv (some |a - b|) (some d) := by
      rw [g2 i (by show InB v.shape i; rw [e1]; exact hi), hd]
      show Loss.fdiv ((v.val i).map fun x : ℝ => ‖x‖) _ = _
      rw [e2 i hi, ha, hb2]
      rfl
    constructor
    · intro h
      refine ⟨|a - b| / d, ?_, by positivity, by field_simp⟩
      rw [e3]
      simp [Loss.fdiv, h.ne']
    · intro h
      rw [e3]
      simp [Loss.fdiv, h]

example : ∃ S, scoresOf demoPred demoPred demoPred = .ok S :=
  (C52_scores demoPred demoPred demoPred (by simp [KeysOk, demoPred]) (by simp [KeysOk, demoPred]) (by simp [KeysOk, demoPred]) rfl rfl
    (fun p y z w hy hz hw => by cases hy; cases hz; cases hw; exact ⟨rfl, rfl⟩)).elim fun S h => ⟨S, h.1⟩

end Verif.Props
