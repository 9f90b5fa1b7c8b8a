import Verif.Lemmas.Units

/-! # The scaled data depends neither on the units nor on the order of the samples (C111) -/

namespace Verif.Props
open Verif.Tree Verif.Scalers Verif.NdSpec Verif.ForwardSpec Verif.Loss Verif.NArr Verif.ScalerSpec Verif.UnitsSpec Verif.Units
open Verif.Quantile

/-- What `transform` of a standard scaler does at one place. -/
theorem std_at {X0 X Y : Tree RArr} {s : Std} (h0 : KeysOk X0) (hfit : Std.fit X0 = .ok s) (ht : s.transform X = .ok Y)
    {p : List Step} {x0 x : RArr} (hx0 : At X0 p x0) (hx : At X p x) :
    ∃ y, At Y p y ∧ y.shape = x.shape ∧ ∀ i, InB x.shape i →
      y.val i = fdiv (lift2 (· - ·) (x.val i) (rd (stat0 meanL x0) i)) (rd (stat0 stdL x0) i) := by
  obtain ⟨-, e1, e2⟩ := std_stats hfit
  obtain ⟨-, m, sc, e1', e2', hj⟩ := std_transform ht
  rw [e1] at e1'; cases e1'
  rw [e2] at e2'; cases e2'
  obtain ⟨vs, w, -, hsub, hw, hs⟩ := jaxMap_at hj hx
  obtain ⟨m, s', z, hvs, rfl, sz, -, -, vz⟩ := stdFwd_ok hw
  obtain ⟨rfl, rfl⟩ := stats_at h0 hx0 hvs hsub
  exact ⟨z, sub_leaf.1 hs, sz, vz⟩

/-- What `inverse_transform` of a standard scaler does at one place. -/
theorem std_inverse_at {X0 Z W : Tree RArr} {s : Std} (h0 : KeysOk X0) (hfit : Std.fit X0 = .ok s) (ht : s.inverse Z = .ok W)
    {p : List Step} {x0 z : RArr} (hx0 : At X0 p x0) (hz : At Z p z) :
    ∃ w, At W p w ∧ w.shape = z.shape ∧ ∀ i, InB z.shape i →
      w.val i = lift2 (· + ·) (lift2 (· * ·) (z.val i) (rd (stat0 stdL x0) i)) (rd (stat0 meanL x0) i) := by
  obtain ⟨-, e1, e2⟩ := std_stats hfit
  unfold Std.inverse at ht
  rw [e1, e2] at ht
  split at ht
  case isFalse => cases ht
  obtain ⟨vs, w, -, hsub, hw, hs⟩ := jaxMap_at ht hz
  obtain ⟨m, s', w', hvs, rfl, sw, vw⟩ := stdBwd_ok hw
  obtain ⟨rfl, rfl⟩ := stats_at h0 hx0 hvs hsub
  exact ⟨w', sub_leaf.1 hs, sw, vw⟩

/-- **C111** A standard scaler fitted to the same samples in another order and in other units scales the same data, again in other
units and in any order of the rows, to the same numbers, row for row: at every place of every tree, for every feature, constant ones
and such with entries that are not numbers included. -/
theorem C111_standard (X0 X0' X X' Y Y' : Tree RArr) (h0 : KeysOk X0) (h0' : KeysOk X0') (s s' : Std) (hfit : Std.fit X0 = .ok s)
    (hfit' : Std.fit X0' = .ok s') (ht : s.transform X = .ok Y) (ht' : s'.transform X' = .ok Y') (p : List Step)
    (x0 x0' x x' : RArr) (hx0 : At X0 p x0) (hx0' : At X0' p x0') (hx : At X p x) (hx' : At X' p x')
    (htail : x.shape.tail = x0.shape.tail) (a b : List Nat → ℝ) (ha : ∀ j, 0 < a j) (σ τ : Nat → Nat)
    (hσ : Rearranges (x0.shape.headD 0) σ) (hτ : Rearranges (x.shape.headD 0) τ) (hr0 : Restates a b σ x0 x0')
    (hr : Restates a b τ x x') : ∃ y y', At Y p y ∧ At Y' p y' ∧ SameRows τ y y' := by
  obtain ⟨y, hy, sy, vy⟩ := std_at h0 hfit ht hx0 hx
  obtain ⟨y', hy', sy', vy'⟩ := std_at h0' hfit' ht' hx0' hx'
  refine ⟨y, y', hy, hy', by rw [sy', hr.shape, sy], fun r j hi => ?_⟩
  rw [sy] at hi
  have hj : InB x0.shape.tail j := by rw [← htail]; exact inB_tail hi
  have hi' : InB x.shape (τ r :: j) := inB_of_row (inB_tail hi) (hτ.below r (headD_of_inB hi))
  rw [vy' _ (by rw [hr.shape]; exact hi), vy _ hi', hr.vals r j hi,
    rd_follows (t := τ r) hr0 hσ hj fun l m h => meanL_follows (a j) (b j) l m h,
    rd_follows (t := τ r) hr0 hσ hj fun l m h => stdL_follows (a j) (b j) (ha j) l m h]
  exact std_quotient (ha j) _ _ _

/-- **C111** The way back gives the other units: what `inverse_transform` makes of scaled values is restated in the units the scaler
was fitted in. -/
theorem C111_standard_back (X0 X0' Z Z' W W' : Tree RArr) (h0 : KeysOk X0) (h0' : KeysOk X0') (s s' : Std) (hfit : Std.fit X0 = .ok s)
    (hfit' : Std.fit X0' = .ok s') (ht : s.inverse Z = .ok W) (ht' : s'.inverse Z' = .ok W') (p : List Step)
    (x0 x0' z z' : RArr) (hx0 : At X0 p x0) (hx0' : At X0' p x0') (hz : At Z p z) (hz' : At Z' p z')
    (htail : z.shape.tail = x0.shape.tail) (a b : List Nat → ℝ) (ha : ∀ j, 0 < a j) (σ τ : Nat → Nat)
    (hσ : Rearranges (x0.shape.headD 0) σ) (hτ : Rearranges (z.shape.headD 0) τ) (hr0 : Restates a b σ x0 x0')
    (hr : SameRows τ z z') : ∃ w w', At W p w ∧ At W' p w' ∧ Restates a b τ w w' := by
  obtain ⟨w, hw, sw, vw⟩ := std_inverse_at h0 hfit ht hx0 hz
  obtain ⟨w', hw', sw', vw'⟩ := std_inverse_at h0' hfit' ht' hx0' hz'
  refine ⟨w, w', hw, hw', by rw [sw', hr.shape, sw], fun r j hi => ?_⟩
  rw [sw] at hi
  have hj : InB x0.shape.tail j := by rw [← htail]; exact inB_tail hi
  have hi' : InB z.shape (τ r :: j) := inB_of_row (inB_tail hi) (hτ.below r (headD_of_inB hi))
  rw [vw' _ (by rw [hr.shape]; exact hi), vw _ hi', hr.vals r j hi,
    rd_follows (t := τ r) hr0 hσ hj fun l m h => meanL_follows (a j) (b j) l m h,
    rd_follows (t := τ r) hr0 hσ hj fun l m h => stdL_follows (a j) (b j) (ha j) l m h]
  exact std_product _ _ _

/-! ### Min-max scaler -/

theorem bound_unique {b : Tree RArr} (hk : KeysOk b) {p : List Step} {v v' : Tree RArr} (h : BoundAt b p v) (h' : BoundAt b p v') :
    v = v' := by
  rcases h with ⟨a, e, hs, rfl⟩ | ⟨hn, h⟩
  · rcases h' with ⟨-, -, -, rfl⟩ | ⟨hn, -⟩
    · rfl
    · exact absurd hs (hn a e)
  · rcases h' with ⟨a, e, hs, rfl⟩ | ⟨-, h'⟩
    · exact absurd hs (hn a e)
    · exact sub_unique hk h h'

/-- The four arrays that reach one place. -/
theorem mm_args {X0 : Tree RArr} (h0 : KeysOk X0) {lo hi : Tree RArr} (hlo : KeysOk lo) (hhi : KeysOk hi) {vs : List (Tree RArr)}
    (hl : vs.length = 4) {p : List Step} {x0 mn mx : RArr} (hx0 : At X0 p x0)
    (hsub : ∀ (i : Nat) (u v : Tree RArr), [map (stat0 minL) X0.norm, map (stat0 maxL) X0.norm,
      spread lo (map (stat0 minL) X0.norm), spread hi (map (stat0 maxL) X0.norm)][i]? = some u → vs[i]? = some v → Sub u p v)
    (hmn : BoundAt lo p (.leaf mn)) (hmx : BoundAt hi p (.leaf mx)) :
    vs = [.leaf (stat0 minL x0), .leaf (stat0 maxL x0), .leaf mn, .leaf mx] := by
  have hk : ∀ f : RArr → RArr, KeysOk (map f X0.norm) := fun f => (keysOk_map _ _).2 (keysOk_norm' h0)
  match vs, hl with
  | [v1, v2, v3, v4], _ =>
  rw [← bound_unique hlo hmn (spread_sub (hk _) (at_stat hx0) (hsub 2 _ _ rfl rfl)),
    ← bound_unique hhi hmx (spread_sub (hk _) (at_stat hx0) (hsub 3 _ _ rfl rfl)),
    sub_unique (hk _) (hsub 0 _ _ rfl rfl) (sub_leaf.2 (at_stat hx0)), sub_unique (hk _) (hsub 1 _ _ rfl rfl) (sub_leaf.2 (at_stat hx0))]

/-- What `transform` of a min-max scaler does at one place with two bounds. -/
theorem mm_at {X0 X Y : Tree RArr} {s0 s : MinMax} (h0 : KeysOk X0) (hlo : KeysOk s0.minVal) (hhi : KeysOk s0.maxVal)
    (hfit : s0.fit X0 = .ok s) (ht : s.transform X = .ok Y) {p : List Step} {x0 x mn mx : RArr} (hx0 : At X0 p x0) (hx : At X p x)
    (hmn : BoundAt s0.minVal p (.leaf mn)) (hmx : BoundAt s0.maxVal p (.leaf mx)) :
    ∃ y, At Y p y ∧ y.shape = x.shape ∧ ∀ i, InB x.shape i →
      y.val i = lift2 (· + ·) (lift2 (· * ·) (fdiv (lift2 (· - ·) (x.val i) (rd (stat0 minL x0) i))
        (lift2 (· - ·) (rd (stat0 maxL x0) i) (rd (stat0 minL x0) i))) (lift2 (· - ·) (rd mx i) (rd mn i))) (rd mn i) := by
  obtain ⟨-, e1, e2, e3, e4⟩ := mm_stats hfit
  obtain ⟨-, dn, dx, e1', e2', hj⟩ := mm_transform ht
  rw [e1] at e1'; cases e1'
  rw [e2] at e2'; cases e2'
  rw [e3, e4] at hj
  obtain ⟨vs, w, hl, hsub, hw, hs⟩ := jaxMap_at hj hx
  rw [mm_args h0 hlo hhi hl hx0 hsub hmn hmx] at hw
  obtain ⟨z, rfl, sz, vz⟩ := mmFwd_ok hw
  exact ⟨z, sub_leaf.1 hs, sz, vz⟩

theorem mm_inverse_at {X0 Z W : Tree RArr} {s0 s : MinMax} (h0 : KeysOk X0) (hlo : KeysOk s0.minVal) (hhi : KeysOk s0.maxVal)
    (hfit : s0.fit X0 = .ok s) (ht : s.inverse Z = .ok W) {p : List Step} {x0 z mn mx : RArr} (hx0 : At X0 p x0) (hz : At Z p z)
    (hmn : BoundAt s0.minVal p (.leaf mn)) (hmx : BoundAt s0.maxVal p (.leaf mx)) :
    ∃ w, At W p w ∧ w.shape = z.shape ∧ ∀ i, InB z.shape i →
      w.val i = lift2 (· + ·) (lift2 (· * ·) (fdiv (lift2 (· - ·) (z.val i) (rd mn i)) (lift2 (· - ·) (rd mx i) (rd mn i)))
        (lift2 (· - ·) (rd (stat0 maxL x0) i) (rd (stat0 minL x0) i))) (rd (stat0 minL x0) i) := by
  obtain ⟨-, e1, e2, e3, e4⟩ := mm_stats hfit
  unfold MinMax.inverse at ht
  rw [e1, e2, e3, e4] at ht
  split at ht
  case isFalse => cases ht
  obtain ⟨vs, w, hl, hsub, hw, hs⟩ := jaxMap_at ht hz
  rw [mm_args h0 hlo hhi hl hx0 hsub hmn hmx] at hw
  obtain ⟨w', rfl, sw, vw⟩ := mmBwd_ok hw
  exact ⟨w', sub_leaf.1 hs, sw, vw⟩

/-- **C111** A min-max scaler fitted to the same samples in another order and in other units scales the same data in those units to
the same numbers: for all bounds, at every place where both are given (`None` leaves the data alone, C44). -/
theorem C111_minmax (s0 s s' : MinMax) (X0 X0' X X' Y Y' : Tree RArr) (h0 : KeysOk X0) (h0' : KeysOk X0') (hlo : KeysOk s0.minVal)
    (hhi : KeysOk s0.maxVal) (hfit : s0.fit X0 = .ok s) (hfit' : s0.fit X0' = .ok s') (ht : s.transform X = .ok Y)
    (ht' : s'.transform X' = .ok Y') (p : List Step) (x0 x0' x x' mn mx : RArr) (hx0 : At X0 p x0) (hx0' : At X0' p x0')
    (hx : At X p x) (hx' : At X' p x') (hmn : BoundAt s0.minVal p (.leaf mn)) (hmx : BoundAt s0.maxVal p (.leaf mx))
    (htail : x.shape.tail = x0.shape.tail) (a b : List Nat → ℝ) (ha : ∀ j, 0 < a j) (σ : Nat → Nat)
    (hσ : Rearranges (x0.shape.headD 0) σ) (hr0 : Restates a b σ x0 x0') (hr : Restates a b id x x') :
    ∃ y y', At Y p y ∧ At Y' p y' ∧ SameRows id y y' := by
  obtain ⟨y, hy, sy, vy⟩ := mm_at h0 hlo hhi hfit ht hx0 hx hmn hmx
  obtain ⟨y', hy', sy', vy'⟩ := mm_at h0' hlo hhi hfit' ht' hx0' hx' hmn hmx
  refine ⟨y, y', hy, hy', by rw [sy', hr.shape, sy], fun r j hi => ?_⟩
  rw [sy] at hi
  have hj : InB x0.shape.tail j := by rw [← htail]; exact inB_tail hi
  rw [vy' _ (by rw [hr.shape]; exact hi), id_eq, vy _ hi, hr.vals r j hi,
    rd_follows (t := r) hr0 hσ hj fun l m h => minL_follows (a j) (b j) (ha j) l m h,
    rd_follows (t := r) hr0 hσ hj fun l m h => maxL_follows (a j) (b j) (ha j) l m h, mm_quotient (ha j), id_eq]

/-- **C111** The way back gives the other units, for the min-max scaler. -/
theorem C111_minmax_back (s0 s s' : MinMax) (X0 X0' Z W W' : Tree RArr) (h0 : KeysOk X0) (h0' : KeysOk X0') (hlo : KeysOk s0.minVal)
    (hhi : KeysOk s0.maxVal) (hfit : s0.fit X0 = .ok s) (hfit' : s0.fit X0' = .ok s') (ht : s.inverse Z = .ok W)
    (ht' : s'.inverse Z = .ok W') (p : List Step) (x0 x0' z mn mx : RArr) (hx0 : At X0 p x0) (hx0' : At X0' p x0')
    (hz : At Z p z) (hmn : BoundAt s0.minVal p (.leaf mn)) (hmx : BoundAt s0.maxVal p (.leaf mx))
    (htail : z.shape.tail = x0.shape.tail) (a b : List Nat → ℝ) (ha : ∀ j, 0 < a j) (σ : Nat → Nat)
    (hσ : Rearranges (x0.shape.headD 0) σ) (hr0 : Restates a b σ x0 x0') :
    ∃ w w', At W p w ∧ At W' p w' ∧ Restates a b id w w' := by
  obtain ⟨w, hw, sw, vw⟩ := mm_inverse_at h0 hlo hhi hfit ht hx0 hz hmn hmx
  obtain ⟨w', hw', sw', vw'⟩ := mm_inverse_at h0' hlo hhi hfit' ht' hx0' hz hmn hmx
  refine ⟨w, w', hw, hw', by rw [sw', sw], fun r j hi => ?_⟩
  rw [sw] at hi
  have hj : InB x0.shape.tail j := by rw [← htail]; exact inB_tail hi
  rw [vw' _ hi, id_eq, vw _ hi,
    rd_follows (t := r) hr0 hσ hj fun l m h => minL_follows (a j) (b j) (ha j) l m h,
    rd_follows (t := r) hr0 hσ hj fun l m h => maxL_follows (a j) (b j) (ha j) l m h, mm_product]

/-! ### Robust scaler -/

theorem feature_restated {a b : ℝ} {σ : Nat → Nat} {n : Nat} (hσ : Rearranges n σ) (c : Nat → ℝ) :
    ((List.range n).map fun r => a * c (σ r) + b).Perm (((List.range n).map c).map fun v => a * v + b) := by
  have h := (range_perm hσ).map fun r => a * c r + b
  rw [List.map_map] at h
  rw [List.map_map]
  exact h

/-- **C111** The robust scaler, in the one case that works with default settings (C45: a bare array with one feature): as long as the
spread is above `eps` in both units, the scaled values are the same. -/
theorem C111_robust_partial (lo hi eps : ℝ) (he : 0 ≤ eps) (x0 x0' x x' : RArr) (n m k : Nat) (c : Nat → ℝ) (hn : 0 < n)
    (h0 : x0.shape = n :: List.replicate (k + 1) 1) (h0' : x0'.shape = n :: List.replicate (k + 1) 1)
    (hx : x.shape = m :: List.replicate (k + 1) 1) (hx' : x'.shape = m :: List.replicate (k + 1) 1)
    (a b : ℝ) (ha : 0 < a) (σ : Nat → Nat) (hσ : Rearranges n σ) (hf : Feature x0 (List.replicate (k + 1) 0) n c)
    (hf' : Feature x0' (List.replicate (k + 1) 0) n fun r => a * c (σ r) + b) (qa qb : ℝ)
    (ha' : quant ((List.range n).map c) lo = some qa) (hb' : quant ((List.range n).map c) hi = some qb) :
    ∃ s s' y y', (plain lo hi eps).fit (.leaf x0) = .ok s ∧ s.transform (.leaf x) = .ok (.leaf y) ∧
      (plain lo hi eps).fit (.leaf x0') = .ok s' ∧ s'.transform (.leaf x') = .ok (.leaf y') ∧
      ∀ r < m, ∀ v, x.val (r :: List.replicate (k + 1) 0) = some v → x'.val (r :: List.replicate (k + 1) 0) = some (a * v + b) →
        (eps < |qb - qa| → eps < a * |qb - qa| →
          y'.val (r :: List.replicate (k + 1) 0) = y.val (r :: List.replicate (k + 1) 0)) ∧
        (|qb - qa| ≤ eps → a * |qb - qa| ≤ eps →
          y'.val (r :: List.replicate (k + 1) 0) = (y.val (r :: List.replicate (k + 1) 0)).map fun w => a * w) ∧
        (eps < |qb - qa| → a * |qb - qa| ≤ eps →
          y'.val (r :: List.replicate (k + 1) 0) = (y.val (r :: List.replicate (k + 1) 0)).map fun w => a * (qb - qa) * w) := by
  obtain ⟨qm, hm⟩ := quant_some (l := (List.range n).map c) (by simp; omega) (1 / 2)
  have hq : ∀ q v, quant ((List.range n).map c) q = some v → quant ((List.range n).map fun r => a * c (σ r) + b) q = some (a * v + b) := by
    intro q v h
    rw [quant_follows a b ha q _ _ (feature_restated hσ c), h]
    rfl
  obtain ⟨s, y, e1, e2, -, e3⟩ := C45_single_feature lo hi eps x0 x n m k c hn h0 hx hf qa qb qm ha' hb' hm
  obtain ⟨s', y', e1', e2', -, e3'⟩ := C45_single_feature lo hi eps x0' x' n m k _ hn h0' hx' hf' _ _ _ (hq _ _ ha') (hq _ _ hb') (hq _ _ hm)
  have ed : a * qb + b - (a * qa + b) = a * (qb - qa) := by ring
  have eabs : |a * qb + b - (a * qa + b)| = a * |qb - qa| := by rw [ed, abs_mul, abs_of_pos ha]
  rw [eabs, ed] at e3'
  refine ⟨s, s', y, y', e1, e2, e1', e2', fun r hr v hv hv' => ⟨fun h1 h2 => ?_, fun h1 h2 => ?_, fun h1 h2 => ?_⟩⟩
  · have hne : qb - qa ≠ 0 := by intro e; rw [e, abs_zero] at h1; linarith
    rw [(e3 r hr v hv).2 h1 he, (e3' r hr _ hv').2 h2 he]
    congr 1
    field_simp
    ring
  · rw [(e3 r hr v hv).1 h1, (e3' r hr _ hv').1 h2]
    simp only [Option.map_some, Option.some.injEq]
    ring
  · have hne : qb - qa ≠ 0 := by intro e; rw [e, abs_zero] at h1; linarith
    rw [(e3 r hr v hv).2 h1 he, (e3' r hr _ hv').1 h2]
    simp only [Option.map_some, Option.some.injEq]
    field_simp
    ring

/-- A bare array with one feature. -/
def oneFeature (m : Nat) (c : Nat → ℝ) : RArr := ⟨[m, 1], fun i => some (c (i.headD 0))⟩

theorem oneFeature_feature (m : Nat) (c : Nat → ℝ) : Feature (oneFeature m c) (List.replicate (0 + 1) 0) m c :=
  ⟨rfl, inB_cons.2 ⟨Nat.one_pos, rfl, by simp⟩, fun _ _ => rfl⟩

/-- **C111 is violated** by the robust scaler: the bound `eps` (default `1e-12`) on the spread is a number without units. Whatever the
data with a spread above `eps`, there are units in which the same data is not scaled at all and comes out as other numbers. -/
theorem C111_robust_refuted (lo hi eps : ℝ) (he : 0 < eps) (he1 : eps < 1) (n m : Nat) (hn : 0 < n) (c d : Nat → ℝ) (qa qb qm : ℝ)
    (hqa : quant ((List.range n).map c) lo = some qa) (hqb : quant ((List.range n).map c) hi = some qb)
    (hqm : quant ((List.range n).map c) (1 / 2) = some qm) (hs : eps < qb - qa) (r : Nat) (hr : r < m) (hd : d r ≠ qm) :
    ∃ a : ℝ, 0 < a ∧ ∃ s s' y y', (plain lo hi eps).fit (.leaf (oneFeature n c)) = .ok s ∧
      s.transform (.leaf (oneFeature m d)) = .ok (.leaf y) ∧
      (plain lo hi eps).fit (.leaf (oneFeature n fun r => a * c r)) = .ok s' ∧
      s'.transform (.leaf (oneFeature m fun r => a * d r)) = .ok (.leaf y') ∧ y'.val [r, 0] ≠ y.val [r, 0] := by
  have hpos : 0 < qb - qa := he.trans hs
  have hab : |qb - qa| = qb - qa := abs_of_pos hpos
  refine ⟨eps / (qb - qa), div_pos he hpos, ?_⟩
  have hf' : Feature (oneFeature n fun r => eps / (qb - qa) * c r) (List.replicate (0 + 1) 0) n
      fun r => eps / (qb - qa) * c (id r) + 0 := by
    simpa using oneFeature_feature n fun r => eps / (qb - qa) * c r
  obtain ⟨s, s', y, y', e1, e2, e3, e4, h⟩ := C111_robust_partial lo hi eps he.le (oneFeature n c)
    (oneFeature n fun r => eps / (qb - qa) * c r) (oneFeature m d) (oneFeature m fun r => eps / (qb - qa) * d r) n m 0 c hn rfl rfl
    rfl rfl (eps / (qb - qa)) 0 (div_pos he hpos) id ⟨fun _ h => h, fun _ _ _ _ h => h⟩ (oneFeature_feature n c) hf' qa qb hqa hqb
  refine ⟨s, s', y, y', e1, e2, e3, e4, ?_⟩
  have h3 := (h r hr (d r) rfl (by simp [oneFeature])).2.2 (by rw [hab]; exact hs) (by rw [hab, div_mul_cancel₀ _ hpos.ne'])
  obtain ⟨s2, y2, f1, f2, -, f3⟩ := C45_single_feature lo hi eps (oneFeature n c) (oneFeature m d) n m 0 c hn rfl rfl
    (oneFeature_feature n c) qa qb qm hqa hqb hqm
  rw [e1] at f1; cases f1
  rw [e2] at f2; cases f2
  have hy := (f3 r hr (d r) rfl).2 (by rw [hab]; exact hs) he.le
  show y'.val (r :: List.replicate (0 + 1) 0) ≠ y.val (r :: List.replicate (0 + 1) 0)
  rw [h3, hy]
  simp only [Option.map_some, ne_eq, Option.some.injEq]
  intro e
  have hw : (d r - qm) / (qb - qa) ≠ 0 := div_ne_zero (sub_ne_zero.2 hd) hpos.ne'
  rw [div_mul_cancel₀ _ hpos.ne'] at e
  have : (eps - 1) * ((d r - qm) / (qb - qa)) = 0 := by linarith
  rcases mul_eq_zero.1 this with h | h
  · linarith
  · exact hw h

/-! ### A case: two samples, the other order, degrees Fahrenheit instead of Celsius -/

theorem oneFeature_data (m : Nat) (c : Nat → ℝ) : dataOk (.leaf (oneFeature m c)) = true := by
  rw [dataOk_iff]
  constructor
  · intro p x h; cases h; simp [oneFeature]
  · intro p q x y h h'; cases h; cases h'; rfl

theorem swap_rearranges : Rearranges 2 fun r => 1 - r := ⟨fun r h => by show 1 - r < 2; omega, fun r h t h' e => by have : 1 - r = 1 - t := e; omega⟩

theorem oneFeature_restates (m : Nat) (c : Nat → ℝ) (a b : ℝ) (σ : Nat → Nat) :
    Restates (fun _ => a) (fun _ => b) σ (oneFeature m c) (oneFeature m fun r => a * c (σ r) + b) := ⟨rfl, fun _ _ _ => rfl⟩

example : ∃ (X0 X0' Y Y' : Tree RArr) (s s' : Std) (x0 x0' : RArr), KeysOk X0 ∧ KeysOk X0' ∧ Std.fit X0 = .ok s ∧ Std.fit X0' = .ok s' ∧
    s.transform X0 = .ok Y ∧ s'.transform X0' = .ok Y' ∧ At X0 [] x0 ∧ At X0' [] x0' ∧ Rearranges (x0.shape.headD 0) (fun r => 1 - r) ∧
    Restates (fun _ => 9 / 5) (fun _ => 32) (fun r => 1 - r) x0 x0' := by
  have fit : ∀ c, ∃ s, Std.fit (.leaf (oneFeature 2 c)) = .ok s := by
    intro c
    unfold Std.fit
    rw [if_pos (oneFeature_data 2 c)]
    exact ⟨_, rfl⟩
  have tr : ∀ c s, Std.fit (.leaf (oneFeature 2 c)) = .ok s → ∃ Y, s.transform (.leaf (oneFeature 2 c)) = .ok Y := by
    intro c s h
    refine C43_defined (.leaf (oneFeature 2 c)) (.leaf (oneFeature 2 c)) trivial trivial s h (oneFeature_data 2 c) rfl fun p x x0 h1 h2 => ?_
    cases h1; cases h2; rfl
  obtain ⟨s, hs⟩ := fit fun r => 10 * r
  obtain ⟨s', hs'⟩ := fit fun r => 9 / 5 * (10 * ((1 - r : ℕ) : ℝ)) + 32
  obtain ⟨Y, hY⟩ := tr _ s hs
  obtain ⟨Y', hY'⟩ := tr _ s' hs'
  exact ⟨.leaf (oneFeature 2 fun r => 10 * r), .leaf (oneFeature 2 fun r => 9 / 5 * (10 * ((1 - r : ℕ) : ℝ)) + 32), Y, Y', s, s',
    oneFeature 2 fun r => 10 * r, oneFeature 2 fun r => 9 / 5 * (10 * ((1 - r : ℕ) : ℝ)) + 32,
    trivial, trivial, hs, hs', hY, hY', by constructor, by constructor, swap_rearranges,
    oneFeature_restates 2 (fun r => 10 * r) (9 / 5) 32 fun r => 1 - r⟩

example : ∃ (s s' : MinMax) (Y Y' : Tree RArr), MinMax.fit ⟨.leaf (num 0), .leaf (num 1), Option.none, Option.none⟩ (.leaf (oneFeature 2 fun r => 10 * r)) = .ok s ∧
    MinMax.fit ⟨.leaf (num 0), .leaf (num 1), Option.none, Option.none⟩ (.leaf (oneFeature 2 fun r => 9 / 5 * (10 * ((1 - r : ℕ) : ℝ)) + 32)) = .ok s' ∧
    s.transform (.leaf (oneFeature 2 fun r => 10 * r)) = .ok Y ∧
    s'.transform (.leaf (oneFeature 2 fun r => 9 / 5 * (10 * (r : ℝ)) + 32)) = .ok Y' ∧
    BoundAt (.leaf (num 0)) [] (.leaf (num 0)) := by
  have fit : ∀ c, ∃ s, MinMax.fit ⟨.leaf (num 0), .leaf (num 1), Option.none, Option.none⟩ (.leaf (oneFeature 2 c)) = .ok s := by
    intro c
    unfold MinMax.fit
    rw [if_pos (oneFeature_data 2 c)]
    exact ⟨_, rfl⟩
  have tr : ∀ c d s, MinMax.fit ⟨.leaf (num 0), .leaf (num 1), Option.none, Option.none⟩ (.leaf (oneFeature 2 c)) = .ok s →
      ∃ Y, s.transform (.leaf (oneFeature 2 d)) = .ok Y := by
    intro c d s h
    refine C44_defined _ s (num 0) (num 1) rfl rfl (.leaf (oneFeature 2 c)) (.leaf (oneFeature 2 d)) trivial rfl rfl h (oneFeature_data 2 d) rfl fun p x x0 h1 h2 => ?_
    cases h1; cases h2; rfl
  obtain ⟨s, hs⟩ := fit fun r => 10 * r
  obtain ⟨s', hs'⟩ := fit fun r => 9 / 5 * (10 * ((1 - r : ℕ) : ℝ)) + 32
  obtain ⟨Y, hY⟩ := tr _ (fun r => 10 * r) s hs
  obtain ⟨Y', hY'⟩ := tr _ (fun r => 9 / 5 * (10 * (r : ℝ)) + 32) s' hs'
  exact ⟨s, s', Y, Y', hs, hs', hY, hY', .inl ⟨_, rfl, rfl, rfl⟩⟩

/-- Two samples `0` and `2` with the levels `0` and `1`: the spread is `2`. -/
theorem quant_two (q : ℝ) (h0 : 0 ≤ q) (h1 : q ≤ 1) : quant ((List.range 2).map fun r => (2 * r : ℝ)) q = some (2 * q) := by
  have e : (List.range 2).map (fun r => (2 * r : ℝ)) = [0, 2] := by simp [List.range_succ]
  have hs : ([0, 2] : List ℝ).insertionSort (· ≤ ·) = [0, 2] := by simp [List.insertionSort, List.orderedInsert]
  rw [e]
  unfold quant
  rw [hs]
  have hl : ([0, 2] : List ℝ).length = 2 := rfl
  simp only [hl]
  rw [if_neg (by omega)]
  have hp : q * (((2 : ℕ) : ℝ) - 1) = q := by push_cast; ring
  rw [hp]
  congr 1
  rcases h1.lt_or_eq with h1 | rfl
  · have hf : ⌊q⌋ = 0 := Int.floor_eq_zero_iff.2 ⟨h0, h1⟩
    rw [hf]
    rcases h0.lt_or_eq with h0 | rfl
    · have hc : ⌈q⌉ = 1 := by rw [Int.ceil_eq_iff]; push_cast; constructor <;> linarith
      rw [hc]
      simp [clamp]
    · simp [clamp]
  · simp [clamp]

example : ∃ eps lo hi qa qb qm : ℝ, 0 < eps ∧ eps < 1 ∧ quant ((List.range 2).map fun r => (2 * r : ℝ)) lo = some qa ∧
    quant ((List.range 2).map fun r => (2 * r : ℝ)) hi = some qb ∧ quant ((List.range 2).map fun r => (2 * r : ℝ)) (1 / 2) = some qm ∧
    eps < qb - qa ∧ (2 : ℝ) * (0 : ℕ) ≠ qm :=
  ⟨1 / 10 ^ 12, 1 / 4, 3 / 4, _, _, _, by norm_num, by norm_num, quant_two _ (by norm_num) (by norm_num),
    quant_two _ (by norm_num) (by norm_num), quant_two _ (by norm_num) (by norm_num), by norm_num, by norm_num⟩

end Verif.Props
