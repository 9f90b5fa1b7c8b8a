import Verif.Props.MinMax

/-! # Properties of the robust scaler (C45) -/

namespace Verif.Props
open Verif.Tree Verif.Scalers Verif.NdSpec Verif.ForwardSpec Verif.Loss Verif.NArr Verif.ScalerSpec Verif.Quantile

theorem quant_some {l : List ℝ} (h : l ≠ []) (q : ℝ) : ∃ v, quant l q = some v := by
  unfold quant
  have : (l.insertionSort (· ≤ ·)).length ≠ 0 := by
    rw [List.length_insertionSort]
    exact fun e => h (List.length_eq_zero_iff.1 e)
  simp only [if_neg this]
  exact ⟨_, rfl⟩

/-- What the robust scaler does at one place, forwards and backwards. -/
def RobRel (eps : ℝ) (x : RArr) (vs : List (Tree RArr)) (y z : RArr) : Prop :=
  ∃ m s big, vs = [.leaf m, .leaf s] ∧ bigger s eps = .ok big ∧ y.shape = x.shape ∧ z.shape = x.shape ∧
    (big = true → BLe s.shape x.shape) ∧
    (∀ i, InB x.shape i → y.val i = if big then fdiv (lift2 (· - ·) (x.val i) (rd m i)) (rd s i) else lift2 (· - ·) (x.val i) (rd m i)) ∧
    ∀ i, InB x.shape i → z.val i = if big then lift2 (· + ·) (lift2 (· * ·) (y.val i) (rd s i)) (rd m i)
      else lift2 (· + ·) (y.val i) (rd m i)

theorem sub_checked {x m : RArr} {w : Tree RArr} (h : (do checked x (← asub x m)) = Except.ok w) :
    ∃ z, w = .leaf z ∧ z.shape = x.shape ∧ BLe m.shape x.shape ∧ ∀ i, InB x.shape i → z.val i = lift2 (· - ·) (x.val i) (rd m i) := by
  obtain ⟨z, hz, h⟩ := bind_ok h
  obtain ⟨rfl, hs⟩ := checked_ok h
  obtain ⟨l1, l2, v⟩ := rd_bop hz
  refine ⟨z, rfl, hs, by rw [← hs]; exact l2, fun i hi => ?_⟩
  rw [← rd_self (x := z) (by rw [hs]; exact hi), v i (by rw [hs, hi.1]), rd_self hi]

theorem add_checked {x m : RArr} (h : BLe m.shape x.shape) :
    ∃ z, (do checked x (← aadd x m)) = Except.ok (.leaf z) ∧ z.shape = x.shape ∧
      ∀ i, InB x.shape i → z.val i = lift2 (· + ·) (x.val i) (rd m i) := by
  unfold aadd
  rw [bop_run _ h]
  simp only [bind, Except.bind, checked]
  refine ⟨⟨x.shape, _⟩, rfl, rfl, fun i hi => ?_⟩
  simp only [bidx_self hi, rd]

theorem rob_rel (eps : ℝ) (a : RArr) (vs : List (Tree RArr)) (w : Tree RArr) (h : robFwd eps a vs = .ok w) :
    ∃ c, w = .leaf c ∧ c.shape = a.shape ∧ ∃ b, robBwd eps c vs = .ok (.leaf b) ∧ RobRel eps a vs c b := by
  unfold robFwd at h
  split at h
  · rename_i m s
    obtain ⟨big, hb, h⟩ := bind_ok h
    cases big with
    | true =>
      rw [if_pos rfl] at h
      have h' : stdFwd a [.leaf m, .leaf s] = .ok w := h
      obtain ⟨m', s', z, e, rfl, hs, lm, ls, hv⟩ := stdFwd_ok h'
      cases e
      obtain ⟨b, hb', hbs, hbv⟩ := stdBwd_run (x := z) (m := m) (s := s) (by rw [hs]; exact lm) (by rw [hs]; exact ls)
      refine ⟨z, rfl, hs, b, ?_, m, s, true, rfl, hb, hs, by rw [hbs, hs], fun _ => ls, fun i hi => ?_, fun i hi => ?_⟩
      · unfold robBwd
        simp only [hb, bind, Except.bind, if_true]
        exact hb'
      · rw [if_pos rfl]; exact hv i hi
      · rw [if_pos rfl]; exact hbv i (by rw [hs]; exact hi)
    | false =>
      rw [if_neg (by decide)] at h
      obtain ⟨z, rfl, hs, lm, hv⟩ := sub_checked h
      obtain ⟨b, hb', hbs, hbv⟩ := add_checked (x := z) (m := m) (by rw [hs]; exact lm)
      refine ⟨z, rfl, hs, b, ?_, m, s, false, rfl, hb, hs, by rw [hbs, hs], (fun h => absurd h (by decide)), fun i hi => ?_, fun i hi => ?_⟩
      · unfold robBwd
        simp only [hb, bind, Except.bind]
        exact hb'
      · rw [if_neg (by decide)]; exact hv i hi
      · rw [if_neg (by decide)]; exact hbv i (by rw [hs]; exact hi)
  · cases h

/-- If the spread is used, it is a single number larger than `eps`. -/
theorem bigger_true {s : RArr} {eps : ℝ} (h : bigger s eps = .ok true) {t i : List Nat} (hl : BLe s.shape t) (hi : InB t i) :
    ∃ v, rd s i = some v ∧ |v| > eps := by
  unfold bigger at h
  split at h
  · rename_i v hv
    have hmem : rd s i ∈ s.entries := List.mem_map.2 ⟨_, mem_indices.2 (inB_bidx hl hi), rfl⟩
    rw [hv, List.mem_singleton] at hmem
    rw [hmem]
    simp only [Except.ok.injEq] at h
    split at h
    · exact ⟨_, rfl, by simpa using h⟩
    · cases h
  · cases h

theorem rob_transform {X Y : Tree RArr} {s : Robust} (h : s.transform X = .ok Y) :
    dataOk X = true ∧ ∃ sc m, s.scale = some sc ∧ s.median = some m ∧ jaxMap (robFwd s.eps) X [m, sc] = .ok Y := by
  unfold Robust.transform at h
  split at h
  · rename_i hd
    split at h
    · rename_i m sc hm hs; exact ⟨hd, m, sc, hm, hs, h⟩
    · cases h
  · cases h

theorem rob_fit {s s' : Robust} {X : Tree RArr} (h : s.fit X = .ok s') :
    dataOk X = true ∧ ∃ sc m, jaxMap fitScale X [s.qlow, s.qhigh, s.scaling] = .ok sc ∧ jaxMap fitMedian X [s.centering] = .ok m ∧
      s' = { s with scale := some sc, median := some m } := by
  unfold Robust.fit at h
  split at h
  · rename_i hd
    obtain ⟨sc, h1, h⟩ := bind_ok h
    obtain ⟨m, h2, h⟩ := bind_ok h
    cases h
    exact ⟨hd, sc, m, h1, h2, rfl⟩
  · cases h

theorem fitMedian_ok {x : RArr} {vs : List (Tree Opt)} {w : Tree RArr} (h : fitMedian x vs = .ok w) :
    w = .leaf (num 0) ∨ w = .leaf ⟨x.shape.tail, fun i => (allSome (column x i)).bind fun l => quant l (1 / 2)⟩ := by
  unfold fitMedian at h
  split at h
  · obtain ⟨b, hb, h⟩ := bind_ok h
    split at h
    · obtain ⟨z, hz, h⟩ := bind_ok h
      cases h
      unfold quantile0 at hz
      rw [if_pos (by simp [num])] at hz
      cases hz
      exact .inr (by simp [num])
    · cases h; exact .inl rfl
  · cases h

/-- The median of a feature, wherever the scaler puts it, is a number. -/
theorem median_number {s s' : Robust} {X0 : Tree RArr} (h0 : KeysOk X0) (hfit : s.fit X0 = .ok s') {m : Tree RArr}
    (hm : s'.median = some m) {p : List Step} {x0 a : RArr} (hx0 : At X0 p x0) (ha : Sub m p (.leaf a)) {r n : Nat} {j : List Nat}
    {c : Nat → ℝ} (hf : Feature x0 j n c) (hn : 0 < n) : ∃ v, rd a (r :: j) = some v := by
  obtain ⟨-, sc, m', -, h2, rfl⟩ := rob_fit hfit
  cases hm
  obtain ⟨vs, w, -, -, hw, hsub⟩ := jaxMap_at h2 hx0
  have hk : KeysOk m := keysOk_of_struct (jaxMap_struct (fun a vs w h => by
    rcases fitMedian_ok h with rfl | rfl <;> exact ⟨_, rfl⟩) h2) (keysOk_norm' h0)
  have := sub_unique hk ha hsub
  subst this
  rcases fitMedian_ok hw with e | e
  · cases e; exact ⟨0, rfl⟩
  · cases e
    unfold rd
    simp only [bidx_tail hf.mem, column_feature hf, Option.bind_some]
    exact quant_some (by simp; omega) _

/-- **C45** Whenever `transform` succeeds, `inverse_transform` undoes it, including where the spread is below `eps`: for every fitted
scaler, all settings, every tree of data and every entry. Partial: the code often fails to transform at all, see below. -/
theorem C45_inverse_partial (s0 s : Robust) (X0 X Y : Tree RArr) (h0 : KeysOk X0) (hX : KeysOk X) (he : 0 ≤ s0.eps)
    (hfit : s0.fit X0 = .ok s) (ht : s.transform X = .ok Y) :
    ∃ X', s.inverse Y = .ok X' ∧ map (fun _ => ()) X' = map (fun _ => ()) X.norm ∧
      ∀ p x x0, At X p x → At X0 p x0 → x.shape.tail = x0.shape.tail → ∃ z, At X' p z ∧ z.shape = x.shape ∧
        ∀ r j n c, InB x.shape (r :: j) → Feature x0 j n c → 0 < n → z.val (r :: j) = x.val (r :: j) := by
  obtain ⟨hd, sc, m, hs, hm, hj⟩ := rob_transform ht
  have heps : s.eps = s0.eps := by obtain ⟨-, _, _, -, -, rfl⟩ := rob_fit hfit; rfl
  obtain ⟨hshape, X', h1, h2, h3⟩ := back (rob_rel s.eps) hX hj
  refine ⟨X', ?_, h2, fun p x x0 hx hx0 htail => ?_⟩
  · unfold Robust.inverse
    rw [if_pos (dataOk_of_shapes hshape hd), hm, hs]
    exact h1
  · obtain ⟨vs, y, z, hy, hz, -, hsub, a, b, big, hvs, hbig, sy, sz, hle, vy, vz⟩ := h3 p x hx
    subst hvs
    refine ⟨z, hz, sz, fun r j n c hi hf hn => ?_⟩
    obtain ⟨mv, hmv⟩ := median_number h0 hfit hm hx0 (hsub 0 _ _ rfl rfl) hf hn (r := r)
    rw [vz _ hi, vy _ hi, hmv]
    cases big with
    | false =>
      simp only [Bool.false_eq_true, if_false]
      cases x.val (r :: j) with
      | none => rfl
      | some v => simp [lift2]
    | true =>
      obtain ⟨sv, hsv, hgt⟩ := bigger_true hbig (hle rfl) hi
      have hne : sv ≠ 0 := by
        rintro rfl
        rw [abs_zero, heps] at hgt
        linarith
      simp only [if_true, hsv]
      cases x.val (r :: j) with
      | none => rfl
      | some v =>
        have : lift2 (fun x y : ℝ => x - y) (some v) (some mv) = some (v - mv) := rfl
        rw [this, fdiv_some hne]
        simp only [lift2, Option.bind_some, Option.map_some]
        rw [div_mul_cancel₀ _ hne, sub_add_cancel]

/-! ### What the code makes of the default settings -/

/-- The settings of a scaler created with two numbers as levels, with centring and scaling (the default: 0.25 and 0.75). -/
def plain (a b eps : ℝ) : Robust :=
  ⟨.leaf (.level (num a)), .leaf (.level (num b)), .leaf (.flag true), .leaf (.flag true), eps, Option.none, Option.none⟩

theorem quantile0_num (x : RArr) (a : ℝ) :
    quantile0 x (num a) = .ok ⟨x.shape.tail, fun i => (allSome (column x i)).bind fun l => quant l a⟩ := by
  unfold quantile0
  rw [if_pos (by simp [num])]
  simp [num]

/-- The attributes after fitting a bare array. -/
theorem plain_fit (a b eps : ℝ) (x : RArr) (hd : dataOk (.leaf x) = true) :
    ∃ s sc m, (plain a b eps).fit (.leaf x) = .ok s ∧ s.eps = eps ∧ s.scale = some (.leaf sc) ∧ s.median = some (.leaf m) ∧
      sc.shape = x.shape.tail ∧ m.shape = x.shape.tail ∧
      (∀ j, m.val j = (allSome (column x j)).bind fun l => quant l (1 / 2)) ∧
      ∀ j, InB x.shape.tail j → sc.val j = lift2 (· - ·) ((allSome (column x j)).bind fun l => quant l b)
        ((allSome (column x j)).bind fun l => quant l a) := by
  let Q (q : ℝ) : RArr := ⟨x.shape.tail, fun i => (allSome (column x i)).bind fun l => quant l q⟩
  let D : RArr := ⟨x.shape.tail, fun i => lift2 (· - ·) ((Q b).val (bidx x.shape.tail i)) ((Q a).val (bidx x.shape.tail i))⟩
  have hq : asub (Q b) (Q a) = .ok D := bop_run _ (ble_refl _)
  refine ⟨{ plain a b eps with scale := some (.leaf D), median := some (.leaf (Q (1 / 2))) }, D, Q (1 / 2), ?_, rfl, rfl,
    rfl, rfl, rfl, ?_, ?_⟩
  · unfold Robust.fit
    rw [if_pos hd]
    unfold plain
    simp only [jaxMap, Tree.norm, map, zipAll, zipPre, Tree.mapM, fitScale, fitMedian, scaleLeaf, quantLeaf, truthy, quantile0_num, bind,
      Except.bind, pure, Except.pure, if_true, List.nil_append, List.cons_append]
    simp only [Q, D] at hq ⊢
    rw [hq]
  · exact fun _ => rfl
  · intro j hj
    simp only [D, bidx_self hj, Q]

/-- **C45** The one case that works with default settings: a bare array with a single feature (shape `n` by `1` by ... by `1`). The value
`v` becomes `(v - Q(1/2)) / (Q(b) - Q(a))`, or `v - Q(1/2)` if the spread is at most `eps`, where `Q` is the quantile of the fitted
column. -/
theorem C45_single_feature (a b eps : ℝ) (x0 x : RArr) (n m k : Nat) (c : Nat → ℝ) (hn : 0 < n)
    (h0 : x0.shape = n :: List.replicate (k + 1) 1) (hx : x.shape = m :: List.replicate (k + 1) 1)
    (hf : Feature x0 (List.replicate (k + 1) 0) n c) (qa qb qm : ℝ) (ha : quant ((List.range n).map c) a = some qa)
    (hb : quant ((List.range n).map c) b = some qb) (hm : quant ((List.range n).map c) (1 / 2) = some qm) :
    ∃ s y, (plain a b eps).fit (.leaf x0) = .ok s ∧ s.transform (.leaf x) = .ok (.leaf y) ∧ y.shape = x.shape ∧
      ∀ r < m, ∀ v, x.val (r :: List.replicate (k + 1) 0) = some v →
        (|qb - qa| ≤ eps → y.val (r :: List.replicate (k + 1) 0) = some (v - qm)) ∧
        (eps < |qb - qa| → 0 ≤ eps → y.val (r :: List.replicate (k + 1) 0) = some ((v - qm) / (qb - qa))) := by
  have dk : ∀ (t : RArr) (l : Nat), t.shape = l :: List.replicate (k + 1) 1 → dataOk (.leaf t) = true := by
    intro t l ht
    rw [dataOk_iff]
    constructor
    · intro p y h; cases h; rw [ht]; simp
    · intro p q y y' h h'; cases h; cases h'; rfl
  obtain ⟨s, sc, md, hfit, he, hs, hmd, hss, hms, hmv, hsv⟩ := plain_fit a b eps x0 (dk x0 n h0)
  rw [h0, List.tail_cons] at hss hms
  have hone : indices (List.replicate (k + 1) 1) = [List.replicate (k + 1) 0] := by
    generalize k + 1 = q
    induction q with
    | zero => rfl
    | succ q ih => simp [List.replicate_succ, indices, ih]
  have hsc : sc.val (List.replicate (k + 1) 0) = some (qb - qa) := by
    rw [hsv _ hf.mem, column_feature hf]
    simp only [Option.bind_some, ha, hb]
    rfl
  have hmm : md.val (List.replicate (k + 1) 0) = some qm := by
    rw [hmv, column_feature hf]
    simp only [Option.bind_some, hm]
  have hbig : bigger sc eps = .ok (decide (|qb - qa| > eps)) := by
    unfold bigger NArr.entries
    rw [hss, hone]
    simp only [List.map_cons, List.map_nil, hsc]
  have hle : BLe (List.replicate (k + 1) 1) x.shape := by
    have := ble_tail x.shape
    rw [hx] at this ⊢
    exact this
  have hin : InB (List.replicate (k + 1) 1) (List.replicate (k + 1) 0) := by
    have := hf.mem
    rw [h0] at this
    exact this
  have rdm : ∀ r, rd md (r :: List.replicate (k + 1) 0) = some qm := by
    intro r
    unfold rd
    rw [hms, bidx_tail hin, hmm]
  have rds : ∀ r, rd sc (r :: List.replicate (k + 1) 0) = some (qb - qa) := by
    intro r
    unfold rd
    rw [hss, bidx_tail hin, hsc]
  have hir : ∀ r < m, InB x.shape (r :: List.replicate (k + 1) 0) := by
    intro r hr
    rw [hx]
    exact inB_cons.2 ⟨hr, hin⟩
  have run : ∀ y, robFwd eps x [.leaf md, .leaf sc] = .ok (.leaf y) → s.transform (.leaf x) = .ok (.leaf y) := by
    intro y hy
    unfold Robust.transform
    rw [if_pos (dk x m hx), hs, hmd, he]
    simp only [jaxMap, Tree.norm, map, zipAll, zipPre, Tree.mapM, List.nil_append, List.cons_append, hy]
  have key : ∃ y, robFwd eps x [.leaf md, .leaf sc] = .ok (.leaf y) := by
    unfold robFwd
    simp only [hbig, bind, Except.bind]
    by_cases hgt : |qb - qa| > eps
    · rw [decide_eq_true hgt]
      exact stdFwd_run (x := x) (m := md) (s := sc) (by rw [hms]; exact hle) (by rw [hss]; exact hle)
    · rw [decide_eq_false hgt]
      simp only [asub, bop_run _ (show BLe md.shape x.shape by rw [hms]; exact hle)]
      simp only [Bool.false_eq_true, if_false, checked, if_true]
      exact ⟨_, rfl⟩
  obtain ⟨y, hy⟩ := key
  obtain ⟨y', e, sy, z, -, md', sc', big, hvs, hb', -, -, -, vy, -⟩ := rob_rel eps x _ _ hy
  cases e
  cases hvs
  rw [hbig] at hb'
  cases hb'
  refine ⟨s, y, hfit, run y hy, sy, fun r hr v hv => ⟨fun h => ?_, fun h h0 => ?_⟩⟩
  · rw [vy _ (hir r hr), if_neg (by simpa using h), hv, rdm]
    rfl
  · rw [vy _ (hir r hr), if_pos (by simpa using h), hv, rdm, rds]
    have hne : qb - qa ≠ 0 := by
      intro e
      rw [e, abs_zero] at h
      linarith
    exact fdiv_some hne

/-- **C45** is false of the code beyond that case: after fitting a bare array with any other number of features (at least two, or
none) `transform` raises for every array. -/
theorem C45_many_features_refuted (a b eps : ℝ) (x0 : RArr) (hd : dataOk (.leaf x0) = true)
    (hf : x0.shape.tail.foldr (· * ·) 1 ≠ 1) :
    ∃ s, (plain a b eps).fit (.leaf x0) = .ok s ∧
      ∀ x, dataOk (.leaf x) = true → s.transform (.leaf x) = .error .valueError ∧ s.inverse (.leaf x) = .error .valueError := by
  obtain ⟨s, sc, md, hfit, he, hs, hmd, hss, hms, -, -⟩ := plain_fit a b eps x0 hd
  refine ⟨s, hfit, fun x hx => ?_⟩
  have hbig : bigger sc eps = .error .valueError := by
    unfold bigger
    split
    · rename_i v hv
      have := length_entries sc
      rw [hv] at this
      unfold NArr.size at this
      rw [hss] at this
      exact absurd this.symm hf
    · rfl
  unfold Robust.transform Robust.inverse
  rw [if_pos hx, hs, hmd, he]
  simp only [jaxMap, Tree.norm, map, zipAll, zipPre, Tree.mapM, List.nil_append, List.cons_append, robFwd, robBwd, hbig, bind, Except.bind]
  exact ⟨trivial, if_pos hx⟩

/-- **C45** A list, tuple or dictionary of arrays cannot even be fitted with numbers as settings, although the defaults are such. -/
theorem C45_tree_refuted (a b eps : ℝ) (X : Tree RArr) (hd : dataOk X = true) (hX : ∀ x, X ≠ .leaf x) (hX' : X ≠ .none) :
    (plain a b eps).fit X = .error .valueError := by
  unfold Robust.fit
  rw [if_pos hd]
  have hz : zipAll [(plain a b eps).qlow, (plain a b eps).qhigh, (plain a b eps).scaling] (map (fun a => (a, ([] : List (Tree Opt)))) X.norm) =
      .error .valueError := by
    unfold plain
    cases X with
    | leaf a => exact absurd rfl (hX a)
    | none => exact absurd rfl hX'
    | list ts => simp [Tree.norm, map, zipAll, zipPre]
    | tuple ts => simp [Tree.norm, map, zipAll, zipPre]
    | dict ts => simp [Tree.norm, map, zipAll, zipPre]
  simp only [jaxMap, hz, bind, Except.bind]

/-- **C45** An unfitted scaler refuses to transform. -/
theorem C45_unfitted (a b eps : ℝ) (X : Tree RArr) (hd : dataOk X = true) :
    (plain a b eps).transform X = .error .runtimeError ∧ (plain a b eps).inverse X = .error .runtimeError := by
  unfold Robust.transform Robust.inverse plain
  simp only [hd]
  exact ⟨rfl, rfl⟩

/-- The default scaler fits and transforms the 2 by 1 array `exArr`; a 2 by 2 array meets the hypotheses of the refutation. -/
example : ∃ s y, (plain (1 / 4) (3 / 4) (1 / 10 ^ 12)).fit (.leaf exArr) = .ok s ∧ s.transform (.leaf exArr) = .ok (.leaf y) := by
  have hf : Feature exArr (List.replicate (0 + 1) 0) 2 (fun r => 1 + 2 * (r : ℕ)) := exArr_feature
  obtain ⟨qa, ha⟩ := quant_some (l := (List.range 2).map fun r => (1 + 2 * (r : ℕ) : ℝ)) (by simp) (1 / 4)
  obtain ⟨qb, hb⟩ := quant_some (l := (List.range 2).map fun r => (1 + 2 * (r : ℕ) : ℝ)) (by simp) (3 / 4)
  obtain ⟨qm, hm⟩ := quant_some (l := (List.range 2).map fun r => (1 + 2 * (r : ℕ) : ℝ)) (by simp) (1 / 2)
  obtain ⟨s, y, h1, h2, -⟩ := C45_single_feature (1 / 4) (3 / 4) (1 / 10 ^ 12) exArr exArr 2 2 0 _ (by omega) rfl rfl hf qa qb qm ha hb hm
  exact ⟨s, y, h1, h2⟩

example : dataOk (.leaf (⟨[2, 2], fun _ => some 1⟩ : RArr)) = true ∧ [2, 2].tail.foldr (· * ·) 1 ≠ 1 := by
  refine ⟨?_, by decide⟩
  rw [dataOk_iff]
  constructor
  · intro p x h; cases h; simp
  · intro p q x y h h'; cases h; cases h'; rfl

end Verif.Props
