import Verif.Props.Scalers

/-! # Properties of the min-max scaler (C44) -/

namespace Verif.Props
open Verif.Tree Verif.Scalers Verif.NdSpec Verif.ForwardSpec Verif.Loss Verif.NArr Verif.ScalerSpec

theorem foldl_min_spec (l : List ℝ) : ∀ a : ℝ, l.foldl min a ≤ a ∧ (∀ b ∈ l, l.foldl min a ≤ b) ∧ (l.foldl min a = a ∨ l.foldl min a ∈ l) := by
  induction l with
  | nil => intro a; exact ⟨le_refl _, by simp, .inl rfl⟩
  | cons c l ih =>
    intro a
    obtain ⟨h1, h2, h3⟩ := ih (min a c)
    refine ⟨h1.trans (min_le_left _ _), fun b hb => ?_, ?_⟩
    · rcases List.mem_cons.1 hb with rfl | hb
      · exact h1.trans (min_le_right _ _)
      · exact h2 b hb
    · rcases h3 with h3 | h3
      · rcases min_choice a c with h | h
        · exact .inl (by rw [List.foldl_cons, h3, h])
        · exact .inr (by rw [List.foldl_cons, h3, h]; exact List.mem_cons_self)
      · exact .inr (List.mem_cons_of_mem _ h3)

theorem foldl_max_spec (l : List ℝ) : ∀ a : ℝ, a ≤ l.foldl max a ∧ (∀ b ∈ l, b ≤ l.foldl max a) ∧ (l.foldl max a = a ∨ l.foldl max a ∈ l) := by
  induction l with
  | nil => intro a; exact ⟨le_refl _, by simp, .inl rfl⟩
  | cons c l ih =>
    intro a
    obtain ⟨h1, h2, h3⟩ := ih (max a c)
    refine ⟨(le_max_left _ _).trans h1, fun b hb => ?_, ?_⟩
    · rcases List.mem_cons.1 hb with rfl | hb
      · exact (le_max_right _ _).trans h1
      · exact h2 b hb
    · rcases h3 with h3 | h3
      · rcases max_choice a c with h | h
        · exact .inl (by rw [List.foldl_cons, h3, h])
        · exact .inr (by rw [List.foldl_cons, h3, h]; exact List.mem_cons_self)
      · exact .inr (List.mem_cons_of_mem _ h3)

theorem minL_range {n a : Nat} {c : Nat → ℝ} (ha : a < n) (h : ∀ r < n, c a ≤ c r) : minL ((List.range n).map c) = some (c a) := by
  have hmem : ∀ v, v ∈ (List.range n).map c ↔ ∃ r < n, c r = v := by intro v; simp
  generalize (List.range n).map c = l at hmem
  cases l with
  | nil => exact absurd ((hmem (c a)).2 ⟨a, ha, rfl⟩) (by simp)
  | cons b l =>
    unfold minL
    obtain ⟨h1, h2, h3⟩ := foldl_min_spec l b
    refine congrArg some (le_antisymm ?_ ?_)
    · rcases List.mem_cons.1 ((hmem (c a)).2 ⟨a, ha, rfl⟩) with e | e
      · rw [e]; exact h1
      · exact h2 _ e
    · have : l.foldl min b ∈ b :: l := by
        rcases h3 with e | e
        · rw [e]; exact List.mem_cons_self
        · exact List.mem_cons_of_mem _ e
      obtain ⟨r, hr, e⟩ := (hmem _).1 this
      rw [← e]; exact h r hr

theorem maxL_range {n b : Nat} {c : Nat → ℝ} (hb : b < n) (h : ∀ r < n, c r ≤ c b) : maxL ((List.range n).map c) = some (c b) := by
  have hmem : ∀ v, v ∈ (List.range n).map c ↔ ∃ r < n, c r = v := by intro v; simp
  generalize (List.range n).map c = l at hmem
  cases l with
  | nil => exact absurd ((hmem (c b)).2 ⟨b, hb, rfl⟩) (by simp)
  | cons a l =>
    unfold maxL
    obtain ⟨h1, h2, h3⟩ := foldl_max_spec l a
    refine congrArg some (le_antisymm ?_ ?_)
    · have : l.foldl max a ∈ a :: l := by
        rcases h3 with e | e
        · rw [e]; exact List.mem_cons_self
        · exact List.mem_cons_of_mem _ e
      obtain ⟨r, hr, e⟩ := (hmem _).1 this
      rw [← e]; exact h r hr
    · rcases List.mem_cons.1 ((hmem (c b)).2 ⟨b, hb, rfl⟩) with e | e
      · rw [e]; exact h1
      · exact h2 _ e

theorem mm_stats {s s' : MinMax} {X : Tree RArr} (h : s.fit X = .ok s') :
    dataOk X = true ∧ s'.dmin = some (map (stat0 minL) X.norm) ∧ s'.dmax = some (map (stat0 maxL) X.norm) ∧ s'.minVal = s.minVal ∧
      s'.maxVal = s.maxVal := by
  unfold MinMax.fit at h
  split at h
  · rename_i hd; cases h; exact ⟨hd, rfl, rfl, rfl, rfl⟩
  · cases h

theorem mm_transform {X Y : Tree RArr} {s : MinMax} (h : s.transform X = .ok Y) :
    dataOk X = true ∧ ∃ dn dx, s.dmin = some dn ∧ s.dmax = some dx ∧
      jaxMap mmFwd X [dn, dx, spread s.minVal dn, spread s.maxVal dx] = .ok Y := by
  unfold MinMax.transform at h
  split at h
  · rename_i hd
    split at h
    · rename_i m sc hm hs; exact ⟨hd, m, sc, hm, hs, h⟩
    · cases h
  · cases h

theorem contributes_rd {b : RArr} {i : List Nat} {v : ℝ} (h : Contributes b i v) : rd b i = some v := by
  obtain ⟨k, h1, h2⟩ := h
  unfold rd
  rw [reads_unique (bidx_spec h1.2.1) h1, h2]

/-- **C44** What a fitted scaler does at every place of every data set: with a bound `None` the array is left alone, both ways. Else,
with `c a` and `c b` the smallest and largest fitted value of a feature and `lo`, `hi` the user's bounds there, a value `v` becomes
`(v - c a) / (c b - c a) * (hi - lo) + lo`, and `inverse_transform` gives `v` back. -/
theorem C44_inverse (s0 s : MinMax) (X0 X Y : Tree RArr) (h0 : KeysOk X0) (hX : KeysOk X) (hfit : s0.fit X0 = .ok s)
    (ht : s.transform X = .ok Y) :
    ∃ X', s.inverse Y = .ok X' ∧ map (fun _ => ()) X' = map (fun _ => ()) X.norm ∧
      ∀ p x x0, At X p x → At X0 p x0 → x.shape.tail = x0.shape.tail → ∃ y z mn mx, At Y p y ∧ At X' p z ∧
        y.shape = x.shape ∧ z.shape = x.shape ∧ BoundAt s0.minVal p mn ∧ BoundAt s0.maxVal p mx ∧
        ((mn = .none ∨ mx = .none) ∧ y = x ∧ z = x ∨
          ∃ mn' mx', mn = .leaf mn' ∧ mx = .leaf mx' ∧
            ∀ (r : Nat) (j : List Nat) (n : Nat) (c : Nat → ℝ) (a b : Nat) (v lo hi : ℝ), InB x.shape (r :: j) → Feature x0 j n c →
              a < n → b < n → (∀ k < n, c a ≤ c k ∧ c k ≤ c b) → c a < c b → x.val (r :: j) = some v →
              Contributes mn' (r :: j) lo → Contributes mx' (r :: j) hi →
              y.val (r :: j) = some ((v - c a) / (c b - c a) * (hi - lo) + lo) ∧ (lo ≠ hi → z.val (r :: j) = x.val (r :: j))) := by
  obtain ⟨-, e1, e2, e3, e4⟩ := mm_stats hfit
  obtain ⟨hd, dn, dx, e1', e2', hj⟩ := mm_transform ht
  rw [e1] at e1'; cases e1'
  rw [e2] at e2'; cases e2'
  obtain ⟨hshape, X', h1, h2, h3⟩ := back mm_rel hX hj
  refine ⟨X', ?_, h2, fun p x x0 hx hx0 htail => ?_⟩
  · unfold MinMax.inverse
    rw [if_pos (dataOk_of_shapes hshape hd), e1, e2]
    exact h1
  · obtain ⟨vs, y, z, hy, hz, hl, hsub, hR⟩ := h3 p x hx
    have hk : ∀ f : RArr → RArr, KeysOk (map f X0.norm) := fun f => (keysOk_map _ _).2 (keysOk_norm' h0)
    match vs, hl with
    | [v1, v2, mn, mx], _ =>
    have b1 : BoundAt s0.minVal p mn := by rw [← e3]; exact spread_sub (hk _) (at_stat hx0) (hsub 2 _ _ rfl rfl)
    have b2 : BoundAt s0.maxVal p mx := by rw [← e4]; exact spread_sub (hk _) (at_stat hx0) (hsub 3 _ _ rfl rfl)
    rcases hR with ⟨hn, rfl, rfl⟩ | ⟨dn, dx, mn', mx', hvs, sy, sz, vy, vz⟩
    · exact ⟨_, _, mn, mx, hy, hz, rfl, rfl, b1, b2, .inl ⟨by simpa using hn, rfl, rfl⟩⟩
    · cases hvs
      refine ⟨y, z, _, _, hy, hz, sy, sz, b1, b2, .inr ⟨mn', mx', rfl, rfl, fun r j n c a b v lo hi hi' hf ha hb hab hlt hv hlo hhi => ?_⟩⟩
      have d1 := stat_unique h0 hx0 (hsub 0 _ _ rfl rfl)
      have d2 := stat_unique h0 hx0 (hsub 1 _ _ rfl rfl)
      subst d1 d2
      have r1 : rd (stat0 minL x0) (r :: j) = some (c a) := by
        rw [rd_stat hf.mem, column_feature hf, Option.bind_some, minL_range ha fun k hk => (hab k hk).1]
      have r2 : rd (stat0 maxL x0) (r :: j) = some (c b) := by
        rw [rd_stat hf.mem, column_feature hf, Option.bind_some, maxL_range hb fun k hk => (hab k hk).2]
      have hne : c b - c a ≠ 0 := by linarith [hlt] |> fun h : 0 < c b - c a => h.ne'
      have ey : y.val (r :: j) = some ((v - c a) / (c b - c a) * (hi - lo) + lo) := by
        rw [vy _ hi', hv, r1, r2, contributes_rd hlo, contributes_rd hhi]
        simp only [lift2, Option.bind_some, Option.map_some, fdiv, if_neg hne]
      refine ⟨ey, fun hne' => ?_⟩
      have hne2 : hi - lo ≠ 0 := sub_ne_zero.2 (Ne.symm hne')
      rw [vz _ hi', ey, r1, r2, contributes_rd hlo, contributes_rd hhi, hv]
      simp only [lift2, Option.bind_some, Option.map_some, fdiv, if_neg hne2]
      rw [add_sub_cancel_right, mul_div_cancel_right₀ _ hne2, div_mul_cancel₀ _ hne, sub_add_cancel]

/-- **C44** Transforming the fitted data lands in `[lo, hi]`, attains both ends and keeps the order, in every feature that is not
constant, for every pair of bounds with `lo ≤ hi` that does not depend on the row. -/
theorem C44_range (s0 s : MinMax) (X Y : Tree RArr) (hX : KeysOk X) (hfit : s0.fit X = .ok s)
    (ht : s.transform X = .ok Y) (p : List Step) (x : RArr) (hx : At X p x) (n : Nat) (j : List Nat) (c : Nat → ℝ) (hf : Feature x j n c)
    (hab : ∃ a b, a < n ∧ b < n ∧ c a ≠ c b) :
    ∃ y mn mx, At Y p y ∧ BoundAt s0.minVal p mn ∧ BoundAt s0.maxVal p mx ∧ ((mn = .none ∨ mx = .none) ∧ y = x ∨
      ∃ mn' mx', mn = .leaf mn' ∧ mx = .leaf mx' ∧ ∀ lo hi : ℝ, lo ≤ hi →
        (∀ r < n, Contributes mn' (r :: j) lo ∧ Contributes mx' (r :: j) hi) → ∃ w, Feature y j n w ∧
          (∀ r < n, lo ≤ w r ∧ w r ≤ hi) ∧ (∃ r < n, w r = lo) ∧ (∃ r < n, w r = hi) ∧
          ∀ r < n, ∀ t < n, c r ≤ c t → w r ≤ w t) := by
  obtain ⟨X', -, -, h⟩ := C44_inverse s0 s X X Y hX hX hfit ht
  obtain ⟨y, z, mn, mx, hy, -, sy, -, b1, b2, h⟩ := h p x x hx hx rfl
  refine ⟨y, mn, mx, hy, b1, b2, ?_⟩
  rcases h with ⟨hn, rfl, -⟩ | ⟨mn', mx', rfl, rfl, h⟩
  · exact .inl ⟨hn, rfl⟩
  · refine .inr ⟨mn', mx', rfl, rfl, fun lo hi hle hc => ?_⟩
    obtain ⟨a0, b0, ha0, hb0, hab⟩ := hab
    have hne : (Finset.range n).Nonempty := ⟨a0, Finset.mem_range.2 ha0⟩
    obtain ⟨a, ha, hmin⟩ := Finset.exists_min_image (Finset.range n) c hne
    obtain ⟨b, hb, hmax⟩ := Finset.exists_max_image (Finset.range n) c hne
    simp only [Finset.mem_range] at ha hb hmin hmax
    have hlt : c a < c b := by
      rcases lt_or_gt_of_ne hab with h | h
      · exact lt_of_le_of_lt (hmin a0 ha0) (lt_of_lt_of_le h (hmax b0 hb0))
      · exact lt_of_le_of_lt (hmin b0 hb0) (lt_of_lt_of_le h (hmax a0 ha0))
    have hpos : 0 < c b - c a := sub_pos.2 hlt
    have hw : 0 ≤ hi - lo := sub_nonneg.2 hle
    have hin : ∀ r < n, InB x.shape (r :: j) := fun r hr => feature_inB hf hr
    have mono : ∀ u v : ℝ, u ≤ v → (u - c a) / (c b - c a) * (hi - lo) + lo ≤ (v - c a) / (c b - c a) * (hi - lo) + lo := by
      intro u v huv
      have : (u - c a) / (c b - c a) ≤ (v - c a) / (c b - c a) := div_le_div_of_nonneg_right (by linarith) hpos.le
      have := mul_le_mul_of_nonneg_right this hw
      linarith
    have ea : (c a - c a) / (c b - c a) * (hi - lo) + lo = lo := by rw [sub_self, zero_div, zero_mul, zero_add]
    have eb : (c b - c a) / (c b - c a) * (hi - lo) + lo = hi := by rw [div_self hpos.ne', one_mul, sub_add_cancel]
    refine ⟨fun r => (c r - c a) / (c b - c a) * (hi - lo) + lo, ⟨by rw [sy]; exact hf.rows, by rw [sy]; exact hf.mem, fun r hr => ?_⟩,
      fun r hr => ⟨?_, ?_⟩, ⟨a, ha, ea⟩, ⟨b, hb, eb⟩, fun r _ t _ hrt => mono _ _ hrt⟩
    · exact (h r j n c a b (c r) lo hi (hin r hr) hf ha hb (fun k hk => ⟨hmin k hk, hmax k hk⟩) hlt (hf.vals r hr) (hc r hr).1
        (hc r hr).2).1
    · have := mono _ _ (hmin r hr); rw [ea] at this; exact this
    · have := mono _ _ (hmax r hr); rw [eb] at this; exact this

/-- **C44** With two numbers as bounds, `transform` succeeds on all data with the structure and the feature shapes of the fitted
data. -/
theorem C44_defined (s0 s : MinMax) (lo hi : RArr) (hlo : lo.shape = []) (hhi : hi.shape = []) (X0 X : Tree RArr) (h0 : KeysOk X0)
    (b1 : s0.minVal = .leaf lo) (b2 : s0.maxVal = .leaf hi) (hfit : s0.fit X0 = .ok s)
    (hd : dataOk X = true) (hst : map (fun _ => ()) X.norm = map (fun _ => ()) X0.norm)
    (hsh : ∀ p x x0, At X p x → At X0 p x0 → x.shape.tail = x0.shape.tail) : ∃ Y, s.transform X = .ok Y := by
  obtain ⟨-, e1, e2, e3, e4⟩ := mm_stats hfit
  unfold MinMax.transform
  rw [if_pos hd, e1, e2, e3, e4, b1, b2]
  have hk : ∀ f : RArr → RArr, KeysOk (map f X0.norm) := fun f => (keysOk_map _ _).2 (keysOk_norm' h0)
  have hn : ∀ f : RArr → RArr, map (fun _ => ()) X.norm = map (fun _ => ()) (map f X0.norm).norm := by
    intro f
    rw [norm_map, norm_norm h0, map_map, hst]
  have hsp : ∀ (b : RArr) (f : RArr → RArr), b.shape = [] → spread (.leaf b) (map f X0.norm) = map (fun _ => b) X0.norm := by
    intro b f hb
    unfold spread
    simp only [isScalar, hb, List.isEmpty_nil, if_true]
    rw [norm_map, norm_norm h0, map_map]
  simp only [hsp lo _ hlo, hsp hi _ hhi]
  refine jaxMap_total (fun u hu => ?_) fun p x bs hx hbs => ?_
  · simp only [List.mem_cons, List.not_mem_nil, or_false] at hu
    rcases hu with rfl | rfl | rfl | rfl <;> exact ⟨hk _, hn _⟩
  · cases hbs with
    | cons hb1 hbs =>
    cases hbs with
    | cons hb2 hbs =>
    cases hbs with
    | cons hb3 hbs =>
    cases hbs with
    | cons hb4 hbs =>
    cases hbs
    obtain ⟨x1, hx1, rfl⟩ := at_map.1 hb1
    obtain ⟨x2, hx2, rfl⟩ := at_map.1 hb2
    obtain ⟨x3, hx3, rfl⟩ := at_map.1 hb3
    obtain ⟨x4, hx4, rfl⟩ := at_map.1 hb4
    have := at_unique (keysOk_norm' h0) hx1 hx2
    subst this
    have hle : BLe x1.shape.tail x.shape := by
      rw [← hsh p x x1 hx (at_norm.1 hx1)]
      exact ble_tail _
    have hs : ∀ b : RArr, b.shape = [] → BLe b.shape x.shape := fun b hb => by rw [hb]; trivial
    obtain ⟨z, hz⟩ := affine_run (x := x) (a := stat0 minL x1) (b := stat0 maxL x1) (c := lo) (d := hi) hle hle (hs _ hlo) (hs _ hhi)
    exact ⟨_, hz⟩

/-- **C44** A feature that was constant in the fitted data is not a number after transformation, in every row of every data set. -/
theorem C44_constant_lost (s0 s : MinMax) (X0 X Y : Tree RArr) (h0 : KeysOk X0) (hX : KeysOk X) (hfit : s0.fit X0 = .ok s)
    (ht : s.transform X = .ok Y) (p : List Step) (x x0 : RArr) (hx : At X p x) (hx0 : At X0 p x0)
    (htail : x.shape.tail = x0.shape.tail) (hb : ∀ v, BoundAt s0.minVal p v ∨ BoundAt s0.maxVal p v → v ≠ .none) (n : Nat) (hn : 0 < n)
    (j : List Nat) (v : ℝ) (hf : Feature x0 j n fun _ => v) (r : Nat) (hi : InB x.shape (r :: j)) :
    ∃ y, At Y p y ∧ y.val (r :: j) = Option.none := by
  obtain ⟨-, e1, e2, e3, e4⟩ := mm_stats hfit
  obtain ⟨hd, dn, dx, e1', e2', hj⟩ := mm_transform ht
  rw [e1] at e1'; cases e1'
  rw [e2] at e2'; cases e2'
  obtain ⟨hshape, X', h1, h2, h3⟩ := back mm_rel hX hj
  obtain ⟨vs, y, z, hy, hz, hl, hsub, hR⟩ := h3 p x hx
  have hk : ∀ f : RArr → RArr, KeysOk (map f X0.norm) := fun f => (keysOk_map _ _).2 (keysOk_norm' h0)
  match vs, hl with
  | [v1, v2, mn, mx], _ =>
  have b1 : BoundAt s0.minVal p mn := by rw [← e3]; exact spread_sub (hk _) (at_stat hx0) (hsub 2 _ _ rfl rfl)
  have b2 : BoundAt s0.maxVal p mx := by rw [← e4]; exact spread_sub (hk _) (at_stat hx0) (hsub 3 _ _ rfl rfl)
  rcases hR with ⟨hn, rfl, rfl⟩ | ⟨dn, dx, mn', mx', hvs, sy, sz, vy, vz⟩
  · rcases hn with hn | hn
    · exact absurd (by simpa using hn) (hb mn (.inl b1))
    · exact absurd (by simpa using hn) (hb mx (.inr b2))
  · cases hvs
    refine ⟨y, hy, ?_⟩
    have d1 := stat_unique h0 hx0 (hsub 0 _ _ rfl rfl)
    have d2 := stat_unique h0 hx0 (hsub 1 _ _ rfl rfl)
    subst d1 d2
    have r1 : rd (stat0 minL x0) (r :: j) = some v := by
      rw [rd_stat hf.mem, column_feature hf, Option.bind_some, minL_range (a := 0) hn fun k hk => le_refl _]
    have r2 : rd (stat0 maxL x0) (r :: j) = some v := by
      rw [rd_stat hf.mem, column_feature hf, Option.bind_some, maxL_range (b := 0) hn fun k hk => le_refl _]
    have e : lift2 (fun x y : ℝ => x - y) (some v) (some v) = some 0 := by simp [lift2]
    rw [vy _ hi, r1, r2, e, fdiv_zero]
    rfl

/-- **C44** A bound `None` given for a whole list, tuple or dictionary of data (rather than for each array in it) is not "leave all
alone": `transform` raises. -/
theorem C44_none_for_all_refuted (s : MinMax) (X dn dx : Tree RArr) (hd : dataOk X = true) (h1 : s.dmin = some dn) (h2 : s.dmax = some dx)
    (hb : s.minVal = .none) (hX : ∀ x, X ≠ .leaf x) (hX' : X ≠ .none) : s.transform X = .error .valueError := by
  unfold MinMax.transform
  rw [if_pos hd, h1, h2, hb]
  have hnl : (∀ x, X.norm ≠ .leaf x) ∧ X.norm ≠ .none := by
    cases X with
    | leaf a => exact absurd rfl (hX a)
    | none => exact absurd rfl hX'
    | list ts => exact ⟨fun x h => by simp [Tree.norm] at h, fun h => by simp [Tree.norm] at h⟩
    | tuple ts => exact ⟨fun x h => by simp [Tree.norm] at h, fun h => by simp [Tree.norm] at h⟩
    | dict ts => exact ⟨fun x h => by simp [Tree.norm] at h, fun h => by simp [Tree.norm] at h⟩
  have hz : zipAll [dn, dx, .none, spread s.maxVal dx] (map (fun a => (a, ([] : List (Tree RArr)))) X.norm) = .error .valueError := by
    refine zipAll_none (pre := [dn, dx]) (us := [spread s.maxVal dx]) fun h => ?_
    cases hX2 : X.norm with
    | leaf a => exact hnl.1 a hX2
    | none => exact hnl.2 hX2
    | list ts => rw [hX2] at h; rcases h with ⟨x, h⟩ | h <;> simp [map] at h
    | tuple ts => rw [hX2] at h; rcases h with ⟨x, h⟩ | h <;> simp [map] at h
    | dict ts => rw [hX2] at h; rcases h with ⟨x, h⟩ | h <;> simp [map] at h
  have e : spread (.none : Tree RArr) dn = .none := rfl
  simp only [jaxMap, e, hz]

/-- **C44** An unfitted scaler refuses to transform. -/
theorem C44_unfitted (a b : Tree RArr) (X : Tree RArr) (hd : dataOk X = true) :
    (⟨a, b, Option.none, Option.none⟩ : MinMax).transform X = .error .runtimeError ∧
      (⟨a, b, Option.none, Option.none⟩ : MinMax).inverse X = .error .runtimeError := by
  unfold MinMax.transform MinMax.inverse
  simp only [hd]
  exact ⟨rfl, rfl⟩

/-- A scaler with the default range, fitted to `exArr`, meets the hypotheses: it transforms the data and the bounds are numbers. -/
example : ∃ s Y, (⟨.leaf (num 0), .leaf (num 1), Option.none, Option.none⟩ : MinMax).fit (.leaf exArr) = .ok s ∧
    s.transform (.leaf exArr) = .ok Y ∧ BoundAt (.leaf (num 0)) [] (.leaf (num 0)) ∧
    ∀ r < 2, Contributes (num 0) (r :: [0]) 0 ∧ Contributes (num 1) (r :: [0]) 1 := by
  have hd : dataOk (.leaf exArr) = true := exArr_ok
  have hfit : ∃ s, (⟨.leaf (num 0), .leaf (num 1), Option.none, Option.none⟩ : MinMax).fit (.leaf exArr) = .ok s := by
    unfold MinMax.fit; rw [if_pos hd]; exact ⟨_, rfl⟩
  obtain ⟨s, hfit⟩ := hfit
  obtain ⟨Y, hY⟩ := C44_defined _ s (num 0) (num 1) rfl rfl (.leaf exArr) (.leaf exArr) trivial rfl rfl hfit hd rfl
    (fun p x x0 h h' => by cases h; cases h'; rfl)
  refine ⟨s, Y, hfit, hY, .inl ⟨num 0, rfl, rfl, rfl⟩, fun r hr => ⟨⟨[], ⟨rfl, by simp [num], ?_⟩, rfl⟩, ⟨[], ⟨rfl, by simp [num], ?_⟩, rfl⟩⟩⟩
  · intro k d x h; simp [num] at h
  · intro k d x h; simp [num] at h

end Verif.Props
