import Verif.Lemmas.Distance

/-!
# C81: the distance to the training data

Property C81.
-/

namespace Verif.Props
open Tree NArr Dist
open ForwardSpec (At KeysOk)
open NdSpec

/-! ### Distances of rows -/

theorem l1_append {a b c d : List ℝ} (h : a.length = c.length) : l1 (a ++ b) (c ++ d) = l1 a c + l1 b d := by
  unfold l1
  rw [List.zipWith_append h, List.sum_append]

theorem l1_flatMap {α : Type} (f g : α → List ℝ) (L : List α) (h : ∀ a ∈ L, (f a).length = (g a).length) :
    l1 (L.flatMap f) (L.flatMap g) = (L.map fun a => l1 (f a) (g a)).sum := by
  induction L with
  | nil => simp [l1]
  | cons a L ih =>
    rw [List.flatMap_cons, List.flatMap_cons, l1_append (h a (by simp)), ih fun b hb => h b (by simp [hb]), List.map_cons, List.sum_cons]

theorem l1_map {α : Type} (f g : α → ℝ) (L : List α) : l1 (L.map f) (L.map g) = (L.map fun a => |f a - g a|).sum := by
  unfold l1
  congr 1
  induction L with
  | nil => rfl
  | cons a L ih => simp [ih]

theorem l1_nonneg (a b : List ℝ) : 0 ≤ l1 a b := by
  unfold l1
  refine List.sum_nonneg fun v hv => ?_
  rw [← List.map_uncurry_zip_eq_zipWith] at hv
  obtain ⟨p, -, rfl⟩ := List.mem_map.1 hv
  exact abs_nonneg _

theorem sum_indicator {α : Type} [DecidableEq α] {L : List α} (h : L.Nodup) (a : α) (v : ℝ) :
    (L.map fun t => if a = t then v else 0).sum = if a ∈ L then v else 0 := by
  induction L with
  | nil => simp
  | cons b L ih =>
    rw [List.nodup_cons] at h
    rw [List.map_cons, List.sum_cons, ih h.2]
    by_cases e : a = b
    · subst e; simp [h.1]
    · simp [e]

theorem onehot_l1 {L : List (List ℝ)} (h : L.Nodup) {a b : List ℝ} (hb : b ∈ L) :
    l1 (L.map fun t => (if a = t then (1 : ℝ) else 0) / 2) (L.map fun t => (if b = t then (1 : ℝ) else 0) / 2) =
      if a = b then 0 else if a ∈ L then 1 else 1 / 2 := by
  rw [l1_map]
  by_cases e : a = b
  · subst e; simp
  · rw [if_neg e]
    have : ∀ t ∈ L, |(if a = t then (1 : ℝ) else 0) / 2 - (if b = t then (1 : ℝ) else 0) / 2| = (if a = t then (1 / 2 : ℝ) else 0) + (if b = t then 1 / 2 else 0) := by
      intro t _
      by_cases h1 : a = t
      · have h2 : b ≠ t := fun h2 => e (h1.trans h2.symm)
        simp [h1, h2]
      · by_cases h2 : b = t
        · simp [h1, h2]
        · simp [h1, h2]
    rw [List.map_congr_left this, List.sum_map_add, sum_indicator h, sum_indicator h, if_pos hb]
    split <;> norm_num

theorem isRange_rng {f : Feat} {m : Nat} {s : List Nat} (ht : f.train.shape = m :: s) {j : List Nat} {v : ℝ} (h : IsRange f.train m j v) :
    rng f j = v := by
  obtain ⟨lo, hlo, hi, hhi, rfl, hb⟩ := h
  have hc := column_component ht j
  have hmem : ∀ r < m, f.train.val (r :: j) ∈ Conformal.column f.train j := fun r hr => by
    rw [hc]; exact List.mem_map.2 ⟨r, List.mem_range.2 hr, rfl⟩
  obtain ⟨w, a, b, hw, rfl, ha, hb', hab⟩ := ptp_spec (l := Conformal.column f.train j) (List.ne_nil_of_mem (hmem lo hlo))
  unfold rng
  rw [hw, Option.getD_some]
  rw [hc] at ha hb'
  obtain ⟨ra, hra, rfl⟩ := List.mem_map.1 ha
  obtain ⟨rb, hrb, rfl⟩ := List.mem_map.1 hb'
  have h1 := (hab _ (hmem lo hlo)).1
  have h2 := (hab _ (hmem hi hhi)).2
  have h3 := (hb ra (List.mem_range.1 hra)).1
  have h4 := (hb rb (List.mem_range.1 hrb)).2
  linarith

theorem isRange_nonneg {t : NArr ℝ} {m : Nat} {j : List Nat} {v : ℝ} (h : IsRange t m j v) : 0 ≤ v := by
  obtain ⟨lo, hlo, hi, hhi, rfl, hb⟩ := h
  linarith [(hb lo hlo).2]

theorem comparable_regular {ρ : Feat → List Nat → ℝ} {n m c : Nat} {f : Feat} {s : List Nat} (h : Comparable ρ n m c f s) : Regular m s f where
  train := h.train
  range := fun hd hc j hj => by
    rw [isRange_rng h.train (h.range hd hc j hj).1]
    exact (h.range hd hc j hj).2
  cat := h.cat

theorem coords_length (f : Feat) (x y : NArr ℝ) (k r : Nat) : (coords f x k).length = (coords f y r).length := by
  unfold coords
  split
  · split <;> simp
  · rfl

theorem row_one {x : NArr ℝ} {n : Nat} (h : x.shape = [n, 1]) (k : Nat) : OneHot.row x k = [x.val [k, 0]] := by
  unfold OneHot.row
  rw [h]
  simp [indices]

theorem coords_part {ρ : Feat → List Nat → ℝ} {n m c : Nat} {f : Feat} {s : List Nat} (h : Comparable ρ n m c f s) {k r : Nat} (hr : r < m)
    (hs : f.dist = true → f.cont = false → ∃ q < m, f.x.val [k, 0] = f.train.val [q, 0]) :
    l1 (coords f f.x k) (coords f f.train r) = featDist ρ f k r := by
  unfold coords featDist
  by_cases hd : f.dist = true
  · rw [if_pos hd, if_pos hd, if_pos hd]
    by_cases hc : f.cont = true
    · rw [if_pos hc, if_pos hc, if_pos hc, l1_map]
      congr 1
      refine List.map_congr_left fun j hj => ?_
      have hj : InB s j := by rw [h.train] at hj; exact mem_indices.1 hj
      have hR := h.range hd hc j hj
      rw [isRange_rng h.train hR.1, ← sub_div, abs_div, abs_of_nonneg (isRange_nonneg hR.1)]
    · rw [if_neg hc, if_neg hc, if_neg hc]
      have hc : f.cont = false := by simpa using hc
      have hs1 := h.cat hd hc
      have ht := h.train
      have hx := h.x
      rw [hs1] at ht hx
      have hmem : ∀ q < m, [f.train.val [q, 0]] ∈ OneHot.uniq (OneHot.rows f.train) := fun q hq =>
        OneHot.mem_uniq.2 (OneHot.mem_rows.2 ⟨q, by rw [ht]; exact hq, row_one ht q⟩)
      rw [row_one hx, row_one ht]
      rw [onehot_l1 (OneHot.nodup_uniq _) (hmem r hr)]
      obtain ⟨q, hq, e⟩ := hs hd hc
      by_cases e' : f.x.val [k, 0] = f.train.val [r, 0]
      · simp [e']
      · rw [if_neg (by simpa using e'), if_neg e', if_pos (by rw [e]; exact hmem q hq)]
  · rw [if_neg hd, if_neg hd, if_neg hd]
    simp [l1]

/-! ### The run -/

/-- The coordinates of a sample. -/
noncomputable def point (D : List Feat) (sel : Feat → NArr ℝ) (k : Nat) : List ℝ := D.flatMap fun f => coords f (sel f) k

theorem prod_indices (s : List Nat) : s.foldr (· * ·) 1 = (indices s).length := by
  rw [length_indices]

theorem number_run {D : Tree Feat} (hD : KeysOk D) {ρ : Feat → List Nat → ℝ} {n m c : Nat} (hr : ∀ f ∈ flat D, ∃ s, Comparable ρ n m c f s) :
    number (map Feat.cal D) (map Feat.cont D) (map Feat.dist D) = .ok (count (jaxLeaves D)) := by
  unfold number
  rw [jaxMap_triple (h := fun f : Feat => if f.cont && f.dist then f.cal.shape.tail.foldr (· * ·) 1 else if f.dist then 1 else 0)
    (two_norm _ .typeError (fun _ _ _ => rfl) fun a vs h => by
      unfold countLeaf
      split
      · exact absurd rfl (h _ _)
      · rfl) Feat.cal Feat.cont Feat.dist (fun f => rfl) hD]
  simp only [Except.map]
  rw [leaves_norm _ hD]
  congr 2
  unfold jaxLeaves
  refine List.map_congr_left fun f hf => ?_
  obtain ⟨s, hs⟩ := hr f (mem_flat_norm.1 hf)
  rw [prod_indices, hs.cal, hs.train]
  cases f.cont <;> cases f.dist <;> simp

theorem distances_run {D : Tree Feat} (hD : KeysOk D) (hne : jaxLeaves D ≠ []) {ρ : Feat → List Nat → ℝ} {n m c : Nat}
    (hr : ∀ f ∈ flat D, ∃ s, Comparable ρ n m c f s) (cutoff : ℝ) :
    distances (map Feat.train D) (map Feat.cal D) (map Feat.cont D) (map Feat.dist D) cutoff (map Feat.x D) =
      .ok ((List.range n).map fun k => distance (OneHot.uniq ((List.range m).map (point (jaxLeaves D) Feat.train))) cutoff (count (jaxLeaves D))
        (point (jaxLeaves D) Feat.x k)) := by
  unfold distances
  rw [number_run hD hr, fit_run hD (m := m) fun f hf => ?_]
  · simp only [Bind.bind, Except.bind]
    rw [prepare_run hD hne (m := m) (n := m) Feat.train fun f hf => ?_]
    · simp only
      rw [prepare_run hD hne (m := m) (n := n) Feat.x fun f hf => ?_]
      · simp only [List.map_map]
        rfl
      · obtain ⟨s, hs⟩ := hr f hf
        exact ⟨s, comparable_regular hs, hs.x⟩
    · obtain ⟨s, hs⟩ := hr f hf
      exact ⟨s, comparable_regular hs, hs.train⟩
  · obtain ⟨s, hs⟩ := hr f hf
    exact ⟨s, comparable_regular hs⟩

theorem point_gower {D : List Feat} {ρ : Feat → List Nat → ℝ} {n m c : Nat} (hr : ∀ f ∈ D, ∃ s, Comparable ρ n m c f s) (h0 : count D ≠ 0)
    {k r : Nat} (hrm : r < m) (hs : Seen D m k) : l1 (point D Feat.x k) (point D Feat.train r) = count D * gower ρ D k r := by
  unfold point gower
  rw [l1_flatMap _ _ _ fun f _ => coords_length f _ _ _ _, mul_div_cancel₀ _ (by exact_mod_cast h0)]
  congr 1
  refine List.map_congr_left fun f hf => ?_
  obtain ⟨s, h⟩ := hr f hf
  exact coords_part h hrm (hs f hf)

theorem flatMap_inj {α : Type} (f g : α → List ℝ) : ∀ (L : List α), (∀ a ∈ L, (f a).length = (g a).length) → L.flatMap f = L.flatMap g → ∀ a ∈ L, f a = g a := by
  intro L
  induction L with
  | nil => intro _ _ a ha; simp at ha
  | cons b L ih =>
    intro h e a ha
    rw [List.flatMap_cons, List.flatMap_cons] at e
    obtain ⟨e1, e2⟩ := List.append_inj e (h b (by simp))
    rcases List.mem_cons.1 ha with rfl | ha
    · exact e1
    · exact ih (fun c hc => h c (by simp [hc])) e2 a ha

theorem point_eq {D : List Feat} {ρ : Feat → List Nat → ℝ} {n m c : Nat} (hr : ∀ f ∈ D, ∃ s, Comparable ρ n m c f s) {r q : Nat} (hrm : r < m)
    (_hqm : q < m) : point D Feat.train r = point D Feat.train q ↔ SameSample D r q := by
  constructor
  · intro e f hf hd j hj
    obtain ⟨s, h⟩ := hr f hf
    have e := flatMap_inj _ _ D (fun f _ => coords_length f _ _ _ _) e f hf
    unfold coords at e
    rw [if_pos hd, if_pos hd] at e
    by_cases hc : f.cont = true
    · rw [if_pos hc, if_pos hc] at e
      have := List.map_inj_left.1 e j (mem_indices.2 hj)
      have hj : InB s j := by rw [h.train] at hj; exact hj
      have hR := h.range hd hc j hj
      rw [isRange_rng h.train hR.1] at this
      exact (div_left_inj' hR.2).1 this
    · rw [if_neg hc, if_neg hc] at e
      have hmem : OneHot.row f.train r ∈ OneHot.uniq (OneHot.rows f.train) := OneHot.mem_uniq.2 (OneHot.mem_rows.2 ⟨r, by rw [h.train]; exact hrm, rfl⟩)
      have := List.map_inj_left.1 e _ hmem
      rw [if_pos rfl] at this
      by_cases e' : OneHot.row f.train q = OneHot.row f.train r
      · exact ((OneHot.row_eq rfl).1 e' j hj).symm
      · rw [if_neg e'] at this
        norm_num at this
  · intro hs
    unfold point
    have key : ∀ f ∈ D, coords f f.train r = coords f f.train q := by
      intro f hf
      unfold coords
      by_cases hd : f.dist = true
      · rw [if_pos hd, if_pos hd]
        have e := hs f hf hd
        by_cases hc : f.cont = true
        · rw [if_pos hc, if_pos hc]
          refine List.map_congr_left fun j hj => ?_
          rw [e j (mem_indices.1 hj)]
        · rw [if_neg hc, if_neg hc, (OneHot.row_eq rfl).2 fun j hj => e j hj]
      · rw [if_neg hd, if_neg hd]
    rw [List.flatMap_def, List.flatMap_def, List.map_congr_left key]

/-! ### Nearest points and neighbourhoods -/

theorem nearest_spec {U : List (List ℝ)} (hU : U ≠ []) (x : List ℝ) : ∃ d, nearest U x = some d ∧ (∃ u ∈ U, d = l1 x u) ∧ ∀ u ∈ U, d ≤ l1 x u := by
  cases U with
  | nil => exact absurd rfl hU
  | cons u us =>
    have key : ∀ (l : List (List ℝ)) (a : ℝ), (l.foldl (fun a v => min a (l1 x v)) a = a ∨ ∃ v ∈ l, l.foldl (fun a v => min a (l1 x v)) a = l1 x v) ∧
        l.foldl (fun a v => min a (l1 x v)) a ≤ a ∧ ∀ v ∈ l, l.foldl (fun a v => min a (l1 x v)) a ≤ l1 x v := by
      intro l
      induction l with
      | nil => intro a; simp
      | cons v l ih =>
        intro a
        obtain ⟨h1, h2, h3⟩ := ih (min a (l1 x v))
        rw [List.foldl_cons]
        refine ⟨?_, h2.trans (min_le_left _ _), fun w hw => ?_⟩
        · rcases h1 with h1 | ⟨w, hw, h1⟩
          · rcases min_choice a (l1 x v) with h | h
            · exact .inl (h1.trans h)
            · exact .inr ⟨v, by simp, h1.trans h⟩
          · exact .inr ⟨w, by simp [hw], h1⟩
        · rcases List.mem_cons.1 hw with rfl | hw
          · exact h2.trans (min_le_right _ _)
          · exact h3 w hw
    obtain ⟨h1, h2, h3⟩ := key us (l1 x u)
    refine ⟨_, rfl, ?_, fun v hv => ?_⟩
    · rcases h1 with h1 | ⟨v, hv, h1⟩
      · exact ⟨u, by simp, h1⟩
      · exact ⟨v, by simp [hv], h1⟩
    · rcases List.mem_cons.1 hv with rfl | hv
      · exact h2
      · exact h3 v hv

theorem uniq_perm {D : List Feat} {ρ : Feat → List Nat → ℝ} {n m c : Nat} (hr : ∀ f ∈ D, ∃ s, Comparable ρ n m c f s) {reps : List Nat}
    (hR : Distinct D m reps) : (OneHot.uniq ((List.range m).map (point D Feat.train))).Perm (reps.map (point D Feat.train)) := by
  refine (List.perm_ext_iff_of_nodup (OneHot.nodup_uniq _) ?_).2 fun a => ?_
  · rw [List.Nodup, List.pairwise_map]
    refine (List.Pairwise.and_mem.1 hR.once).imp fun {r q} h e => ?_
    exact h.2.2 ((point_eq hr (hR.bound r h.1) (hR.bound q h.2.1)).1 e)
  · rw [OneHot.mem_uniq, List.mem_map, List.mem_map]
    constructor
    · rintro ⟨r, h, rfl⟩
      obtain ⟨q, hq, hs⟩ := hR.cover r (List.mem_range.1 h)
      exact ⟨q, hq, ((point_eq hr (List.mem_range.1 h) (hR.bound q hq)).2 hs).symm⟩
    · rintro ⟨r, h, rfl⟩
      exact ⟨r, List.mem_range.2 (hR.bound r h), rfl⟩

/-- C81: the distance sensitivity is one number per sample. If no training sample lies within the cutoff it is the Gower distance to the
nearest training sample, otherwise the mean of the Gower distances to the distinct training samples within the cutoff (which is given in
units of the sum over the components). -/
theorem C81_distance {D : Tree Feat} (hD : KeysOk D) {ρ : Feat → List Nat → ℝ} {n m c : Nat} (hr : ∀ f ∈ flat D, ∃ s, Comparable ρ n m c f s)
    (h0 : count (jaxLeaves D) ≠ 0) (hm : m ≠ 0) (cutoff : ℝ) :
    ∃ ds, distances (map Feat.train D) (map Feat.cal D) (map Feat.cont D) (map Feat.dist D) cutoff (map Feat.x D) = .ok ds ∧ ds.length = n ∧
      ∀ k < n, Seen (jaxLeaves D) m k → ∃ d, ds[k]? = some (some d) ∧
        ((∀ r < m, cutoff / count (jaxLeaves D) < gower ρ (jaxLeaves D) k r) →
          (∃ r < m, d = gower ρ (jaxLeaves D) k r) ∧ ∀ r < m, d ≤ gower ρ (jaxLeaves D) k r) ∧
        ∀ reps near, Distinct (jaxLeaves D) m reps → near.Perm (reps.filter fun r => decide (gower ρ (jaxLeaves D) k r ≤ cutoff / count (jaxLeaves D))) →
          near ≠ [] → d = (near.map (gower ρ (jaxLeaves D) k)).sum / near.length := by
  have hne : jaxLeaves D ≠ [] := fun e => h0 (by rw [e]; rfl)
  have hr' : ∀ f ∈ jaxLeaves D, ∃ s, Comparable ρ n m c f s := fun f hf => hr f (mem_flat_norm.1 hf)
  refine ⟨_, distances_run hD hne hr cutoff, by simp, fun k hk hs => ?_⟩
  generalize jaxLeaves D = L at h0 hr' hs
  have hg : ∀ r < m, l1 (point L Feat.x k) (point L Feat.train r) = count L * gower ρ L k r := fun r h => point_gower hr' h0 h hs
  have hcp : (0 : ℝ) < count L := by exact_mod_cast Nat.pos_of_ne_zero h0
  have hmem : ∀ r < m, point L Feat.train r ∈ OneHot.uniq ((List.range m).map (point L Feat.train)) := fun r h =>
    OneHot.mem_uniq.2 (List.mem_map.2 ⟨r, List.mem_range.2 h, rfl⟩)
  have hmem' : ∀ u ∈ OneHot.uniq ((List.range m).map (point L Feat.train)), ∃ r < m, point L Feat.train r = u := fun u hu => by
    obtain ⟨r, h, e⟩ := List.mem_map.1 (OneHot.mem_uniq.1 hu)
    exact ⟨r, List.mem_range.1 h, e⟩
  have hU : OneHot.uniq ((List.range m).map (point L Feat.train)) ≠ [] := List.ne_nil_of_mem (hmem 0 (Nat.pos_of_ne_zero hm))
  obtain ⟨d, hd, ⟨u, hu, e⟩, hmin⟩ := nearest_spec hU (point L Feat.x k)
  have hd0 : 0 ≤ d := by rw [e]; exact l1_nonneg _ _
  have hval : ∀ M, meanDistance (OneHot.uniq ((List.range m).map (point L Feat.train))) cutoff (point L Feat.x k) = M →
      ((List.range n).map fun k => distance (OneHot.uniq ((List.range m).map (point L Feat.train))) cutoff (count L) (point L Feat.x k))[k]? =
        some (some (max M d / count L)) := by
    rintro M rfl
    rw [List.getElem?_map, List.getElem?_range hk]
    simp only [Option.map_some, distance, hd]
  refine ⟨_, hval _ rfl, fun hfar => ?_, fun reps near hR hnear hn => ?_⟩
  · have hb : ball (OneHot.uniq ((List.range m).map (point L Feat.train))) cutoff (point L Feat.x k) = [] := by
      unfold ball
      rw [List.filter_eq_nil_iff]
      intro v hv
      obtain ⟨r, hrm, rfl⟩ := hmem' v hv
      rw [decide_eq_true_eq, hg r hrm, not_le]
      have := hfar r hrm
      rwa [div_lt_iff₀' hcp] at this
    have hM : meanDistance (OneHot.uniq ((List.range m).map (point L Feat.train))) cutoff (point L Feat.x k) = 0 := by
      unfold meanDistance
      rw [hb]; rfl
    rw [hM, max_eq_right hd0]
    constructor
    · obtain ⟨r, hrm, rfl⟩ := hmem' u hu
      exact ⟨r, hrm, by rw [e, hg r hrm, mul_div_cancel_left₀ _ hcp.ne']⟩
    · intro r hrm
      have := hmin _ (hmem r hrm)
      rw [hg r hrm] at this
      rwa [div_le_iff₀' hcp]
  · have hp := uniq_perm hr' hR
    have hb : (ball (OneHot.uniq ((List.range m).map (point L Feat.train))) cutoff (point L Feat.x k)).Perm (near.map (point L Feat.train)) := by
      unfold ball
      refine (hp.filter _).trans ?_
      rw [List.filter_map]
      refine List.Perm.map _ ?_
      refine List.Perm.trans ?_ hnear.symm
      refine List.Perm.of_eq (List.filter_congr fun r hr => ?_)
      simp only [Function.comp_apply]
      rw [hg r (hR.bound r hr), decide_eq_decide, le_div_iff₀' hcp]
    have hnm : ∀ r ∈ near, r < m := fun r h => hR.bound r (List.mem_of_mem_filter (hnear.mem_iff.1 h))
    have hlen : (ball (OneHot.uniq ((List.range m).map (point L Feat.train))) cutoff (point L Feat.x k)).length = near.length := by
      rw [hb.length_eq, List.length_map]
    have hsum : ((ball (OneHot.uniq ((List.range m).map (point L Feat.train))) cutoff (point L Feat.x k)).map (l1 (point L Feat.x k))).sum =
        count L * (near.map (gower ρ L k)).sum := by
      rw [(hb.map _).sum_eq, List.map_map, ← List.sum_map_mul_left]
      congr 1
      exact List.map_congr_left fun r h => hg r (hnm r h)
    have hl0 : (0 : ℝ) < near.length := by exact_mod_cast List.length_pos_of_ne_nil hn
    have hM : meanDistance (OneHot.uniq ((List.range m).map (point L Feat.train))) cutoff (point L Feat.x k) =
        count L * (near.map (gower ρ L k)).sum / near.length := by
      unfold meanDistance
      rw [if_neg (by rw [hlen]; exact fun h => hn (List.length_eq_zero_iff.1 h)), hsum, hlen]
    rw [hM, max_eq_left]
    · field_simp
    · rw [le_div_iff₀ hl0, ← List.sum_map_mul_left, mul_comm]
      have : ∀ l : List Nat, (∀ r ∈ l, r < m) → l.length * d ≤ (l.map fun r => count L * gower ρ L k r).sum := by
        intro l
        induction l with
        | nil => intro _; simp
        | cons r l ih =>
          intro h
          have h1 := ih fun q hq => h q (by simp [hq])
          have h2 := hmin _ (hmem r (h r (by simp)))
          rw [hg r (h r (by simp))] at h2
          rw [List.map_cons, List.sum_cons, List.length_cons]
          push_cast
          linarith
      exact this near hnm

/-! ### Bounds -/

theorem sameSample_symm {D : List Feat} {r q : Nat} (h : SameSample D r q) : SameSample D q r := fun f hf hd j hj => (h f hf hd j hj).symm

theorem distinct_exists (D : List Feat) : ∀ m, ∃ reps, Distinct D m reps
  | 0 => ⟨[], by simp, by simp, .nil⟩
  | m + 1 => by
    classical
    obtain ⟨reps, h⟩ := distinct_exists D m
    by_cases e : ∃ q ∈ reps, SameSample D m q
    · obtain ⟨q, hq, e⟩ := e
      refine ⟨reps, fun r hr => (h.bound r hr).trans (Nat.lt_succ_self m), fun r hr => ?_, h.once⟩
      rcases Nat.lt_succ_iff_lt_or_eq.1 hr with hr | rfl
      · exact h.cover r hr
      · exact ⟨q, hq, e⟩
    · refine ⟨reps ++ [m], fun r hr => ?_, fun r hr => ?_, ?_⟩
      · rcases List.mem_append.1 hr with hr | hr
        · exact (h.bound r hr).trans (Nat.lt_succ_self m)
        · rw [List.mem_singleton.1 hr]; exact Nat.lt_succ_self m
      · rcases Nat.lt_succ_iff_lt_or_eq.1 hr with hr | rfl
        · obtain ⟨q, hq, hs⟩ := h.cover r hr
          exact ⟨q, by simp [hq], hs⟩
        · exact ⟨r, by simp, fun _ _ _ _ _ => rfl⟩
      · refine List.pairwise_append.2 ⟨h.once, by simp, fun r hr q hq hs => ?_⟩
        rw [List.mem_singleton.1 hq] at hs
        exact e ⟨r, hr, sameSample_symm hs⟩

/-- C81: the distance sensitivity lies between the smallest and the largest Gower distance to a training sample. -/
theorem C81_between {D : Tree Feat} (hD : KeysOk D) {ρ : Feat → List Nat → ℝ} {n m c : Nat} (hr : ∀ f ∈ flat D, ∃ s, Comparable ρ n m c f s)
    (h0 : count (jaxLeaves D) ≠ 0) (hm : m ≠ 0) (cutoff : ℝ) :
    ∃ ds, distances (map Feat.train D) (map Feat.cal D) (map Feat.cont D) (map Feat.dist D) cutoff (map Feat.x D) = .ok ds ∧
      ∀ k < n, Seen (jaxLeaves D) m k → ∃ d, ds[k]? = some (some d) ∧
        ∀ lo hi, (∀ r < m, lo ≤ gower ρ (jaxLeaves D) k r ∧ gower ρ (jaxLeaves D) k r ≤ hi) → lo ≤ d ∧ d ≤ hi := by
  obtain ⟨ds, h1, -, h2⟩ := C81_distance hD hr h0 hm cutoff
  refine ⟨ds, h1, fun k hk hs => ?_⟩
  obtain ⟨d, hd, hfar, hnear⟩ := h2 k hk hs
  refine ⟨d, hd, fun lo hi hb => ?_⟩
  by_cases hf : ∀ r < m, cutoff / count (jaxLeaves D) < gower ρ (jaxLeaves D) k r
  · obtain ⟨⟨r, hrm, e⟩, -⟩ := hfar hf
    rw [e]
    exact hb r hrm
  · push Not at hf
    obtain ⟨r, hrm, hle⟩ := hf
    obtain ⟨reps, hR⟩ := distinct_exists (jaxLeaves D) m
    have hr' : ∀ f ∈ jaxLeaves D, ∃ s, Comparable ρ n m c f s := fun f hf => hr f (mem_flat_norm.1 hf)
    generalize hN : reps.filter (fun r => decide (gower ρ (jaxLeaves D) k r ≤ cutoff / count (jaxLeaves D))) = N at *
    have hNm : ∀ q ∈ N, q < m := fun q hq => by rw [← hN] at hq; exact hR.bound q (List.mem_of_mem_filter hq)
    have hN0 : N ≠ [] := by
      obtain ⟨q, hq, hs'⟩ := hR.cover r hrm
      have e : gower ρ (jaxLeaves D) k q = gower ρ (jaxLeaves D) k r := by
        have a := point_gower hr' h0 hrm hs
        have b := point_gower hr' h0 (hR.bound q hq) hs
        rw [(point_eq hr' hrm (hR.bound q hq)).2 hs', b] at a
        exact mul_left_cancel₀ (by exact_mod_cast h0) a
      rw [← hN]
      exact List.ne_nil_of_mem (List.mem_filter.2 ⟨hq, by rw [e]; simpa using hle⟩)
    have hd := hnear reps N hR (by rw [hN]) hN0
    have hl0 : (0 : ℝ) < N.length := by exact_mod_cast List.length_pos_of_ne_nil hN0
    rw [hd, le_div_iff₀ hl0, div_le_iff₀ hl0]
    clear hN hN0 hd hl0 hnear
    induction N with
    | nil => simp
    | cons q N ih =>
      obtain ⟨i1, i2⟩ := ih fun p hp => hNm p (by simp [hp])
      have := hb q (hNm q (by simp))
      rw [List.map_cons, List.sum_cons, List.length_cons]
      push_cast
      constructor <;> linarith

theorem gower_unit {D : List Feat} {ρ : Feat → List Nat → ℝ} {n m c : Nat} (hr : ∀ f ∈ D, ∃ s, Comparable ρ n m c f s) {k r : Nat} (hrm : r < m)
    (hin : ∀ f ∈ D, f.dist = true → f.cont = true → ∀ j, InB f.train.shape.tail j →
      ∃ lo < m, ∃ hi < m, f.train.val (lo :: j) ≤ f.x.val (k :: j) ∧ f.x.val (k :: j) ≤ f.train.val (hi :: j)) :
    0 ≤ gower ρ D k r ∧ gower ρ D k r ≤ 1 := by
  have key : 0 ≤ (D.map fun f => featDist ρ f k r).sum ∧ (D.map fun f => featDist ρ f k r).sum ≤ count D := by
    unfold count
    induction D with
    | nil => simp
    | cons f D ih =>
      obtain ⟨i1, i2⟩ := ih (fun g hg => hr g (by simp [hg])) fun g hg => hin g (by simp [hg])
      obtain ⟨s, h⟩ := hr f (by simp)
      have h3 : 0 ≤ featDist ρ f k r ∧ featDist ρ f k r ≤ ((if f.dist then if f.cont then (indices f.train.shape.tail).length else 1 else 0 : Nat) : ℝ) := by
        unfold featDist
        by_cases hd : f.dist = true
        · by_cases hc : f.cont = true
          · rw [if_pos hd, if_pos hc, if_pos hd, if_pos hc]
            have : ∀ j ∈ indices f.train.shape.tail, 0 ≤ |f.x.val (k :: j) - f.train.val (r :: j)| / ρ f j ∧ |f.x.val (k :: j) - f.train.val (r :: j)| / ρ f j ≤ 1 := by
              intro j hj
              have hj := mem_indices.1 hj
              obtain ⟨lo, hlo, hi, hhi, h1, h2⟩ := hin f (by simp) hd hc j hj
              have hj' : InB s j := by rw [h.train] at hj; exact hj
              obtain ⟨hR, hne⟩ := h.range hd hc j hj'
              have hnn := isRange_nonneg hR
              have hpos := lt_of_le_of_ne hnn (Ne.symm hne)
              obtain ⟨a, ha, b, hb, e, hab⟩ := hR
              refine ⟨by positivity, ?_⟩
              rw [div_le_one hpos, e, abs_le]
              constructor <;> linarith [(hab lo hlo).1, (hab hi hhi).2, (hab r hrm).1, (hab r hrm).2]
            generalize indices f.train.shape.tail = J at this
            induction J with
            | nil => simp
            | cons j J ih =>
              obtain ⟨a1, a2⟩ := ih fun i hi => this i (by simp [hi])
              have := this j (by simp)
              rw [List.map_cons, List.sum_cons, List.length_cons]
              push_cast
              constructor <;> linarith
          · rw [if_pos hd, if_neg hc, if_pos hd, if_neg hc]
            split <;> simp
        · rw [if_neg hd, if_neg hd]; simp
      rw [List.map_cons, List.sum_cons, List.map_cons, List.sum_cons, Nat.cast_add]
      constructor <;> linarith
  unfold gower
  exact ⟨div_nonneg key.1 (Nat.cast_nonneg _), div_le_one_of_le₀ key.2 (Nat.cast_nonneg _)⟩

/-- C81: for samples within the ranges of the training data and with known categories, distance sensitivities lie between 0 and 1. -/
theorem C81_unit {D : Tree Feat} (hD : KeysOk D) {ρ : Feat → List Nat → ℝ} {n m c : Nat} (hr : ∀ f ∈ flat D, ∃ s, Comparable ρ n m c f s)
    (h0 : count (jaxLeaves D) ≠ 0) (hm : m ≠ 0) (cutoff : ℝ) :
    ∃ ds, distances (map Feat.train D) (map Feat.cal D) (map Feat.cont D) (map Feat.dist D) cutoff (map Feat.x D) = .ok ds ∧
      ∀ k < n, Seen (jaxLeaves D) m k →
        (∀ f ∈ jaxLeaves D, f.dist = true → f.cont = true → ∀ j, InB f.train.shape.tail j →
          ∃ lo < m, ∃ hi < m, f.train.val (lo :: j) ≤ f.x.val (k :: j) ∧ f.x.val (k :: j) ≤ f.train.val (hi :: j)) →
        ∃ d, ds[k]? = some (some d) ∧ 0 ≤ d ∧ d ≤ 1 := by
  obtain ⟨ds, h1, h2⟩ := C81_between hD hr h0 hm cutoff
  refine ⟨ds, h1, fun k hk hs hin => ?_⟩
  obtain ⟨d, hd, hb⟩ := h2 k hk hs
  exact ⟨d, hd, hb 0 1 fun r hrm => gower_unit (fun f hf => hr f (mem_flat_norm.1 hf)) hrm hin⟩

/-! ### Order and repetition of the training samples -/

theorem uniq_congr {R S : List (List ℝ)} (h : ∀ a, a ∈ R ↔ a ∈ S) : OneHot.uniq R = OneHot.uniq S := by
  refine List.Perm.eq_of_pairwise (fun a b _ _ h1 h2 => OneHot.lexLe_antisymm a b h1 h2) (OneHot.uniq_sorted R) (OneHot.uniq_sorted S) ?_
  exact (List.perm_ext_iff_of_nodup (OneHot.nodup_uniq _) (OneHot.nodup_uniq _)).2 fun a => by rw [OneHot.mem_uniq, OneHot.mem_uniq, h]

theorem coords_retrain {ρ ρ' : Feat → List Nat → ℝ} {n m m' c : Nat} {f : Feat} {t : NArr ℝ} {s : List Nat} (h : Comparable ρ n m c f s)
    (h' : Comparable ρ' n m' c { f with train := t } s)
    (h1 : ∀ r < m, ∃ q < m', ∀ j, InB s j → f.train.val (r :: j) = t.val (q :: j))
    (h2 : ∀ q < m', ∃ r < m, ∀ j, InB s j → f.train.val (r :: j) = t.val (q :: j)) (x : NArr ℝ) (k : Nat) :
    coords f x k = coords { f with train := t } x k := by
  have ht : t.shape = m' :: s := h'.train
  unfold coords
  simp only
  by_cases hd : f.dist = true
  · rw [if_pos hd, if_pos hd]
    by_cases hc : f.cont = true
    · rw [if_pos hc, if_pos hc, h.train, ht]
      refine List.map_congr_left fun j hj => ?_
      have hj : InB s j := mem_indices.1 hj
      have e : rng f j = rng { f with train := t } j := by
        rw [isRange_rng h.train (h.range hd hc j hj).1]
        refine (isRange_rng (f := { f with train := t }) h'.train ?_).symm
        obtain ⟨lo, hlo, hi, hhi, e, hb⟩ := (h.range hd hc j hj).1
        obtain ⟨lo', hlo', el⟩ := h1 lo hlo
        obtain ⟨hi', hhi', eh⟩ := h1 hi hhi
        refine ⟨lo', hlo', hi', hhi', by simp only [e, el j hj, eh j hj], fun q hq => ?_⟩
        obtain ⟨r, hrm, er⟩ := h2 q hq
        simp only
        rw [← el j hj, ← eh j hj, ← er j hj]
        exact hb r hrm
      rw [e]
    · rw [if_neg hc, if_neg hc]
      have : OneHot.uniq (OneHot.rows f.train) = OneHot.uniq (OneHot.rows t) := by
        have row : ∀ r q, (∀ j, InB s j → f.train.val (r :: j) = t.val (q :: j)) → OneHot.row f.train r = OneHot.row t q := fun r q e =>
          (OneHot.row_eq (by rw [h.train, ht]; rfl)).2 fun j hj => e j (by rw [h.train] at hj; exact hj)
        refine uniq_congr fun a => ?_
        rw [OneHot.mem_rows, OneHot.mem_rows, h.train, ht]
        constructor
        · rintro ⟨r, hrm, rfl⟩
          obtain ⟨q, hq, e⟩ := h1 r hrm
          exact ⟨q, hq, (row r q e).symm⟩
        · rintro ⟨q, hq, rfl⟩
          obtain ⟨r, hrm, e⟩ := h2 q hq
          exact ⟨r, hrm, row r q e⟩
      rw [this]
  · rw [if_neg hd, if_neg hd]

theorem jaxLeaves_map' {α β : Type} (f : α → β) (D : Tree α) : jaxLeaves (map f D) = (jaxLeaves D).map f := Matmul.jaxLeaves_map f D

/-- C81: neither the order of the training samples nor repetitions matter: training data with the same samples gives the same distance
sensitivities. -/
theorem C81_order {D : Tree Feat} (hD : KeysOk D) (t : Feat → NArr ℝ) {ρ ρ' : Feat → List Nat → ℝ} {n m m' c : Nat}
    (hr : ∀ f ∈ flat D, ∃ s, Comparable ρ n m c f s ∧ Comparable ρ' n m' c { f with train := t f } s)
    (h0 : count (jaxLeaves D) ≠ 0)
    (h1 : ∀ r < m, ∃ q < m', ∀ f ∈ flat D, ∀ j, InB f.train.shape.tail j → f.train.val (r :: j) = (t f).val (q :: j))
    (h2 : ∀ q < m', ∃ r < m, ∀ f ∈ flat D, ∀ j, InB f.train.shape.tail j → f.train.val (r :: j) = (t f).val (q :: j)) (cutoff : ℝ) :
    distances (map t D) (map Feat.cal D) (map Feat.cont D) (map Feat.dist D) cutoff (map Feat.x D) =
      distances (map Feat.train D) (map Feat.cal D) (map Feat.cont D) (map Feat.dist D) cutoff (map Feat.x D) := by
  have hne : jaxLeaves D ≠ [] := fun e => h0 (by rw [e]; rfl)
  have e1 := distances_run hD hne (fun f hf => (hr f hf).imp fun s h => h.1) cutoff
  have hD' : KeysOk (map (fun f : Feat => { f with train := t f }) D) := (keysOk_map _ _).2 hD
  have hne' : jaxLeaves (map (fun f : Feat => { f with train := t f }) D) ≠ [] := by rw [jaxLeaves_map']; simpa using hne
  have e2 := distances_run (ρ := ρ') (n := n) (m := m') (c := c) hD' hne' (fun f hf => by
    rw [flat_map] at hf
    obtain ⟨g, hg, rfl⟩ := List.mem_map.1 hf
    exact (hr g hg).imp fun s h => h.2) cutoff
  simp only [Tree.map_map] at e2
  have hm : ∀ g : Feat → NArr ℝ, (∀ f : Feat, g { f with train := t f } = g f) → map (g ∘ fun f : Feat => { f with train := t f }) D = map g D := fun g hg => by
    congr 1; funext f; exact hg f
  rw [e1]
  refine Eq.trans ?_ (e2.trans ?_)
  · rfl
  · have hL : ∀ f ∈ jaxLeaves D, f ∈ flat D := fun f hf => mem_flat_norm.1 hf
    rw [jaxLeaves_map']
    generalize jaxLeaves D = L at hL
    have hcnt : count (L.map fun f => { f with train := t f }) = count L := by
      unfold count
      rw [List.map_map]
      congr 1
      refine List.map_congr_left fun f hf => ?_
      obtain ⟨s, a, b⟩ := hr f (hL f hf)
      simp only [Function.comp_apply]
      rw [a.train, show (t f).shape = m' :: s from b.train]
      rfl
    have hco : ∀ f ∈ L, ∀ (x : NArr ℝ) (k : Nat), coords { f with train := t f } x k = coords f x k := by
      intro f hf x k
      obtain ⟨s, a, b⟩ := hr f (hL f hf)
      refine (coords_retrain a b (fun r hrm => ?_) (fun q hq => ?_) x k).symm
      · obtain ⟨q, hq, e⟩ := h1 r hrm
        exact ⟨q, hq, fun j hj => e f (hL f hf) j (by rw [a.train]; exact hj)⟩
      · obtain ⟨r, hrm, e⟩ := h2 q hq
        exact ⟨r, hrm, fun j hj => e f (hL f hf) j (by rw [a.train]; exact hj)⟩
    have hx : ∀ k, point (L.map fun f => { f with train := t f }) Feat.x k = point L Feat.x k := by
      intro k
      unfold point
      rw [List.flatMap_map, List.flatMap_def, List.flatMap_def]
      congr 1
      exact List.map_congr_left fun f hf => hco f hf _ k
    have htr : ∀ r q, (∀ f ∈ flat D, ∀ j, InB f.train.shape.tail j → f.train.val (r :: j) = (t f).val (q :: j)) →
        point L Feat.train r = point (L.map fun f => { f with train := t f }) Feat.train q := by
      intro r q e
      unfold point
      rw [List.flatMap_map, List.flatMap_def, List.flatMap_def]
      congr 1
      refine List.map_congr_left fun f hf => ?_
      show coords f f.train r = coords { f with train := t f } (t f) q
      rw [hco f hf]
      obtain ⟨s, a, b⟩ := hr f (hL f hf)
      have ht : (t f).shape = m' :: s := b.train
      have e := e f (hL f hf)
      unfold coords
      by_cases hd : f.dist = true
      · rw [if_pos hd, if_pos hd]
        by_cases hc : f.cont = true
        · rw [if_pos hc, if_pos hc]
          refine List.map_congr_left fun j hj => ?_
          rw [e j (mem_indices.1 hj)]
        · rw [if_neg hc, if_neg hc, (OneHot.row_eq (by rw [a.train, ht]; rfl)).2 e]
      · rw [if_neg hd, if_neg hd]
    have hU : OneHot.uniq ((List.range m').map (point (L.map fun f => { f with train := t f }) Feat.train)) =
        OneHot.uniq ((List.range m).map (point L Feat.train)) := by
      refine uniq_congr fun a => ?_
      simp only [List.mem_map, List.mem_range]
      constructor
      · rintro ⟨q, hq, rfl⟩
        obtain ⟨r, hrm, e⟩ := h2 q hq
        exact ⟨r, hrm, htr r q e⟩
      · rintro ⟨r, hrm, rfl⟩
        obtain ⟨q, hq, e⟩ := h1 r hrm
        exact ⟨q, hq, (htr r q e).symm⟩
    rw [hU, hcnt]
    simp only [hx]

/-! ### The cutoff -/

theorem l1_self (a : List ℝ) : l1 a a = 0 := by
  have := l1_map (fun x : ℝ => x) (fun x => x) a
  simpa using this

theorem l1_eq_zero : ∀ {a b : List ℝ}, a.length = b.length → l1 a b = 0 → a = b
  | [], [], _, _ => rfl
  | [], _ :: _, h, _ => by simp at h
  | _ :: _, [], h, _ => by simp at h
  | x :: a, y :: b, h, e => by
    have e : |x - y| + l1 a b = 0 := by simpa [l1] using e
    have h1 := abs_nonneg (x - y)
    have h2 := l1_nonneg a b
    have h3 : |x - y| = 0 := by linarith
    rw [l1_eq_zero (a := a) (b := b) (by simpa using h) (by linarith), sub_eq_zero.1 (abs_eq_zero.1 h3)]

theorem nearestOther_spec {U : List (List ℝ)} (hU : U.Nodup) {u : List ℝ} (hu : u ∈ U) (hl : ∀ v ∈ U, v.length = u.length) {d : ℝ}
    (hd : ∃ v ∈ U, v ≠ u ∧ d = l1 u v) (hmin : ∀ v ∈ U, v ≠ u → d ≤ l1 u v) : nearestOther U u = some d := by
  have hp : (U.map (l1 u)).Perm (0 :: (U.erase u).map (l1 u)) := by
    have := (List.perm_cons_erase hu).map (l1 u)
    rwa [List.map_cons, l1_self] at this
  have hs : (U.map (l1 u)).insertionSort (· ≤ ·) = 0 :: ((U.erase u).map (l1 u)).insertionSort (· ≤ ·) := by
    refine List.Perm.eq_of_pairwise (fun a b _ _ h1 h2 => le_antisymm h1 h2) (List.pairwise_insertionSort _ _) ?_ ?_
    · refine List.pairwise_cons.2 ⟨fun a ha => ?_, List.pairwise_insertionSort _ _⟩
      rw [List.mem_insertionSort] at ha
      obtain ⟨v, -, rfl⟩ := List.mem_map.1 ha
      exact l1_nonneg _ _
    · exact ((List.perm_insertionSort _ _).trans hp).trans ((List.perm_insertionSort _ _).symm.cons 0)
  have hmem : ∀ v, v ∈ U.erase u ↔ v ≠ u ∧ v ∈ U := fun v => hU.mem_erase_iff
  cases hT : ((U.erase u).map (l1 u)).insertionSort (· ≤ ·) with
  | nil =>
    obtain ⟨v, hv, hne, -⟩ := hd
    have : l1 u v ∈ ((U.erase u).map (l1 u)).insertionSort (· ≤ ·) := by
      rw [List.mem_insertionSort]
      exact List.mem_map.2 ⟨v, (hmem v).2 ⟨hne, hv⟩, rfl⟩
    rw [hT] at this
    simp at this
  | cons a T =>
    unfold nearestOther
    rw [hs, hT]
    simp only [if_true]
    congr 1
    have hsort := List.pairwise_insertionSort (· ≤ ·) ((U.erase u).map (l1 u))
    rw [hT] at hsort
    have hle := (List.pairwise_cons.1 hsort).1
    have ha : a ∈ ((U.erase u).map (l1 u)).insertionSort (· ≤ ·) := by rw [hT]; simp
    rw [List.mem_insertionSort] at ha
    obtain ⟨v, hv, rfl⟩ := List.mem_map.1 ha
    refine le_antisymm ?_ (hmin v ((hmem v).1 hv).2 ((hmem v).1 hv).1)
    obtain ⟨w, hw, hne, rfl⟩ := hd
    have hw' : l1 u w ∈ l1 u v :: T := by
      rw [← hT, List.mem_insertionSort]
      exact List.mem_map.2 ⟨w, (hmem w).2 ⟨hne, hw⟩, rfl⟩
    rcases List.mem_cons.1 hw' with h | h
    · exact h.symm.le
    · exact hle _ h

theorem point_length {D : List Feat} (sel sel' : Feat → NArr ℝ) (k r : Nat) : (point D sel k).length = (point D sel' r).length := by
  unfold point
  induction D with
  | nil => rfl
  | cons f D ih => rw [List.flatMap_cons, List.flatMap_cons, List.length_append, List.length_append, ih, coords_length f _ (sel' f) k r]

theorem mapM_const_some {α β : Type} (f : α → Option β) (g : α → β) : ∀ l : List α, (∀ a ∈ l, f a = some (g a)) → l.mapM f = some (l.map g)
  | [], _ => rfl
  | a :: l, h => by
    rw [List.mapM_cons, h a (by simp), mapM_const_some f g l fun b hb => h b (by simp [hb])]
    rfl

/-- C81: the cutoff is the quantile of the Gower distances of the distinct training samples to the nearest other one (times the number of
components). -/
theorem C81_cutoff {D : Tree Feat} (hD : KeysOk D) {ρ : Feat → List Nat → ℝ} {m c : Nat} (hr : ∀ f ∈ flat D, ∃ s, Comparable ρ m m c f s)
    (hx : ∀ f ∈ flat D, f.x = f.train) (h0 : count (jaxLeaves D) ≠ 0) {reps : List Nat} (hR : Distinct (jaxLeaves D) m reps) (nn : Nat → ℝ)
    (hnn : ∀ r ∈ reps, (∃ p ∈ reps, p ≠ r ∧ nn r = gower ρ (jaxLeaves D) r p) ∧ ∀ p ∈ reps, p ≠ r → nn r ≤ gower ρ (jaxLeaves D) r p) (q : ℝ) :
    fitCutoff (map Feat.train D) (map Feat.cont D) (map Feat.dist D) q =
      .ok (Quantile.quant (reps.map fun r => count (jaxLeaves D) * nn r) q) := by
  have hne : jaxLeaves D ≠ [] := fun e => h0 (by rw [e]; rfl)
  have hr' : ∀ f ∈ jaxLeaves D, ∃ s, Comparable ρ m m c f s := fun f hf => hr f (mem_flat_norm.1 hf)
  have hx' : ∀ f ∈ jaxLeaves D, f.x = f.train := fun f hf => hx f (mem_flat_norm.1 hf)
  unfold fitCutoff
  rw [fit_run hD (m := m) fun f hf => (hr f hf).imp fun s h => comparable_regular h]
  simp only [Bind.bind, Except.bind]
  rw [prepare_run hD hne (m := m) (n := m) Feat.train fun f hf => (hr f hf).imp fun s h => ⟨comparable_regular h, h.train⟩]
  simp only
  congr 1
  show cutoff (OneHot.uniq ((List.range m).map (point (jaxLeaves D) Feat.train))) q = _
  generalize jaxLeaves D = L at *
  have hp := uniq_perm hr' hR
  have hxt : ∀ k, point L Feat.x k = point L Feat.train k := by
    intro k
    unfold point
    rw [List.flatMap_def, List.flatMap_def]
    congr 1
    exact List.map_congr_left fun f hf => by rw [hx' f hf]
  have hseen : ∀ k < m, Seen L m k := fun k hk f hf _ _ => ⟨k, hk, by rw [hx' f hf]⟩
  have hg : ∀ k < m, ∀ r < m, l1 (point L Feat.train k) (point L Feat.train r) = count L * gower ρ L k r := fun k hk r hrm => by
    rw [← hxt]
    exact point_gower hr' h0 hrm (hseen k hk)
  have hinj : ∀ r ∈ reps, ∀ p ∈ reps, point L Feat.train r = point L Feat.train p → r = p := by
    intro r hrr p hpp e
    by_contra hne
    haveI : Std.Symm fun a b => a ≠ b → ¬ SameSample L a b := ⟨fun a b h hab h' => h hab.symm (sameSample_symm h')⟩
    have := List.Pairwise.forall_of_forall (R := fun a b => a ≠ b → ¬ SameSample L a b)
      (fun a _ h => absurd rfl h) (hR.once.imp (S := fun a b => a ≠ b → ¬ SameSample L a b) fun h _ => h) hrr hpp hne
    exact this ((point_eq hr' (hR.bound r hrr) (hR.bound p hpp)).1 e)
  have hmem : ∀ u, u ∈ OneHot.uniq ((List.range m).map (point L Feat.train)) ↔ ∃ r ∈ reps, point L Feat.train r = u := fun u => by
    rw [hp.mem_iff, List.mem_map]
  have hval : ∀ r ∈ reps, nearestOther (OneHot.uniq ((List.range m).map (point L Feat.train))) (point L Feat.train r) = some (count L * nn r) := by
    intro r hrr
    refine nearestOther_spec (OneHot.nodup_uniq _) ((hmem _).2 ⟨r, hrr, rfl⟩) (fun v hv => ?_) ?_ fun v hv hne => ?_
    · obtain ⟨p, -, rfl⟩ := (hmem v).1 hv
      exact point_length _ _ _ _
    · obtain ⟨p, hpp, hne, e⟩ := (hnn r hrr).1
      exact ⟨_, (hmem _).2 ⟨p, hpp, rfl⟩, fun e' => hne (hinj p hpp r hrr e'), by rw [hg r (hR.bound r hrr) p (hR.bound p hpp), e]⟩
    · obtain ⟨p, hpp, rfl⟩ := (hmem v).1 hv
      rw [hg r (hR.bound r hrr) p (hR.bound p hpp)]
      exact mul_le_mul_of_nonneg_left ((hnn r hrr).2 p hpp fun e => hne (by rw [e])) (Nat.cast_nonneg _)
  unfold cutoff
  obtain ⟨N, hN⟩ : ∃ N : List ℝ → ℝ, ∀ u ∈ OneHot.uniq ((List.range m).map (point L Feat.train)),
      nearestOther (OneHot.uniq ((List.range m).map (point L Feat.train))) u = some (N u) := by
    refine ⟨fun u => (nearestOther (OneHot.uniq ((List.range m).map (point L Feat.train))) u).getD 0, fun u hu => ?_⟩
    obtain ⟨r, hrr, rfl⟩ := (hmem u).1 hu
    simp only [hval r hrr, Option.getD_some]
  rw [mapM_const_some _ N _ hN, Option.bind_some]
  refine quant_perm ((hp.map N).trans (List.Perm.of_eq ?_)) q
  rw [List.map_map]
  refine List.map_congr_left fun r hrr => ?_
  have := hN _ ((hmem _).2 ⟨r, hrr, rfl⟩)
  rw [hval r hrr] at this
  exact (Option.some.inj this).symm

/-! ### Where the distance is not the Gower distance -/

/-- C81 does not hold for categories that the training data does not have: such a sample differs from every training sample, with a Gower
distance of 1, but gets 1/2. -/
theorem C81_unseen_refuted {ρ : Feat → List Nat → ℝ} {n m c : Nat} {f : Feat} {s : List Nat} (h : Comparable ρ n m c f s) (hm : m ≠ 0)
    (hd : f.dist = true) (hc : f.cont = false) (cutoff : ℝ) :
    ∃ ds, distances (.leaf f.train) (.leaf f.cal) (.leaf f.cont) (.leaf f.dist) cutoff (.leaf f.x) = .ok ds ∧
      ∀ k < n, (∀ r < m, f.x.val [k, 0] ≠ f.train.val [r, 0]) → ds[k]? = some (some (1 / 2)) ∧ ∀ r < m, gower ρ [f] k r = 1 := by
  have hrun := distances_run (D := .leaf f) (ρ := ρ) (n := n) (m := m) (c := c) trivial (by simp [jaxLeaves, Tree.norm, flat])
    (fun g hg => by rw [flat, List.mem_singleton] at hg; subst hg; exact ⟨s, h⟩) cutoff
  have hl : jaxLeaves (.leaf f) = [f] := rfl
  rw [hl] at hrun
  refine ⟨_, hrun, fun k hk hns => ⟨?_, fun r hrm => ?_⟩⟩
  · have ht := h.train
    have hx := h.x
    rw [h.cat hd hc] at ht hx
    have hpt : ∀ r < m, l1 (point [f] Feat.x k) (point [f] Feat.train r) = 1 / 2 := by
      intro r hrm
      simp only [point, List.flatMap_cons, List.flatMap_nil, List.append_nil, coords, hd, hc, if_true, Bool.false_eq_true, if_false]
      have hmem : ∀ a, a ∈ OneHot.uniq (OneHot.rows f.train) ↔ ∃ q < m, [f.train.val [q, 0]] = a := fun a => by
        rw [OneHot.mem_uniq, OneHot.mem_rows, ht]
        simp only [row_one ht]
        rfl
      rw [row_one ht, onehot_l1 (OneHot.nodup_uniq _) ((hmem _).2 ⟨r, hrm, rfl⟩), row_one hx, if_neg (by simpa using hns r hrm), if_neg]
      rw [hmem]
      rintro ⟨q, hq, e⟩
      exact hns q hq (by simpa using e.symm)
    have hU : ∀ u ∈ OneHot.uniq ((List.range m).map (point [f] Feat.train)), l1 (point [f] Feat.x k) u = 1 / 2 := by
      intro u hu
      obtain ⟨r, hrm, rfl⟩ := List.mem_map.1 (OneHot.mem_uniq.1 hu)
      exact hpt r (List.mem_range.1 hrm)
    have hne : OneHot.uniq ((List.range m).map (point [f] Feat.train)) ≠ [] := List.ne_nil_of_mem
      (OneHot.mem_uniq.2 (List.mem_map.2 ⟨0, List.mem_range.2 (Nat.pos_of_ne_zero hm), rfl⟩))
    rw [List.getElem?_map, List.getElem?_range hk]
    simp only [Option.map_some, distance]
    obtain ⟨d, e, ⟨u, hu, e'⟩, -⟩ := nearest_spec hne (point [f] Feat.x k)
    rw [e, e', hU u hu]
    have hcnt : count [f] = 1 := by simp [count, hd, hc]
    rw [hcnt]
    have hM : meanDistance (OneHot.uniq ((List.range m).map (point [f] Feat.train))) cutoff (point [f] Feat.x k) ≤ 1 / 2 := by
      unfold meanDistance
      split
      · norm_num
      · rename_i hb
        have : ∀ u ∈ ball (OneHot.uniq ((List.range m).map (point [f] Feat.train))) cutoff (point [f] Feat.x k), l1 (point [f] Feat.x k) u = 1 / 2 :=
          fun u hu => hU u (List.mem_of_mem_filter hu)
        rw [List.map_congr_left this, List.map_const', List.sum_replicate, nsmul_eq_mul, mul_comm, mul_div_assoc,
          div_self (by exact_mod_cast hb), mul_one]
    rw [Option.map_some, max_eq_right hM, Nat.cast_one, div_one]
  · simp [gower, count, featDist, hd, hc, hns r hrm]

/-- C81 does not hold for training data with a selected continuous component that is constant: calibration and the sensitivity raise. -/
theorem C81_constant_refuted {f : Feat} {m : Nat} {s j : List Nat} (ht : f.train.shape = m :: s) (hm : m ≠ 0) (hd : f.dist = true) (hc : f.cont = true)
    (hj : InB s j) (hcon : ∀ r < m, f.train.val (r :: j) = f.train.val (0 :: j)) (cutoff q : ℝ) :
    distances (.leaf f.train) (.leaf f.cal) (.leaf f.cont) (.leaf f.dist) cutoff (.leaf f.x) = .error .valueError ∧
      fitCutoff (.leaf f.train) (.leaf f.cont) (.leaf f.dist) q = .error .valueError := by
  have hfit : fit (.leaf f.train) (.leaf f.cont) (.leaf f.dist) = .ok (.leaf (fitted f)) := by
    simp [fit, jaxMap, zipAll, Tree.norm, map, zipPre, mapM, fitLeaf, encoder, fitted, hc, Except.map]
  have hrs : (range f.train f.cont).shape = s := by unfold range; split <;> simp [ht]
  obtain ⟨z, h1, h2, h3⟩ := bop_rows scale f.train (range f.train f.cont) (Or.inl ht) (Or.inr hrs) (Or.inl ht)
  have hsc : scaleLeaf f.train [.leaf (fitted f)] = .ok (.leaf z) := by
    simp only [scaleLeaf, fitted, hc, hd, Bool.true_or, if_true, encodeLeaf, Bind.bind, Except.bind]
    rw [hc] at h1
    rw [h1]
  have hrng : rng f j = 0 := isRange_rng ht ⟨0, Nat.pos_of_ne_zero hm, 0, Nat.pos_of_ne_zero hm, by simp, fun r hr => by rw [hcon r hr]; simp⟩
  have hz : z.val (0 :: j) = Option.none := by
    have hne : m :: s ≠ s := fun e => by have := congrArg List.length e; simp at this
    rw [h3 0 j (inB_cons.2 ⟨Nat.pos_of_ne_zero hm, hj⟩)]
    unfold entryAt
    rw [if_neg (by rw [ht]; exact hne), if_pos hrs, scale, if_pos]
    simpa [range, hc, rng] using hrng
  have hbad : finiteRow (flatRow 0 z) = .error .valueError := by
    have hmem : (Option.none : Option ℝ) ∈ flatRow 0 z := by
      unfold flatRow
      refine List.mem_map.2 ⟨j, mem_indices.2 ?_, hz⟩
      rw [h2]; exact hj
    have : ∀ l : List (Option ℝ), Option.none ∈ l → l.mapM id = Option.none := by
      intro l hl
      induction l with
      | nil => simp at hl
      | cons a l ih =>
        rw [List.mapM_cons]
        rcases List.mem_cons.1 hl with rfl | hl
        · rfl
        · rw [ih hl]
          cases a <;> rfl
    unfold finiteRow
    rw [this _ hmem]
  have hprep : prepare (.leaf (fitted f)) (.leaf f.train) = .error .valueError := by
    unfold prepare
    have : jaxMap scaleLeaf (.leaf f.train) [.leaf (fitted f)] = .ok (.leaf z) := by
      simp [jaxMap, zipAll, Tree.norm, map, zipPre, mapM, hsc]
    rw [this]
    simp only [Bind.bind, Except.bind, jaxLeaves, Tree.norm, flat, List.all_nil, if_true, h2, List.headD_cons]
    cases m with
    | zero => exact absurd rfl hm
    | succ m =>
      rw [List.range_succ_eq_map, List.mapM_cons]
      simp only [List.flatMap_cons, List.flatMap_nil, List.append_nil]
      rw [hbad]
      rfl
  constructor
  · unfold distances
    have hnum : ∃ N, number (.leaf f.cal) (.leaf f.cont) (.leaf f.dist) = .ok N := ⟨_, rfl⟩
    obtain ⟨N, hN⟩ := hnum
    rw [hN, hfit]
    simp only [Bind.bind, Except.bind]
    rw [hprep]
  · unfold fitCutoff
    rw [hfit]
    simp only [Bind.bind, Except.bind]
    rw [hprep]

/-- C81 does not hold for categories given by several components: unless there are as many categories as components, or only one, calibration
raises. -/
theorem C81_vector_category_refuted {f : Feat} {m w : Nat} (ht : f.train.shape = [m, w]) (hd : f.dist = true) (hc : f.cont = false) (hw : w ≠ 1)
    {reps : List Nat} (hR : Distinct [f] m reps) (h1 : reps.length ≠ 1) (h2 : reps.length ≠ w) (cutoff q : ℝ) :
    distances (.leaf f.train) (.leaf f.cal) (.leaf f.cont) (.leaf f.dist) cutoff (.leaf f.x) = .error .typeError ∧
      fitCutoff (.leaf f.train) (.leaf f.cont) (.leaf f.dist) q = .error .typeError := by
  have hlen : (OneHot.fitLeaf f.train).table.length = reps.length := by
    unfold OneHot.fitLeaf
    simp only [OneHot.length_colSort]
    have hrow : ∀ r q, OneHot.row f.train r = OneHot.row f.train q ↔ SameSample [f] r q := fun r q => by
      rw [OneHot.row_eq rfl]
      unfold SameSample
      simp [hd, OneHotSpec.SameRow]
    have hp : (OneHot.uniq (OneHot.rows f.train)).Perm (reps.map (OneHot.row f.train)) := by
      refine (List.perm_ext_iff_of_nodup (OneHot.nodup_uniq _) ?_).2 fun a => ?_
      · rw [List.Nodup, List.pairwise_map]
        exact hR.once.imp fun {r q} h e => h ((hrow r q).1 e)
      · rw [OneHot.mem_uniq, OneHot.mem_rows, List.mem_map, ht]
        constructor
        · rintro ⟨r, hr, rfl⟩
          obtain ⟨q, hq, e⟩ := hR.cover r hr
          exact ⟨q, hq, ((hrow r q).2 e).symm⟩
        · rintro ⟨q, hq, rfl⟩
          exact ⟨q, hR.bound q hq, rfl⟩
    rw [hp.length_eq, List.length_map]
  have hfit : fit (.leaf f.train) (.leaf f.cont) (.leaf f.dist) = .ok (.leaf (fitted f)) := by
    simp [fit, jaxMap, zipAll, Tree.norm, map, zipPre, mapM, fitLeaf, encoder, fitted, hc, hd, Except.map, oh_leaf (x := f.train) (by rw [ht]; simp)]
  have hb : bshape [m, (OneHot.fitLeaf f.train).table.length] [w] = Option.none := by
    rw [hlen]
    simp [bshape, bshapeRev, bdim, h1, h2, hw]
  have htr : OneHot.transform (some (.leaf (OneHot.fitLeaf f.train))) (.leaf f.train) = .ok (.leaf ⟨[m, (OneHot.fitLeaf f.train).table.length], fun i => match i with
        | [r, k] => if OneHot.eqRow (OneHot.row f.train r) ((OneHot.fitLeaf f.train).table.getD k []) then 1 else 0
        | _ => 0⟩) := by
    have hw : OneHot.width f.train = (OneHot.fitLeaf f.train).width := rfl
    have hi : OneHot.inOk (.leaf f.train) = true := by simp [OneHot.inOk, jaxLeaves, Tree.norm, flat, ht]
    unfold OneHot.transform
    rw [if_pos hi]
    have hj : jaxMap OneHot.encode (.leaf f.train) [.leaf (OneHot.fitLeaf f.train)] = .ok (.leaf ⟨[m, (OneHot.fitLeaf f.train).table.length], fun i => match i with
          | [r, k] => if OneHot.eqRow (OneHot.row f.train r) ((OneHot.fitLeaf f.train).table.getD k []) then 1 else 0
          | _ => 0⟩) := by
      simp only [jaxMap, zipAll, Tree.norm, map, zipPre, mapM, OneHot.encode, List.nil_append, hw, true_or, if_true, ht]
      rfl
    simp only [hj]
    rw [if_pos]
    simp [OneHot.outOk, jaxLeaves, Tree.norm, flat]
  have hprep : prepare (.leaf (fitted f)) (.leaf f.train) = .error .typeError := by
    unfold prepare
    have hsc : scaleLeaf f.train [.leaf (fitted f)] = .error .typeError := by
      have hrs : (range f.train false).shape = [w] := by simp [range, ht]
      simp only [scaleLeaf, fitted, hc, hd, Bool.false_or, Bool.not_true, Bool.false_eq_true, if_false, encodeLeaf, htr, Bind.bind, Except.bind, bop, hrs, hb]
    have : jaxMap scaleLeaf (.leaf f.train) [.leaf (fitted f)] = .error .typeError := by
      simp [jaxMap, zipAll, Tree.norm, map, zipPre, mapM, hsc]
    rw [this]
    rfl
  constructor
  · unfold distances
    obtain ⟨N, hN⟩ : ∃ N, number (.leaf f.cal) (.leaf f.cont) (.leaf f.dist) = .ok N := ⟨_, rfl⟩
    rw [hN, hfit]
    simp only [Bind.bind, Except.bind]
    rw [hprep]
  · unfold fitCutoff
    rw [hfit]
    simp only [Bind.bind, Except.bind]
    rw [hprep]

/-! ### A concrete case -/

/-- Training samples 0, 2, 2 with the categories 5, 7, 7 and the queries 0, 1 with the categories 5, 7. -/
def dNum : Feat := ⟨⟨[2, 1], fun i => i.headD 0⟩, ⟨[3, 1], fun i => if i.headD 0 = 0 then 0 else 2⟩, ⟨[4, 1], fun _ => 0⟩, true, true⟩
def dCat : Feat := ⟨⟨[2, 1], fun i => if i.headD 0 = 0 then 5 else 7⟩, ⟨[3, 1], fun i => if i.headD 0 = 0 then 5 else 7⟩, ⟨[4, 1], fun _ => 0⟩, false, true⟩
def dTree : Tree Feat := .list [.leaf dNum, .leaf dCat]
/-- The range of the training data is 2. -/
def dRange : Feat → List Nat → ℝ := fun _ _ => 2

theorem dTree_ok : ∀ f ∈ flat dTree, ∃ s, Comparable dRange 2 3 4 f s := by
  intro f hf
  refine ⟨[1], ?_⟩
  simp only [dTree, flat, flatL, List.mem_append, List.mem_singleton, List.not_mem_nil, or_false] at hf
  rcases hf with rfl | rfl
  · refine ⟨rfl, rfl, rfl, fun _ _ j _ => ⟨⟨0, by omega, 1, by omega, by norm_num [dNum, dRange], fun r _ => ?_⟩, by norm_num [dRange]⟩, fun _ h => absurd h (by simp [dNum])⟩
    by_cases h : r = 0 <;> simp [dNum, h]
  · exact ⟨rfl, rfl, rfl, fun _ h => absurd h (by simp [dCat]), fun _ _ => rfl⟩

theorem dTree_leaves : jaxLeaves dTree = [dNum, dCat] := rfl

theorem dTree_count : count (jaxLeaves dTree) = 2 := by rw [dTree_leaves]; rfl

theorem dTree_seen : ∀ k < 2, Seen (jaxLeaves dTree) 3 k := by
  intro k hk f hf _ hc
  rw [dTree_leaves] at hf
  rcases List.mem_cons.1 hf with rfl | hf
  · simp [dNum] at hc
  · rw [List.mem_singleton.1 hf]
    exact ⟨k, by omega, rfl⟩

theorem dTree_gower : gower dRange (jaxLeaves dTree) 1 0 = 3 / 4 ∧ gower dRange (jaxLeaves dTree) 1 1 = 1 / 4 ∧ gower dRange (jaxLeaves dTree) 1 2 = 1 / 4 := by
  rw [dTree_leaves]
  unfold gower
  rw [show count [dNum, dCat] = 2 from rfl]
  refine ⟨?_, ?_, ?_⟩ <;> simp [featDist, dNum, dCat, dRange, indices] <;> norm_num

theorem dTree_distinct : Distinct (jaxLeaves dTree) 3 [0, 1] := by
  rw [dTree_leaves]
  refine ⟨by simp, fun r hr => ?_, ?_⟩
  · by_cases h : r = 0
    · exact ⟨0, by simp, by subst h; exact fun _ _ _ _ _ => rfl⟩
    · refine ⟨1, by simp, fun f hf _ j _ => ?_⟩
      rcases List.mem_cons.1 hf with rfl | hf
      · simp [dNum, h]
      · rw [List.mem_singleton.1 hf]
        simp [dCat, h]
  · refine List.pairwise_cons.2 ⟨fun q hq hs => ?_, by simp⟩
    rw [List.mem_singleton.1 hq] at hs
    have := hs dNum (by simp) rfl [0] (inB_cons.2 ⟨by norm_num, rfl, by simp⟩)
    simp [dNum] at this

/-- C81, concretely: the sample 1 with category 7 has the distances 3/4 and 1/4 to the two distinct training samples; with a cutoff of
1 = 2 * 1/2 only the second counts, with a cutoff of 2 = 2 * 1 both do, with a cutoff of 0 the nearest. -/
example : ∃ d e g, distances (map Feat.train dTree) (map Feat.cal dTree) (map Feat.cont dTree) (map Feat.dist dTree) 1 (map Feat.x dTree) = .ok d ∧
    distances (map Feat.train dTree) (map Feat.cal dTree) (map Feat.cont dTree) (map Feat.dist dTree) 2 (map Feat.x dTree) = .ok e ∧
    distances (map Feat.train dTree) (map Feat.cal dTree) (map Feat.cont dTree) (map Feat.dist dTree) 0 (map Feat.x dTree) = .ok g ∧
    d[1]? = some (some (1 / 4)) ∧ e[1]? = some (some (1 / 2)) ∧ g[1]? = some (some (1 / 4)) := by
  have hD : KeysOk dTree := ⟨trivial, trivial, trivial⟩
  have h0 : count (jaxLeaves dTree) ≠ 0 := by rw [dTree_count]; norm_num
  obtain ⟨g0, g1, g2⟩ := dTree_gower
  obtain ⟨d, hd, -, h⟩ := C81_distance hD dTree_ok h0 (by norm_num) 1
  obtain ⟨e, he, -, h'⟩ := C81_distance hD dTree_ok h0 (by norm_num) 2
  obtain ⟨g, hg, -, h''⟩ := C81_distance hD dTree_ok h0 (by norm_num) 0
  refine ⟨d, e, g, hd, he, hg, ?_, ?_, ?_⟩
  · obtain ⟨v, h1, -, h3⟩ := h 1 (by norm_num) (dTree_seen 1 (by norm_num))
    have := h3 [0, 1] [1] dTree_distinct (by rw [dTree_count]; simp [List.filter_cons, g0, g1]; norm_num) (by simp)
    rw [h1, this]
    simp [g1]
  · obtain ⟨v, h1, -, h3⟩ := h' 1 (by norm_num) (dTree_seen 1 (by norm_num))
    have := h3 [0, 1] [0, 1] dTree_distinct (by rw [dTree_count]; simp [List.filter_cons, g0, g1]; norm_num) (by simp)
    rw [h1, this]
    simp [g0, g1]
    norm_num
  · obtain ⟨v, h1, h2, -⟩ := h'' 1 (by norm_num) (dTree_seen 1 (by norm_num))
    obtain ⟨⟨r, hr, e1⟩, e2⟩ := h2 fun r hr => by
      have : r = 0 ∨ r = 1 ∨ r = 2 := by omega
      rcases this with rfl | rfl | rfl <;> simp only [g0, g1, g2] <;> norm_num
    rw [h1]
    have h3 := e2 1 (by norm_num)
    rw [g1] at h3
    congr 2
    refine le_antisymm h3 ?_
    rw [e1]
    have : r = 0 ∨ r = 1 ∨ r = 2 := by omega
    rcases this with rfl | rfl | rfl <;> simp only [g0, g1, g2] <;> norm_num

/-- C81, concretely: the queries lie within the ranges of the training data. -/
example : ∀ k < 2, ∀ f ∈ jaxLeaves dTree, f.dist = true → f.cont = true → ∀ j, InB f.train.shape.tail j →
    ∃ lo < 3, ∃ hi < 3, f.train.val (lo :: j) ≤ f.x.val (k :: j) ∧ f.x.val (k :: j) ≤ f.train.val (hi :: j) := by
  intro k hk f hf _ hc j _
  rw [dTree_leaves] at hf
  rcases List.mem_cons.1 hf with rfl | hf
  · refine ⟨0, by norm_num, 1, by norm_num, ?_⟩
    simp only [dNum, List.headD_cons, if_true]
    have : k = 0 ∨ k = 1 := by omega
    rcases this with rfl | rfl <;> norm_num
  · rw [List.mem_singleton.1 hf] at hc
    simp [dCat] at hc

/-- C81, concretely: leaving out the repeated training sample and reversing the others changes nothing. -/
example : distances (map (fun f => if f.cont then ⟨[2, 1], fun i => if i.headD 0 = 0 then 2 else 0⟩ else ⟨[2, 1], fun i => if i.headD 0 = 0 then 7 else 5⟩) dTree)
      (map Feat.cal dTree) (map Feat.cont dTree) (map Feat.dist dTree) 1 (map Feat.x dTree) =
    distances (map Feat.train dTree) (map Feat.cal dTree) (map Feat.cont dTree) (map Feat.dist dTree) 1 (map Feat.x dTree) := by
  refine C81_order (D := dTree) (ρ := dRange) (ρ' := dRange) (n := 2) (m := 3) (m' := 2) (c := 4) ⟨trivial, trivial, trivial⟩ _ (fun f hf => ?_)
    (by rw [dTree_count]; norm_num) (fun r hr => ?_) (fun q hq => ?_) 1
  · refine ⟨[1], ?_⟩
    have h1 := dTree_ok f hf
    simp only [dTree, flat, flatL, List.mem_append, List.mem_singleton, List.not_mem_nil, or_false] at hf
    rcases hf with rfl | rfl
    · obtain ⟨s, h1⟩ := h1
      have : s = [1] := (List.cons.inj h1.train).2.symm
      subst this
      refine ⟨h1, rfl, by simp [dNum], rfl, fun _ _ j _ => ⟨⟨1, by omega, 0, by omega, by norm_num [dNum, dRange], fun r _ => ?_⟩, by norm_num [dRange]⟩, fun _ h => absurd h (by simp [dNum])⟩
      by_cases h : r = 0 <;> simp [dNum, h]
    · obtain ⟨s, h1⟩ := h1
      have : s = [1] := (List.cons.inj h1.train).2.symm
      subst this
      exact ⟨h1, rfl, by simp [dCat], rfl, fun _ h => absurd h (by simp [dCat]), fun _ _ => rfl⟩
  · refine ⟨if r = 0 then 1 else 0, by split <;> omega, fun f hf j _ => ?_⟩
    simp only [dTree, flat, flatL, List.mem_append, List.mem_singleton, List.not_mem_nil, or_false] at hf
    by_cases h : r = 0 <;> rcases hf with rfl | rfl <;> simp [dNum, dCat, h]
  · refine ⟨if q = 0 then 1 else 0, by split <;> omega, fun f hf j _ => ?_⟩
    simp only [dTree, flat, flatL, List.mem_append, List.mem_singleton, List.not_mem_nil, or_false] at hf
    by_cases h : q = 0 <;> rcases hf with rfl | rfl <;> simp [dNum, dCat, h]

/-- C81, concretely: for the training samples the distance of the two distinct ones is 1, so that the cutoff is 2. -/
example : fitCutoff (map Feat.train dTree) (map Feat.cont dTree) (map Feat.dist dTree) (1 / 2) = .ok (Quantile.quant [2, 2] (1 / 2)) := by
  let E : Tree Feat := .list [.leaf { dNum with x := dNum.train }, .leaf { dCat with x := dCat.train }]
  have hl : jaxLeaves E = [{ dNum with x := dNum.train }, { dCat with x := dCat.train }] := rfl
  have hcnt : count (jaxLeaves E) = 2 := by rw [hl]; rfl
  have hg : gower dRange (jaxLeaves E) 0 1 = 1 ∧ gower dRange (jaxLeaves E) 1 0 = 1 := by
    rw [hl]
    unfold gower
    rw [← hl, hcnt, hl]
    refine ⟨?_, ?_⟩ <;> simp [featDist, dNum, dCat, dRange, indices] <;> norm_num
  have hR : Distinct (jaxLeaves E) 3 [0, 1] := by
    have hs : ∀ r q, SameSample (jaxLeaves E) r q ↔ SameSample (jaxLeaves dTree) r q := fun r q => by
      rw [hl, dTree_leaves]
      simp [SameSample]
    exact ⟨dTree_distinct.bound, fun r hr => (dTree_distinct.cover r hr).imp fun q h => ⟨h.1, (hs r q).2 h.2⟩,
      dTree_distinct.once.imp fun {a b} h h' => h ((hs a b).1 h')⟩
  have := C81_cutoff (D := E) (ρ := dRange) (m := 3) (c := 4) ⟨trivial, trivial, trivial⟩ (fun f hf => ?_) (fun f hf => ?_)
    (by rw [hcnt]; norm_num) (reps := [0, 1]) hR
    (fun _ => 1) (fun r hr => ?_) (1 / 2)
  · exact this.trans (by rw [hcnt]; norm_num)
  · refine ⟨[1], ?_⟩
    simp only [E, flat, flatL, List.mem_append, List.mem_singleton, List.not_mem_nil, or_false] at hf
    rcases hf with rfl | rfl
    · refine ⟨rfl, rfl, rfl, fun _ _ j _ => ⟨⟨0, by omega, 1, by omega, by norm_num [dNum, dRange], fun r _ => ?_⟩, by norm_num [dRange]⟩, fun _ h => absurd h (by simp [dNum])⟩
      by_cases h : r = 0 <;> simp [dNum, h]
    · exact ⟨rfl, rfl, rfl, fun _ h => absurd h (by simp [dCat]), fun _ _ => rfl⟩
  · simp only [E, flat, flatL, List.mem_append, List.mem_singleton, List.not_mem_nil, or_false] at hf
    rcases hf with rfl | rfl <;> rfl
  · rcases List.mem_cons.1 hr with rfl | hr
    · refine ⟨⟨1, by simp, by simp, hg.1.symm⟩, fun p hp hne => ?_⟩
      rcases List.mem_cons.1 hp with rfl | hp
      · exact absurd rfl hne
      · rw [List.mem_singleton.1 hp, hg.1]
    · rw [List.mem_singleton.1 hr]
      refine ⟨⟨0, by simp, by simp, hg.2.symm⟩, fun p hp hne => ?_⟩
      rcases List.mem_cons.1 hp with rfl | hp
      · rw [hg.2]
      · exact absurd (List.mem_singleton.1 hp) hne

/-- C81, concretely: a category that the training data does not have. -/
example : ∃ ds, distances (.leaf dCat.train) (.leaf dCat.cal) (.leaf false) (.leaf true) 1 (.leaf ⟨[1, 1], fun _ => 9⟩) = .ok ds ∧ ds[0]? = some (some (1 / 2)) := by
  obtain ⟨ds, h, h'⟩ := C81_unseen_refuted (ρ := dRange) (n := 1) (m := 3) (c := 4) (f := { dCat with x := ⟨[1, 1], fun _ => 9⟩ }) (s := [1])
    ⟨rfl, rfl, rfl, fun _ h => absurd h (by simp [dCat]), fun _ _ => rfl⟩ (by norm_num) rfl rfl 1
  refine ⟨ds, h, (h' 0 (by norm_num) fun r _ => ?_).1⟩
  simp only [dCat]
  split <;> norm_num

/-- C81, concretely: a constant component, and categories given by two components. -/
example : distances (.leaf ⟨[2, 1], fun _ => 3⟩) (.leaf ⟨[2, 1], fun _ => 3⟩) (.leaf true) (.leaf true) 1 (.leaf ⟨[2, 1], fun _ => 3⟩) = .error .valueError :=
  (C81_constant_refuted (f := ⟨⟨[2, 1], fun _ => 3⟩, ⟨[2, 1], fun _ => 3⟩, ⟨[2, 1], fun _ => 3⟩, true, true⟩) (m := 2) (s := [1]) (j := [0]) rfl (by norm_num) rfl rfl
    (inB_cons.2 ⟨by norm_num, rfl, by simp⟩) (fun _ _ => rfl) 1 0).1

example : ∃ f : Feat, f.train.shape = [3, 2] ∧ Distinct [f] 3 [0, 1, 2] ∧ f.dist = true ∧ f.cont = false ∧
    fitCutoff (.leaf f.train) (.leaf f.cont) (.leaf f.dist) (1 / 2) = .error .typeError := by
  let f : Feat := ⟨⟨[3, 2], fun i => i.headD 0⟩, ⟨[3, 2], fun i => i.headD 0⟩, ⟨[3, 2], fun i => i.headD 0⟩, false, true⟩
  have hD : Distinct [f] 3 [0, 1, 2] := by
    refine ⟨by simp, fun r hr => ⟨r, by have : r = 0 ∨ r = 1 ∨ r = 2 := by omega
                                        simpa using this, fun _ _ _ _ _ => rfl⟩, ?_⟩
    have key : ∀ r q, r ≠ q → ¬ SameSample [f] r q := fun r q hne hs => by
      have := hs f (by simp) rfl [0] (inB_cons.2 ⟨by norm_num, rfl, by simp⟩)
      simp only [f, List.headD_cons] at this
      exact hne (by exact_mod_cast this)
    simp [key]
  exact ⟨f, rfl, hD, rfl, rfl, (C81_vector_category_refuted (f := f) (m := 3) (w := 2) rfl rfl rfl (by norm_num) hD (by simp) (by simp) 1 (1 / 2)).2⟩

end Verif.Props
