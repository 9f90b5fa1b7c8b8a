import Verif.Spec.Dataflow
import Verif.Lemmas.ConnForm
import Verif.Lemmas.ConnPart
import Verif.Lemmas.GraphMain

/-! The execution order in terms of module paths. -/

namespace Verif.Forward
open TreeSpec ConnSpec PathSpec ForwardSpec DataflowSpec GraphSpec Conn Relation

variable {M : Type} {sep : Char} {modules : Tree M} {conn : List (Str × List Str)}

theorem goodCfg (h : Names sep modules conn) : GoodCfg (nsCfg sep) :=
  ⟨h.inSep, h.outSep, by show "input".toList ≠ "output".toList; decide⟩

theorem feeds_source {cfg : Cfg} {a b : List Str} (h : Feeds cfg modules conn a b) :
    ∃ e ∈ edges conn, ∃ r, Source cfg modules e.1 a r := by
  obtain ⟨e, he, r, r', hs, ht⟩ := h; exact ⟨e, he, r, hs⟩

theorem feeds_target {cfg : Cfg} {a b : List Str} (h : Feeds cfg modules conn a b) :
    ∃ e ∈ edges conn, ∃ r, Target cfg modules e.2 b r := by
  obtain ⟨e, he, r, r', hs, ht⟩ := h; exact ⟨e, he, r', ht⟩

theorem mem_edges_key {e : Str × Str} (h : e ∈ edges conn) : ∃ kv ∈ conn, kv.1 = e.1 ∧ e.2 ∈ kv.2 := by
  unfold edges at h
  simp only [List.mem_flatMap, List.mem_map] at h
  obtain ⟨kv, hkv, v, hv, rfl⟩ := h
  exact ⟨kv, hkv, rfl, hv⟩

theorem source_comps {cfg : Cfg} {s : Str} {m r : List Str} (h : Source cfg modules s m r) : Comps cfg.sep m ∧ m ≠ [] :=
  ⟨(comps_of_split h.1 h.2.1).left, source_ne h⟩

theorem target_comps {cfg : Cfg} {s : Str} {m r : List Str} (h : Target cfg modules s m r) : Comps cfg.sep m ∧ m ≠ [] :=
  ⟨(comps_of_split h.1 h.2.1).left, target_ne h⟩

theorem canonical_left {p q : List Str} (h : Canonical (p ++ q)) : Canonical p :=
  fun k hk => h k (List.mem_append_left _ hk)

theorem canonical_right {p q : List Str} (h : Canonical (p ++ q)) : Canonical q :=
  fun k hk => h k (List.mem_append_right _ hk)

theorem source_canon (h : Names sep modules conn) {e : Str × Str} (he : e ∈ edges conn) {m r : List Str}
    (hs : Source (nsCfg sep) modules e.1 m r) : Canonical (m ++ r) := by
  obtain ⟨kv, hkv, e1, -⟩ := mem_edges_key he
  have := h.canonSrc kv hkv
  rw [e1] at this
  have h1 := hs.1
  change splitOn sep e.1 = m ++ r at h1
  rwa [h1] at this

theorem target_canon (h : Names sep modules conn) {e : Str × Str} (he : e ∈ edges conn) {m r : List Str}
    (hs : Target (nsCfg sep) modules e.2 m r) : Canonical (m ++ r) := by
  have := h.canonTgt e he
  have h1 := hs.1
  change splitOn sep e.2 = m ++ r at h1
  rwa [h1] at this

/-- A reserved word at the beginning of a joined path is its first component's beginning. -/
theorem prefix_head {w : Str} {m : List Str} (hw : sep ∉ w) (hne : m ≠ []) (h : w <+: joinWith sep m) : w <+: m.headD [] := by
  match m with
  | [] => exact absurd rfl hne
  | [a] => exact h
  | a :: b :: l =>
    have hj : joinWith sep (a :: b :: l) = a ++ sep :: joinWith sep (b :: l) := rfl
    rw [hj] at h
    simp only [List.headD_cons]
    rcases Nat.lt_or_ge a.length w.length with hl | hl
    case inr => exact List.prefix_of_prefix_length_le h (List.prefix_append _ _) hl
    case inl =>
      exfalso
      have ha : a <+: w := List.prefix_of_prefix_length_le (List.prefix_append _ _) h (Nat.le_of_lt hl)
      obtain ⟨u, rfl⟩ := ha
      rw [List.prefix_append_right_inj] at h
      cases u with
      | nil => simp at hl
      | cons c u =>
        obtain ⟨x, hx⟩ := h
        simp only [List.cons_append, List.cons.injEq] at hx
        exact hw (by rw [hx.1]; simp)

theorem outer_clean (h : Names sep modules conn) : ∀ kv ∈ conn, ∀ m r, Source (nsCfg sep) modules kv.1 m r →
      ("input".toList <+: joinWith (nsCfg sep).sep m ∨ "output".toList <+: joinWith (nsCfg sep).sep m) → m.length = 1 := by
  intro kv hkv m r hs hp
  have hne := source_ne hs
  have hw : ∃ w, (w = "input".toList ∨ w = "output".toList) ∧ w <+: m.headD [] := by
    rcases hp with hp | hp
    · exact ⟨_, .inl rfl, prefix_head h.inSep hne hp⟩
    · exact ⟨_, .inr rfl, prefix_head h.outSep hne hp⟩
  obtain ⟨w, hw, hp⟩ := hw
  have h1 := hs.1
  change splitOn sep kv.1 = m ++ r at h1
  have hd : (splitOn sep kv.1).headD [] = m.headD [] := by
    rw [h1]; cases m with
    | nil => exact absurd rfl hne
    | cons a l => rfl
  have := h.cleanSrc kv hkv w hw (by rw [hd]; exact hp)
  rw [hd] at this
  rcases hs.2.2 with e | hm
  · rw [e]; rfl
  · exfalso
    cases m with
    | nil => exact hne rfl
    | cons a l =>
      simp only [List.headD_cons] at this
      subst this
      rcases hw with rfl | rfl
      · exact hm.2.1 rfl
      · exact hm.2.2.1 rfl

/-- The order of execution, in terms of module paths. -/
structure Order (sep : Char) (modules : Tree M) (conn : List (Str × List Str)) (order : List Str) (ms : List (List Str)) : Prop where
  eq : order = "input".toList :: ms.map (joinWith sep) ++ ["output".toList]
  nodup : ms.Nodup
  mem : ∀ m, m ∈ ms ↔ Scheduled (nsCfg sep) modules conn m
  comps : ∀ m ∈ ms, Comps sep m ∧ Canonical m
  diverge : ms.Pairwise Diverge
  before : ∀ a m pre post, ms = pre ++ m :: post → Feeds (nsCfg sep) modules conn a m → a = ["input".toList] ∨ a ∈ pre
  last : ∀ a, Feeds (nsCfg sep) modules conn a ["output".toList] → a = ["input".toList] ∨ a ∈ ms

theorem split_join_comps {m : List Str} (h : Comps sep m) (hne : m ≠ []) : splitOn sep (joinWith sep m) = m :=
  splitOn_joinWith _ _ hne fun w hw => (h w hw).2

theorem join_inj {m m' : List Str} (h : Comps sep m) (hne : m ≠ []) (h' : Comps sep m') (hne' : m' ≠ [])
    (e : joinWith sep m = joinWith sep m') : m = m' := by
  rw [← split_join_comps h hne, e, split_join_comps h' hne']

theorem reach_of_feeds (g : List (Str × List Str))
    (hE : ∀ a b, Edge g a b ↔ ∃ e ∈ edges conn, ∃ m r m' r', Source (nsCfg sep) modules e.1 m r ∧
      Target (nsCfg sep) modules e.2 m' r' ∧ a = joinWith sep m ∧ b = joinWith sep m') {a b : List Str}
    (h : ReflTransGen (Feeds (nsCfg sep) modules conn) a b) : Reach g (joinWith sep a) (joinWith sep b) := by
  induction h with
  | refl => exact .refl
  | tail _ hs ih =>
    obtain ⟨e, he, r, r', h1, h2⟩ := hs
    exact ih.tail ((hE _ _).2 ⟨e, he, _, r, _, r', h1, h2, rfl, rfl⟩)

theorem feeds_of_reach (g : List (Str × List Str))
    (hE : ∀ a b, Edge g a b ↔ ∃ e ∈ edges conn, ∃ m r m' r', Source (nsCfg sep) modules e.1 m r ∧
      Target (nsCfg sep) modules e.2 m' r' ∧ a = joinWith sep m ∧ b = joinWith sep m') {a : List Str} {y : Str}
    (ha : Comps sep a ∧ a ≠ [])
    (h : Reach g (joinWith sep a) y) : ∃ b, Comps sep b ∧ b ≠ [] ∧ y = joinWith sep b ∧
      ReflTransGen (Feeds (nsCfg sep) modules conn) a b := by
  induction h with
  | refl => exact ⟨a, ha.1, ha.2, rfl, .refl⟩
  | tail _ hs ih =>
    obtain ⟨b, hb1, hb2, rfl, hb⟩ := ih
    obtain ⟨e, he, m, r, m', r', h1, h2, h3, h4⟩ := (hE _ _).1 hs
    have hc := source_comps h1
    have hc' := target_comps h2
    obtain rfl := join_inj hb1 hb2 hc.1 hc.2 h3
    exact ⟨m', hc'.1, hc'.2, h4, hb.tail ⟨e, he, r, r', h1, h2⟩⟩

theorem order_main (h : Names sep modules conn) {order : List Str} (ho : execOrder sep modules conn = .ok order) :
    ∃ ms, Order sep modules conn order ms := by
  unfold execOrder at ho
  obtain ⟨g, hg, hdict, -, hE⟩ := outer_main (goodCfg h) h.inSep h.outSep h.wf (outer_clean h)
  rw [hg] at ho
  simp only at ho
  change ∀ a b, Edge g a b ↔ ∃ e ∈ edges conn, ∃ m r m' r', Source (nsCfg sep) modules e.1 m r ∧
      Target (nsCfg sep) modules e.2 m' r' ∧ a = joinWith sep m ∧ b = joinWith sep m' at hE
  have ci : Comps sep ["input".toList] := by
    intro w hw; rw [List.mem_singleton] at hw; subst hw; exact ⟨by decide, h.inSep⟩
  have co : Comps sep ["output".toList] := by
    intro w hw; rw [List.mem_singleton] at hw; subst hw; exact ⟨by decide, h.outSep⟩
  have ji : joinWith sep ["input".toList] = "input".toList := rfl
  have jo : joinWith sep ["output".toList] = "output".toList := rfl
  have hnin : ∀ {e : Str × Str} {m' r'}, Target (nsCfg sep) modules e.2 m' r' → joinWith sep m' ≠ "input".toList := by
    intro e m' r' ht ej
    have hc := target_comps ht
    obtain rfl := join_inj hc.1 hc.2 ci (by simp) (ej.trans ji.symm)
    rcases ht.2.2 with h1 | h1
    · revert h1; show ["input".toList] = ["output".toList] → False; decide
    · exact h1.2.1 rfl
  have hunfed : ∀ u, ¬ Edge g u "input".toList := by
    intro u hu
    obtain ⟨e, he, m, r, m', r', h1, h2, h3, h4⟩ := (hE _ _).1 hu
    exact hnin h2 h4.symm
  have hres : ∃ v, Graph.resolve g "input".toList "output".toList = .ok (order, v) := by
    split at ho
    · simp at ho
    · revert ho
      cases Graph.resolve g "input".toList "output".toList with
      | error e => simp
      | ok p => intro ho; simp only [Except.ok.injEq] at ho; exact ⟨p.2, by rw [← ho]⟩
  obtain ⟨v, hres⟩ := hres
  obtain ⟨hs, hm, -⟩ := Graph.resolve_ok hdict hunfed hres
  -- shape of the order
  obtain ⟨mid, hmid⟩ : ∃ mid, order = "input".toList :: mid ++ ["output".toList] := by
    have h1 := hs.first
    have h2 := hs.last
    cases order with
    | nil => simp at h1
    | cons a l =>
      simp only [List.head?_cons, Option.some.injEq] at h1
      subst h1
      rcases List.eq_nil_or_concat l with rfl | ⟨l', b, rfl⟩
      · exact absurd h2 (by decide)
      · refine ⟨l', ?_⟩
        have : ("input".toList :: l'.concat b).getLast? = some b := by
          rw [List.concat_eq_append, ← List.cons_append, List.getLast?_concat]
        rw [this] at h2
        simp only [Option.some.injEq] at h2
        subst h2; simp
  have hnd := hs.nodup
  rw [hmid] at hnd
  -- every node in the middle is a module
  have hdec : ∀ x ∈ mid, ∃ m, x = joinWith sep m ∧ Comps sep m ∧ Canonical m ∧ IsModule (nsCfg sep) modules m := by
    intro x hx
    have hu := (hm x).1 (by rw [hmid]; simp [hx])
    have hxi : x ≠ "input".toList := by
      rintro rfl
      simp only [List.cons_append, List.nodup_cons] at hnd
      exact hnd.1 (List.mem_append_left _ hx)
    have hxo : x ≠ "output".toList := by
      rintro rfl
      simp only [List.cons_append, List.nodup_cons] at hnd
      have := (List.nodup_append.1 hnd.2).2.2 _ hx _ (List.mem_singleton.2 rfl)
      exact this rfl
    rcases ReflTransGen.cases_tail hu.1 with e | ⟨y, -, hy⟩
    · exact absurd e hxi
    · obtain ⟨e, he, m, r, m', r', h1, h2, h3, h4⟩ := (hE _ _).1 hy
      refine ⟨m', h4, (target_comps h2).1, canonical_left (target_canon h he h2), ?_⟩
      rcases h2.2.2 with h5 | h5
      · rw [h5] at h4; exact absurd h4 hxo
      · exact h5
  have hround : (mid.map (splitOn sep)).map (joinWith sep) = mid := by
    rw [List.map_map]
    conv_rhs => rw [← List.map_id mid]
    exact List.map_congr_left fun x _ => joinWith_splitOn sep x
  have hmemx : ∀ m, m ∈ mid.map (splitOn sep) ↔ m ≠ [] ∧ Comps sep m ∧ joinWith sep m ∈ mid := by
    intro m
    rw [List.mem_map]
    constructor
    · rintro ⟨x, hx, rfl⟩
      obtain ⟨m, rfl, hc, -, hmod⟩ := hdec x hx
      rw [split_join_comps hc hmod.1]
      exact ⟨hmod.1, hc, hx⟩
    · rintro ⟨h1, h2, h3⟩
      exact ⟨_, h3, split_join_comps h2 h1⟩
  have hmods : ∀ m ∈ mid.map (splitOn sep), Comps sep m ∧ Canonical m ∧ IsModule (nsCfg sep) modules m := by
    intro m hm'
    obtain ⟨h1, h2, h3⟩ := (hmemx m).1 hm'
    obtain ⟨m1, e, c1, c2, c3⟩ := hdec _ h3
    obtain rfl := join_inj h2 h1 c1 c3.1 e
    exact ⟨c1, c2, c3⟩
  have hndm : (mid.map (splitOn sep)).Nodup := by
    have : ((mid.map (splitOn sep)).map (joinWith sep)).Nodup := by
      rw [hround]
      simp only [List.cons_append, List.nodup_cons] at hnd
      exact (List.nodup_append.1 hnd.2).1
    exact List.Nodup.of_map _ this
  refine ⟨mid.map (splitOn sep), ?_, hndm, ?_, fun m hm' => ⟨(hmods m hm').1, (hmods m hm').2.1⟩, ?_, ?_, ?_⟩
  · rw [hround, hmid]
  · intro m
    constructor
    · intro hm'
      obtain ⟨c1, c2, c3⟩ := hmods m hm'
      have hu := (hm (joinWith sep m)).1 (by rw [hmid]; simp [((hmemx m).1 hm').2.2])
      refine ⟨c3, ?_, ?_⟩
      · rw [← ji] at hu
        obtain ⟨b, hb1, hb2, hb3, hb⟩ := feeds_of_reach g hE ⟨ci, by simp⟩ hu.1
        obtain rfl := join_inj c1 c3.1 hb1 hb2 hb3
        exact hb
      · obtain ⟨b, hb1, hb2, hb3, hb⟩ := feeds_of_reach g hE ⟨c1, c3.1⟩ hu.2
        obtain rfl := join_inj co (by simp) hb1 hb2 hb3
        exact hb
    · rintro ⟨h1, h2, h3⟩
      have hu : joinWith sep m ∈ order := (hm _).2 ⟨reach_of_feeds g hE h2, reach_of_feeds g hE h3⟩
      have hc : Comps sep m ∧ m ≠ [] := by
        rcases ReflTransGen.cases_tail h2 with e | ⟨y, -, hy⟩
        · rw [e]; exact ⟨ci, by simp⟩
        · obtain ⟨e, he, r, ht⟩ := feeds_target hy
          exact target_comps ht
      rw [hmemx]
      refine ⟨hc.2, hc.1, ?_⟩
      rw [hmid] at hu
      simp only [List.cons_append, List.mem_cons, List.mem_append, List.not_mem_nil, or_false] at hu
      rcases hu with hu | hu | hu
      · obtain rfl := join_inj hc.1 hc.2 ci (by simp) (hu.trans ji.symm)
        exact absurd rfl h1.2.1
      · exact hu
      · obtain rfl := join_inj hc.1 hc.2 co (by simp) (hu.trans jo.symm)
        exact absurd rfl h1.2.2.1
  · refine List.Pairwise.imp_of_mem (fun {a b} ha hb hab => ?_) hndm
    obtain ⟨a1, a2, a3⟩ := hmods a ha
    obtain ⟨b1, b2, b3⟩ := hmods b hb
    obtain ⟨-, -, -, x, hx⟩ := a3
    obtain ⟨-, -, -, y, hy⟩ := b3
    refine diverge_of_free a2 b2 (fun hp => hab ?_) (fun hp => hab ?_)
    · exact leaf_not_prefix (fun w hw => (b1 w hw).1) hx hy hp
    · exact (leaf_not_prefix (fun w hw => (a1 w hw).1) hy hx hp).symm
  · intro a m pre post e hf
    obtain ⟨ed, hed, r, r', h1, h2⟩ := hf
    have hEd : Edge g (joinWith sep a) (joinWith sep m) := (hE _ _).2 ⟨ed, hed, a, r, m, r', h1, h2, rfl, rfl⟩
    have hmo : joinWith sep m ∈ order := by
      rw [hmid]
      simp [((hmemx m).1 (by rw [e]; simp)).2.2]
    have hb := hs.producersFirst _ _ hmo hEd ("input".toList :: pre.map (joinWith sep))
      (post.map (joinWith sep) ++ ["output".toList]) (by
        rw [hmid, ← hround, e]; simp)
    have hc := source_comps h1
    rcases List.mem_cons.1 hb with hb | hb
    · exact .inl (join_inj hc.1 hc.2 ci (by simp) (hb.trans ji.symm))
    · right
      obtain ⟨a', ha', e'⟩ := List.mem_map.1 hb
      have := (hmods a' (by rw [e]; simp [ha']))
      obtain rfl := join_inj this.1 this.2.2.1 hc.1 hc.2 e'
      exact ha'
  · intro a hf
    obtain ⟨ed, hed, r, r', h1, h2⟩ := hf
    have hEd : Edge g (joinWith sep a) "output".toList := (hE _ _).2 ⟨ed, hed, a, r, _, r', h1, h2, rfl, rfl⟩
    have hmo : "output".toList ∈ order := by
      rw [hmid]; simp
    have hb := hs.producersFirst _ _ hmo hEd ("input".toList :: mid) [] (by rw [hmid])
    have hc := source_comps h1
    rcases List.mem_cons.1 hb with hb | hb
    · exact .inl (join_inj hc.1 hc.2 ci (by simp) (hb.trans ji.symm))
    · right
      rw [hmemx]
      exact ⟨hc.2, hc.1, hb⟩

end Verif.Forward
