import Verif.Lemmas.NonSeqComplete

/-! When a non-sequential model has an order of execution. -/

namespace Verif.Forward
open TreeSpec ConnSpec PathSpec ForwardSpec DataflowSpec GraphSpec Conn Tree Relation

variable {M : Type} {sep : Char} {modules : Tree M} {conn : List (Str × List Str)}

theorem feeds_comps {a b : List Str} (h : Feeds (nsCfg sep) modules conn a b) :
    (Comps sep a ∧ a ≠ []) ∧ Comps sep b ∧ b ≠ [] := by
  obtain ⟨e, -, r, r', h1, h2⟩ := h
  exact ⟨source_comps h1, target_comps h2⟩

theorem feeds_of_cycle (g : List (Str × List Str))
    (hE : ∀ a b, Edge g a b ↔ ∃ e ∈ edges conn, ∃ m r m' r', Source (nsCfg sep) modules e.1 m r ∧
      Target (nsCfg sep) modules e.2 m' r' ∧ a = joinWith sep m ∧ b = joinWith sep m') {a : List Str} {y : Str}
    (ha : Comps sep a ∧ a ≠ []) (h : TransGen (Edge g) (joinWith sep a) y) : ∃ b, Comps sep b ∧ b ≠ [] ∧ y = joinWith sep b ∧
      TransGen (Feeds (nsCfg sep) modules conn) a b := by
  obtain ⟨z, h1, h2⟩ := TransGen.tail'_iff.1 h
  obtain ⟨b, b1, b2, rfl, b4⟩ := feeds_of_reach g hE ha h1
  obtain ⟨e, he, m, r, m', r', h1, h2, h3, h4⟩ := (hE _ _).1 h2
  have hc := source_comps h1
  have hc' := target_comps h2
  obtain rfl := join_inj b1 b2 hc.1 hc.2 h3
  exact ⟨m', hc'.1, hc'.2, h4, TransGen.tail'_iff.2 ⟨_, b4, e, he, r, r', h1, h2⟩⟩

theorem cycle_of_feeds (g : List (Str × List Str))
    (hE : ∀ a b, Edge g a b ↔ ∃ e ∈ edges conn, ∃ m r m' r', Source (nsCfg sep) modules e.1 m r ∧
      Target (nsCfg sep) modules e.2 m' r' ∧ a = joinWith sep m ∧ b = joinWith sep m') {a b : List Str}
    (h : TransGen (Feeds (nsCfg sep) modules conn) a b) : TransGen (Edge g) (joinWith sep a) (joinWith sep b) := by
  obtain ⟨z, h1, h2⟩ := TransGen.tail'_iff.1 h
  obtain ⟨e, he, r, r', h3, h4⟩ := h2
  exact TransGen.tail'_iff.2 ⟨_, reach_of_feeds g hE h1, (hE _ _).2 ⟨e, he, _, r, _, r', h3, h4, rfl, rfl⟩⟩

theorem target_cases {a b : List Str} (h : Feeds (nsCfg sep) modules conn a b) : IsTarget sep modules b := by
  obtain ⟨e, -, r, r', h1, h2⟩ := h
  exact h2.2.2

theorem exec_iff (h : Names sep modules conn) :
    (∃ order, execOrder sep modules conn = .ok order) ↔ Accepted (nsCfg sep) modules conn := by
  obtain ⟨g, hg, hdict, -, hE⟩ := outer_main (goodCfg h) h.inSep h.outSep h.wf (outer_clean h)
  change ∀ a b, Edge g a b ↔ ∃ e ∈ edges conn, ∃ m r m' r', Source (nsCfg sep) modules e.1 m r ∧
      Target (nsCfg sep) modules e.2 m' r' ∧ a = joinWith sep m ∧ b = joinWith sep m' at hE
  have ci : Comps sep ["input".toList] := comps_in h
  have co : Comps sep ["output".toList] := comps_out h
  have ji : joinWith sep ["input".toList] = "input".toList := rfl
  have jo : joinWith sep ["output".toList] = "output".toList := rfl
  have hnin : ∀ {a m'}, Feeds (nsCfg sep) modules conn a m' → m' ≠ ["input".toList] := by
    rintro a m' hf rfl
    rcases target_cases hf with h1 | h1
    · revert h1; show ["input".toList] = ["output".toList] → False; decide
    · exact h1.2.1 rfl
  have hnout : ∀ {m'}, ¬ Feeds (nsCfg sep) modules conn ["output".toList] m' := by
    rintro m' ⟨e, -, r, r', h1, h2⟩
    rcases h1.2.2 with h1 | h1
    · revert h1; show ["output".toList] = ["input".toList] → False; decide
    · exact h1.2.2.1 rfl
  have hunfed : ∀ u, ¬ Edge g u "input".toList := by
    intro u hu
    obtain ⟨e, he, m, r, m', r', h1, h2, h3, h4⟩ := (hE _ _).1 hu
    have hc := target_comps h2
    have := join_inj hc.1 hc.2 ci (by simp) (h4.symm.trans ji.symm)
    exact hnin ⟨e, he, r, r', h1, h2⟩ this
  -- the useful nodes
  have huse : ∀ v, Useful g "input".toList "output".toList v → v = "input".toList ∨ v = "output".toList ∨
      ∃ m, Scheduled (nsCfg sep) modules conn m ∧ v = joinWith sep m ∧ Comps sep m ∧ m ≠ [] := by
    intro v hv
    obtain ⟨b, b1, b2, rfl, b4⟩ := feeds_of_reach g hE ⟨ci, by simp⟩ hv.1
    obtain ⟨c, c1, c2, c3, c4⟩ := feeds_of_reach g hE ⟨b1, b2⟩ hv.2
    have hc := join_inj c1 c2 co (by simp) (c3.symm.trans jo.symm)
    subst hc
    rcases ReflTransGen.cases_tail b4 with e | ⟨a, -, ha⟩
    · left; rw [e]; rfl
    · rcases target_cases ha with rfl | hm
      · right; left; rfl
      · right; right; exact ⟨b, ⟨hm, b4, c4⟩, rfl, b1, b2⟩
  have huse' : ∀ m, Scheduled (nsCfg sep) modules conn m →
      Useful g "input".toList "output".toList (joinWith sep m) ∧ Comps sep m ∧ m ≠ [] := by
    intro m hm
    refine ⟨⟨reach_of_feeds g hE hm.2.1, reach_of_feeds g hE hm.2.2⟩, ?_⟩
    obtain ⟨a, ha⟩ := fed_of_scheduled hm
    exact (feeds_comps ha).2
  have hwf : GraphSpec.WellFormed g "input".toList "output".toList ↔ Accepted (nsCfg sep) modules conn := by
    constructor
    · intro hw
      refine ⟨?_, ?_, ?_⟩
      · obtain ⟨b, b1, b2, b3, b4⟩ := feeds_of_reach g hE ⟨ci, by simp⟩ hw.connected
        have hc := join_inj b1 b2 co (by simp) (b3.symm.trans jo.symm)
        subst hc
        exact b4
      · intro m hm hcyc
        exact hw.acyclic _ (huse' m hm).1 (cycle_of_feeds g hE hcyc)
      · intro m hm a ha
        have hu : Useful g "input".toList "output".toList (joinWith sep m) := by
          rcases hm with hm | rfl
          · exact (huse' m hm).1
          · exact ⟨hw.connected, .refl⟩
        have hr := hw.producersFed _ hu (joinWith sep a) (by
          obtain ⟨e, he, r, r', h1, h2⟩ := ha
          exact (hE _ _).2 ⟨e, he, _, r, _, r', h1, h2, rfl, rfl⟩)
        obtain ⟨b, b1, b2, b3, b4⟩ := feeds_of_reach g hE ⟨ci, by simp⟩ hr
        have hca := (feeds_comps ha).1
        obtain rfl := join_inj hca.1 hca.2 b1 b2 b3
        exact b4
    · intro ha
      refine ⟨reach_of_feeds g hE ha.connected, ?_, ?_⟩
      · intro v hv hcyc
        rcases huse v hv with rfl | rfl | ⟨m, hm, rfl, hc, hne⟩
        · obtain ⟨z, -, h2⟩ := TransGen.tail'_iff.1 hcyc
          exact hunfed _ h2
        · obtain ⟨b, b1, b2, b3, b4⟩ := feeds_of_cycle g hE ⟨co, by simp⟩ hcyc
          obtain ⟨z, h1, -⟩ := TransGen.head'_iff.1 b4
          exact hnout h1
        · obtain ⟨b, b1, b2, b3, b4⟩ := feeds_of_cycle g hE ⟨hc, hne⟩ hcyc
          obtain rfl := join_inj hc hne b1 b2 b3
          exact ha.acyclic m hm b4
      · intro v hv u hu
        obtain ⟨e, he, a, r, m', r', h1, h2, rfl, h4⟩ := (hE _ _).1 hu
        have hf : Feeds (nsCfg sep) modules conn a m' := ⟨e, he, r, r', h1, h2⟩
        have hc' := (feeds_comps hf).2
        refine reach_of_feeds g hE (ha.fed m' ?_ a hf)
        rcases huse v hv with rfl | rfl | ⟨m, hm, rfl, hc, hne⟩
        · exact absurd hu (hunfed _)
        · exact .inr (join_inj hc'.1 hc'.2 co (by simp) (h4.symm.trans jo.symm))
        · rw [join_inj hc'.1 hc'.2 hc hne h4.symm]
          exact .inl hm
  rw [← hwf]
  constructor
  · rintro ⟨order, ho⟩
    unfold execOrder at ho
    rw [hg] at ho
    simp only at ho
    split at ho
    · simp at ho
    · revert ho
      cases hr : Graph.resolve g "input".toList "output".toList with
      | error e => simp
      | ok p => intro _; exact Graph.wellFormed_of_ok hdict hunfed (order := p.1) (rev := p.2) hr
  · intro hw
    obtain ⟨order, rev, hr⟩ := Graph.ok_of_wellFormed hdict hunfed hw
    refine ⟨order, ?_⟩
    unfold execOrder
    rw [hg]
    simp only
    have hin : (g.lookup "input".toList).isNone = false := by
      rcases ReflTransGen.cases_head hw.connected with e | ⟨c, hc, -⟩
      · exact absurd e (by decide)
      · obtain ⟨vs, hvs, -⟩ := hc
        cases hl : g.lookup "input".toList with
        | some x => rfl
        | none =>
          exfalso
          rw [List.lookup_eq_none_iff] at hl
          have := hl _ hvs
          simp at this
    rw [hin, if_neg (by decide), hr]

theorem exec_error (h : Names sep modules conn) (hin : ∃ m, Feeds (nsCfg sep) modules conn ["input".toList] m) (hn : ¬ ∃ order, execOrder sep modules conn = .ok order) :
    execOrder sep modules conn = .error .runtimeError := by
  obtain ⟨g, hg, hdict, -, hE⟩ := outer_main (goodCfg h) h.inSep h.outSep h.wf (outer_clean h)
  obtain ⟨m, e, he, r, r', h1, h2⟩ := hin
  have hedge : Edge g "input".toList (joinWith sep m) := (hE _ _).2 ⟨e, he, _, r, m, r', h1, h2, rfl, rfl⟩
  unfold execOrder at hn ⊢
  rw [hg] at hn ⊢
  simp only at hn ⊢
  have hl : (g.lookup "input".toList).isNone = false := by
    cases hx : g.lookup "input".toList with
    | some _ => rfl
    | none =>
      obtain ⟨vs, hm, -⟩ := hedge
      exact absurd (List.lookup_eq_none_iff.1 hx _ hm) (by simp)
  simp only [hl, Bool.false_eq_true, if_false] at hn ⊢
  split
  · rfl
  · next o _ ho => rw [ho] at hn; exact absurd ⟨_, rfl⟩ hn

end Verif.Forward
