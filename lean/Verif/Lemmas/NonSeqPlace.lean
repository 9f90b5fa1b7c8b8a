import Verif.Lemmas.NonSeqOrder
import Verif.Lemmas.JaxTree

/-! What the placed connections contain. -/

namespace Verif.Tree
open ForwardSpec PathSpec

theorem spells_unique {p p' : List Str} {q : List ForwardSpec.Step} (hp : Canonical p) (hp' : Canonical p') (h : Spells p q)
    (h' : Spells p' q) : p = p' := by
  induction h generalizing p' with
  | nil => cases h'; rfl
  | cons hs _ ih =>
    cases h' with
    | cons hs' h' =>
      have hk := ih (fun k hk => hp k (List.mem_cons_of_mem _ hk)) (fun k hk => hp' k (List.mem_cons_of_mem _ hk)) h'
      subst hk
      rename_i a s _ _ _ b
      have : a = b := by
        rcases hs with e | ⟨d, e⟩ <;> rcases hs' with e' | ⟨d', e'⟩ <;> subst e
        · cases e'; rfl
        · cases e'
        · cases e'
        · simp only [ForwardSpec.Step.idx.injEq] at e'
          rw [← hp _ (by simp) d, ← hp' _ (by simp) d', e']
      rw [this]

theorem spells_append {p : List Str} {q q' : List ForwardSpec.Step} (h : Spells p (q ++ q')) :
    ∃ a b, p = a ++ b ∧ Spells a q ∧ Spells b q' := by
  induction q generalizing p with
  | nil => exact ⟨[], p, rfl, .nil, h⟩
  | cons s q ih =>
    cases h with
    | cons hs h =>
      obtain ⟨a, b, rfl, h1, h2⟩ := ih h
      exact ⟨_ :: a, b, rfl, .cons hs h1, h2⟩

end Verif.Tree

namespace Verif.Forward
open TreeSpec ConnSpec PathSpec ForwardSpec DataflowSpec Conn Tree

variable {M : Type} {sep : Char} {modules : Tree M} {conn : List (Str × List Str)} {fresh : Str → Nat → Nat → Str}

/-- Where an edge goes. -/
def IsTarget (sep : Char) (modules : Tree M) (m : List Str) : Prop :=
  m = ["output".toList] ∨ IsModule (nsCfg sep) modules m

theorem isTarget_unique {m m' r r' : List Str} (h : IsTarget sep modules m) (h' : IsTarget sep modules m')
    (hp : Proper (m ++ r)) (e : m ++ r = m' ++ r') : m = m' ∧ r = r' := by
  have hmm : m = m' := by
    rcases h with rfl | hm
    · rcases h' with rfl | hm'
      · rfl
      · exfalso
        cases m' with
        | nil => exact hm'.1 rfl
        | cons a l =>
          simp only [List.cons_append, List.nil_append, List.cons.injEq] at e
          exact hm'.2.2.1 (by rw [← e.1]; rfl)
    · rcases h' with rfl | hm'
      · exfalso
        cases m with
        | nil => exact hm.1 rfl
        | cons a l =>
          simp only [List.cons_append, List.nil_append, List.cons.injEq] at e
          exact hm.2.2.1 (by rw [e.1]; rfl)
      · obtain ⟨-, -, -, b, hb⟩ := hm
        obtain ⟨-, -, -, b', hb'⟩ := hm'
        have p1 : m <+: m ++ r := List.prefix_append _ _
        have p2 : m' <+: m ++ r := by rw [e]; exact List.prefix_append _ _
        rcases List.prefix_or_prefix_of_prefix p1 p2 with hh | hh
        · exact leaf_not_prefix (fun w hw => hp w (p2.subset hw)) hb hb' hh
        · exact (leaf_not_prefix (fun w hw => hp w (p1.subset hw)) hb' hb hh).symm
  subst hmm
  exact ⟨rfl, List.append_cancel_left e⟩

/-- Concrete edges against requested edges. -/
structure Concrete (sep : Char) (modules : Tree M) (conn R : List (Str × List Str)) : Prop where
  /-- Every concrete edge belongs to a requested one. -/
  back : ∀ k v, (k, v) ∈ edges R → ∃ m r w r0, (k, w) ∈ edges conn ∧ Target (nsCfg sep) modules w m r0 ∧
    splitOn sep v = m ++ r ∧ r0 <+: r ∧ Comps sep (m ++ r) ∧ Canonical (m ++ r)
  /-- Every requested edge has a concrete one. -/
  forth : ∀ k w, (k, w) ∈ edges conn → ∃ m r v r0, (k, v) ∈ edges R ∧ Target (nsCfg sep) modules w m r0 ∧
    splitOn sep v = m ++ r ∧ r0 <+: r ∧ Comps sep (m ++ r) ∧ Canonical (m ++ r)

theorem concrete_ok (h : Names sep modules conn) (hf : FreshOk sep fresh) :
    ∃ R, concretizeConnections (nsCfg sep) fresh modules conn = .ok R ∧ Concrete sep modules conn R := by
  obtain ⟨R, T, h1, -, h3, h4, h5, h6, h7, h8⟩ := concretize_main (goodCfg h) h.digit (fun o c i => ⟨hf.ne o c i, hf.sepFree o c i⟩)
    (fun k => isDigit k = true → ofNat (toInt k) = k) (fun n _ => by rw [Concretize.toInt_ofNat])
    (fun o c i => hf.canon o c i _ (by simp)) h.wf
  have hsplit : ∀ tr ∈ T, splitOn sep (joinWith sep (tr.mod ++ tr.inner)) = tr.mod ++ tr.inner := by
    intro tr htr
    obtain ⟨c1, c2, -⟩ := h6 tr htr
    obtain ⟨r, tg, -⟩ := h5 tr htr
    exact splitOn_joinWith _ _ (by simp [target_ne tg]) (fun w hw => ((c1.append c2) w hw).2)
  refine ⟨R, h1, ?_, ?_⟩
  · intro k v hkv
    obtain ⟨tr, htr, e⟩ := List.mem_map.1 (h4.symm.subset hkv)
    simp only [Prod.mk.injEq] at e
    obtain ⟨rfl, rfl⟩ := e
    obtain ⟨r0, tg, hr0⟩ := h5 tr htr
    obtain ⟨c1, c2, c3⟩ := h6 tr htr
    exact ⟨tr.mod, tr.inner, tr.req, r0, h3.subset (List.mem_map.2 ⟨tr, htr, rfl⟩), tg, hsplit tr htr, hr0, c1.append c2,
      c3 fun e he k hk => h.canonTgt e he k hk⟩
  · intro k w hkw
    obtain ⟨tr, htr, e⟩ := List.mem_map.1 (h3.symm.subset hkw)
    simp only [Prod.mk.injEq] at e
    obtain ⟨rfl, rfl⟩ := e
    obtain ⟨r0, tg, hr0⟩ := h5 tr htr
    obtain ⟨c1, c2, c3⟩ := h6 tr htr
    exact ⟨tr.mod, tr.inner, _, r0, h4.subset (List.mem_map.2 ⟨tr, htr, rfl⟩), tg, hsplit tr htr, hr0, c1.append c2,
      c3 fun e he k hk => h.canonTgt e he k hk⟩

/-- The source of a concrete edge into `m` feeds `m`. -/
theorem edge_feeds (h : Names sep modules conn) {R : List (Str × List Str)} (hc : Concrete sep modules conn R) {k v : Str}
    {m r : List Str} (hkv : (k, v) ∈ edges R) (hv : splitOn sep v = m ++ r) (hm : IsTarget sep modules m) :
    ∃ a ra, Source (nsCfg sep) modules k a ra ∧ Feeds (nsCfg sep) modules conn a m ∧ Canonical (a ++ ra) := by
  obtain ⟨m', r', w, r0, h1, h2, h3, -, h5, -⟩ := hc.back k v hkv
  obtain ⟨rfl, rfl⟩ := isTarget_unique hm (r := r) (r' := r') h2.2.2 (by
    rw [← hv, h3]; exact fun x hx => (h5 x hx).1) (by rw [← hv, h3])
  obtain ⟨kv, hkv', e1, -⟩ := mem_edges_key h1
  obtain ⟨a, ra, hs⟩ := h.wf.source kv hkv'
  simp only at e1
  rw [e1] at hs
  exact ⟨a, ra, hs, ⟨_, h1, ra, r0, hs, h2⟩, source_canon h h1 hs⟩

theorem extend_reads {eqv : Tree Str → Tree Str → Bool} {t : Tree Str} {L : List (List Str × Str)}
    (heq : ∀ a b, eqv a b = true → a = b)
    (h : extend eqv .none (L.map fun e => (e.1, .leaf e.2)) = .ok t) (hne : ∀ e ∈ L, e.1 ≠ [] ∧ Proper e.1)
    (hd : L.Pairwise fun a b => Diverge a.1 b.1) : ∀ e ∈ L, get t e.1 = .ok (.leaf e.2) := by
  intro e he
  have hne' : ∀ pf ∈ (L.map fun e => (e.1, (.leaf e.2 : Tree Str))), pf.1 ≠ [] ∧ Proper pf.1 := by
    intro pf hpf
    obtain ⟨x, hx, rfl⟩ := List.mem_map.1 hpf
    exact hne x hx
  obtain ⟨b, t1, rec, t2, h1, h2, h3, h4, _⟩ := extend_run h
  obtain ⟨v, hv, hv'⟩ := extendAll_read h1 hne' (by rw [List.pairwise_map]; exact hd) _ (List.mem_map.2 ⟨e, he, rfl⟩)
  have hvl : v = .leaf e.2 := by
    rcases hv' with rfl | hh | hh
    · rfl
    · exact heq _ _ hh
    · simp at hh
  simp only at hv
  rw [hvl] at hv
  exact get_leaf_of_detuple (h4.trans (detuple_restore h2)) hv

theorem strEqv_eq (a b : Tree Str) (h : strEqv a b = true) : a = b := by
  unfold strEqv at h
  split at h
  · simp only [beq_iff_eq] at h; rw [h]
  · simp at h

theorem spells_of_newAt {k k' : Str} {p : List Str} {q : List ForwardSpec.Step} (h : NewAt (.leaf k) p q k') :
    k' = k ∧ Spells p q := by
  obtain ⟨q', r, rfl, h1, h2⟩ := h
  cases h2
  exact ⟨rfl, by simpa using h1⟩

theorem place_holds (h : Names sep modules conn) (hf : FreshOk sep fresh) {R : List (Str × List Str)}
    (hR : concretizeConnections (nsCfg sep) fresh modules conn = .ok R) (hc : Concrete sep modules conn R)
    {placed outPlaced : Tree Str} (hp : place (nsCfg sep) fresh modules conn = .ok (placed, outPlaced)) :
    (∀ m req, IsModule (nsCfg sep) modules m → Comps sep m → Canonical m → get placed m = .ok req → Holds sep R m req) ∧
    (∀ a m, Feeds (nsCfg sep) modules conn a m → IsModule (nsCfg sep) modules m → ∃ req, get placed m = .ok req) ∧
    Holds sep R ["output".toList] outPlaced := by
  obtain ⟨P, O, hd, hpl⟩ := place_form (goodCfg h) (by show "output".toList ≠ []; decide) h.digit
    (fun o c i => ⟨hf.ne o c i, hf.sepFree o c i⟩) (fun o c i => hf.canon o c i _ (by simp)) h.wf h.canonTgt h.cleanTgt hR
  rw [hpl] at hp
  split at hp
  · simp at hp
  · next o ho =>
    split at hp
    · simp at hp
    · next t ht =>
      simp only [Except.ok.injEq, Prod.mk.injEq] at hp
      obtain ⟨rfl, rfl⟩ := hp
      have hrd := extend_reads strEqv_eq ht (fun e he => ⟨(hd.properP e he).1, (hd.properP e he).2.1⟩) hd.divP
      have hPm : ∀ m k v r, IsModule (nsCfg sep) modules m → (k, v) ∈ edges R → splitOn sep v = m ++ r →
          (m ++ r, k) ∈ P := by
        intro m k v r hm hkv hs
        rw [hd.memP]
        refine ⟨v, hkv, hs, fun rest _ e => ?_⟩
        cases m with
        | nil => exact hm.1 rfl
        | cons a l =>
          simp only [List.cons_append, List.cons.injEq] at e
          exact hm.2.2.1 (by rw [e.1]; rfl)
      refine ⟨?_, ?_, ?_⟩
      · intro m req hm hcm hcan hreq
        refine ⟨?_, ?_⟩
        · intro k v r hkv hs
          have h1 := hPm m k v r hm hkv hs
          have h2 := hrd _ h1
          simp only at h2
          rw [get_append _ _ _ (hd.properP _ h1).2.1, hreq] at h2
          exact h2
        · intro q k hat
          obtain ⟨q', hq', hat'⟩ := at_of_get (fun w hw => (hcm w hw).1) hreq hat
          obtain ⟨pf, hpf, hnew⟩ := extend_none_at ht hat'
          obtain ⟨e, he, rfl⟩ := List.mem_map.1 hpf
          obtain ⟨rfl, hsp⟩ := spells_of_newAt hnew
          obtain ⟨a, b, eab, ha, hb⟩ := spells_append hsp
          have hcan' := (hd.properP e he).2.2
          simp only at eab
          rw [eab] at hcan'
          obtain rfl := spells_unique hcan (canonical_left hcan') hq' ha
          obtain ⟨v, hv1, hv2, -⟩ := (hd.memP e.1 e.2).1 he
          exact ⟨v, b, hv1, by rw [← eab]; exact hv2, hb⟩
      · intro a m hfe hm
        obtain ⟨ed, hed, ra, r', hs, htg⟩ := hfe
        obtain ⟨m', r, v, r0, h1, h2, h3, -, h5, -⟩ := hc.forth _ _ hed
        obtain ⟨rfl, rfl⟩ := target_unique htg h2
        have hmem := hPm m _ v r hm h1 h3
        have := hrd _ hmem
        simp only at this
        rw [get_append _ _ _ (hd.properP _ hmem).2.1] at this
        split at this
        · next n hn => exact ⟨n, hn⟩
        · simp at this
      · have hO : ∀ k v r, (k, v) ∈ edges R → splitOn sep v = ["output".toList] ++ r → (r, k) ∈ O := by
          intro k v r hkv hs
          rw [hd.memO]
          exact ⟨v, hkv, hs⟩
        have hO' : ∀ e ∈ O, ∃ v, (e.2, v) ∈ edges R ∧ splitOn sep v = ["output".toList] ++ e.1 := fun e he => (hd.memO _ _).1 he
        unfold outTree at ho
        split at ho
        · next k =>
          simp only [Except.ok.injEq] at ho
          subst ho
          refine ⟨?_, ?_⟩
          · intro k' v r hkv hs
            have := hO k' v r hkv hs
            simp only [List.mem_singleton, Prod.mk.injEq] at this
            obtain ⟨rfl, rfl⟩ := this
            simp
          · intro q k' hat
            cases hat
            obtain ⟨v, hv1, hv2⟩ := hO' _ (by simp : (([] : List Str), k) ∈ _)
            exact ⟨v, [], hv1, hv2, .nil⟩
        · next hnot =>
          have hne : ∀ e ∈ O, e.1 ≠ [] ∧ Proper e.1 := by
            intro e he
            refine ⟨?_, (hd.properO e he).1⟩
            intro e0
            match O, he, hd.divO, hnot with
            | [(p, k)], he, _, hnot =>
              rw [List.mem_singleton] at he
              subst he
              simp only at e0
              subst e0
              exact hnot k rfl
            | x :: y :: l, he, hdv, _ =>
              have hpc := List.pairwise_cons.1 hdv
              rcases List.mem_cons.1 he with rfl | he
              · have := hpc.1 y (by simp)
                rw [e0] at this
                exact not_diverge_nil.1 this
              · have := hpc.1 e he
                rw [e0] at this
                exact not_diverge_nil.2 this
          have hro := extend_reads strEqv_eq ho hne hd.divO
          refine ⟨?_, ?_⟩
          · intro k v r hkv hs
            exact hro _ (hO k v r hkv hs)
          · intro q k hat
            obtain ⟨pf, hpf, hnew⟩ := extend_none_at ho hat
            obtain ⟨e, he, rfl⟩ := List.mem_map.1 hpf
            obtain ⟨rfl, hsp⟩ := spells_of_newAt hnew
            obtain ⟨v, hv1, hv2⟩ := hO' e he
            exact ⟨v, e.1, hv1, hv2, hsp⟩

/-- Placing succeeds if the concrete targets are uniform. -/
theorem place_ok (h : Names sep modules conn) (hf : FreshOk sep fresh) {R : List (Str × List Str)}
    (hR : concretizeConnections (nsCfg sep) fresh modules conn = .ok R)
    (hu : ∀ k v k' v', (k, v) ∈ edges R → (k', v') ∈ edges R → Uniform (splitOn sep v) (splitOn sep v')) :
    ∃ placed outPlaced, place (nsCfg sep) fresh modules conn = .ok (placed, outPlaced) := by
  obtain ⟨P, O, hd, hpl⟩ := place_form (goodCfg h) (by show "output".toList ≠ []; decide) h.digit
    (fun o c i => ⟨hf.ne o c i, hf.sepFree o c i⟩) (fun o c i => hf.canon o c i _ (by simp)) h.wf h.canonTgt h.cleanTgt hR
  obtain ⟨t, ht⟩ : ∃ t, extend strEqv .none (P.map fun e => (e.1, .leaf e.2)) = .ok t := by
    apply extend_none_ok
    · rw [List.pairwise_map]
      refine List.Pairwise.imp_of_mem (fun {a b} ha hb hab => ⟨hab, ?_⟩) hd.divP
      obtain ⟨v, hv1, hv2, -⟩ := (hd.memP a.1 a.2).1 ha
      obtain ⟨w, hw1, hw2, -⟩ := (hd.memP b.1 b.2).1 hb
      rw [← hv2, ← hw2]
      exact hu _ _ _ _ hv1 hw1
    · intro pf hpf
      obtain ⟨x, hx, rfl⟩ := List.mem_map.1 hpf
      exact ⟨(hd.properP x hx).1, (hd.properP x hx).2.1⟩
  have hO' : ∀ e ∈ O, ∃ v, (e.2, v) ∈ edges R ∧ splitOn sep v = ["output".toList] ++ e.1 := fun e he => (hd.memO _ _).1 he
  have ho : ∃ o, outTree O = .ok o := by
    unfold outTree
    split
    · exact ⟨_, rfl⟩
    · next hnot =>
      apply extend_none_ok
      · rw [List.pairwise_map]
        refine List.Pairwise.imp_of_mem (fun {a b} ha hb hab => ⟨hab, ?_⟩) hd.divO
        obtain ⟨v, hv1, hv2⟩ := hO' a ha
        obtain ⟨w, hw1, hw2⟩ := hO' b hb
        have := hu _ _ _ _ hv1 hw1
        rw [hv2, hw2] at this
        exact uniform_tail this
      · intro pf hpf
        obtain ⟨e, he, rfl⟩ := List.mem_map.1 hpf
        refine ⟨?_, (hd.properO e he).1⟩
        intro e0
        match O, he, hd.divO, hnot with
        | [(p, k)], he, _, hnot =>
          rw [List.mem_singleton] at he
          subst he
          simp only at e0
          subst e0
          exact hnot k rfl
        | x :: y :: l, he, hdv, _ =>
          have hpc := List.pairwise_cons.1 hdv
          rcases List.mem_cons.1 he with rfl | he
          · have := hpc.1 y (by simp)
            simp only at e0
            rw [e0] at this
            exact not_diverge_nil.1 this
          · have := hpc.1 e he
            simp only at e0
            rw [e0] at this
            exact not_diverge_nil.2 this
  obtain ⟨o, ho⟩ := ho
  refine ⟨t, o, ?_⟩
  rw [hpl, ho]
  simp only [ht]

end Verif.Forward
