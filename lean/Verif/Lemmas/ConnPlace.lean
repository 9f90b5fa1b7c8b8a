import Verif.Lemmas.ConnConcrete
import Verif.Props.Tree

namespace Verif.Conn
open TreeSpec ConnSpec PathSpec

theorem diverge_of_free {p q : List Str} (hp : Canonical p) (hq : Canonical q) (h1 : ¬ p <+: q) (h2 : ¬ q <+: p) :
    Diverge p q := by
  induction p generalizing q with
  | nil => exact absurd (List.nil_prefix) h1
  | cons a p ih =>
    cases q with
    | nil => exact absurd (List.nil_prefix) h2
    | cons b q =>
      by_cases hab : a = b
      · subst hab
        obtain ⟨c, k1, r1, k2, r2, e1, e2, hk⟩ := ih (fun k hk => hp k (List.mem_cons_of_mem _ hk))
          (fun k hk => hq k (List.mem_cons_of_mem _ hk))
          (fun h => h1 (List.cons_prefix_cons.2 ⟨rfl, h⟩)) (fun h => h2 (List.cons_prefix_cons.2 ⟨rfl, h⟩))
        exact ⟨a :: c, k1, r1, k2, r2, by rw [e1]; rfl, by rw [e2]; rfl, hk⟩
      · refine ⟨[], a, p, b, q, rfl, rfl, ?_⟩
        rintro (h | ⟨d1, d2, e⟩)
        · exact hab h
        · apply hab
          rw [← hp a (by simp) d1, ← hq b (by simp) d2, e]

theorem reverse_spec (R : List (Str × List Str)) (hn : ((edges R).map Prod.snd).Nodup) :
    (reverseConn R).any (fun kv => kv.2.length > 1) = false ∧
    ((reverseConn R).map fun kv => (kv.1, kv.2.headD [])).Perm ((edges R).map fun e => (e.2, e.1)) := by
  obtain ⟨h1, h2, h3⟩ := groupItems_spec (fun e : Str × Str => e.2) (edges R)
  have hperm := groupItems_perm (fun e : Str × Str => e.2) (edges R)
  have hone : ∀ g ∈ groupItems (fun e : Str × Str => e.2) (edges R), ∃ k, g.2 = [(k, g.1)] := by
    intro g hg
    have e := h3 g.1 g.2 hg
    obtain ⟨e0, he0, hk⟩ := (h2 g.1).1 (List.mem_map_of_mem (f := Prod.fst) hg)
    have hlen : (g.2.map Prod.snd).Nodup := by rw [e]; exact (List.filter_sublist.map _).nodup hn
    have hm0 : e0 ∈ g.2 := by rw [e]; exact List.mem_filter.2 ⟨he0, by simpa using hk⟩
    have hall : ∀ x ∈ g.2, x.2 = g.1 := by
      intro x hx; rw [e, List.mem_filter] at hx; simpa using hx.2
    match hg2 : g.2, hm0 with
    | [x], _ => exact ⟨x.1, by rw [← hall x (by rw [hg2]; simp)]⟩
    | x :: y :: l, _ =>
      exfalso
      rw [hg2] at hlen
      have hx := hall x (by rw [hg2]; simp)
      have hy := hall y (by rw [hg2]; simp)
      simp [hx, hy] at hlen
  constructor
  · rw [List.any_eq_false]
    intro kv hkv
    unfold reverseConn at hkv
    obtain ⟨g, hg, rfl⟩ := List.mem_map.1 hkv
    obtain ⟨k, hk⟩ := hone g hg
    simp [hk]
  · have e : ((reverseConn R).map fun kv => (kv.1, kv.2.headD [])) =
        ((groupItems (fun e : Str × Str => e.2) (edges R)).flatMap Prod.snd).map fun e => (e.2, e.1) := by
      unfold reverseConn
      rw [List.map_map]
      show List.map _ (groupItems (fun e : Str × Str => e.2) (edges R)) = _
      have : ∀ l : List (Str × List (Str × Str)), (∀ g ∈ l, ∃ k, g.2 = [(k, g.1)]) →
          l.map ((fun kv : Str × List Str => (kv.1, kv.2.headD [])) ∘ fun g => (g.1, g.2.map Prod.fst)) =
          (l.flatMap Prod.snd).map fun e => (e.2, e.1) := by
        intro l
        induction l with
        | nil => intro _; rfl
        | cons g l ih =>
          intro h
          obtain ⟨k, hk⟩ := h g (by simp)
          rw [List.map_cons, ih (fun g hg => h g (List.mem_cons_of_mem _ hg)), List.flatMap_cons, List.map_append]
          simp [hk]
      exact this _ hone
    rw [e]
    exact hperm.map _

/-- The comparison used when placing. -/
theorem placed_read {t fill : Tree Str} {p : List Str} {eqv : Tree Str → Tree Str → Bool}
    (heqv : ∀ v x, eqv v (.leaf x) = true → v = .leaf x) {x : Str} (hfill : fill = .leaf x)
    (h : ∃ v, Tree.get t p = .ok v ∧ (v = fill ∨ eqv v fill = true ∨ fill = .none)) :
    Tree.get t p = .ok (.leaf x) := by
  obtain ⟨v, hv, h⟩ := h
  subst hfill
  rcases h with rfl | h | h
  · exact hv
  · rw [heqv v x h] at hv; exact hv
  · simp at h

variable {β : Type}

/-- Reading the placed trees. -/
theorem place_read {cfg : Cfg} (hcfg : GoodCfg cfg) (hout : cfg.outKey ≠ []) {tree : Tree β}
    {fresh : Str → Nat → Nat → Str} (hsep : cfg.sep.isDigit = false)
    (hfresh : ∀ o c i, fresh o c i ≠ [] ∧ cfg.sep ∉ fresh o c i)
    (hfcan : ∀ o c i, isDigit (fresh o c i) = true → ofNat (toInt (fresh o c i)) = fresh o c i)
    {conn : List (Str × List Str)} (hwf : WellFormed cfg tree conn)
    (hcan : ∀ e ∈ edges conn, Canonical (splitOn cfg.sep e.2))
    (hclean : ∀ e ∈ edges conn, cfg.outKey <+: (splitOn cfg.sep e.2).headD [] →
      (splitOn cfg.sep e.2).headD [] = cfg.outKey)
    {R : List (Str × List Str)} (hR : concretizeConnections cfg fresh tree conn = .ok R) {t o : Tree Str}
    (h : place cfg fresh tree conn = .ok (t, o)) :
    ∀ k v, (k, v) ∈ edges R →
      ((splitOn cfg.sep v).head? ≠ some cfg.outKey → Tree.get t (splitOn cfg.sep v) = .ok (.leaf k)) ∧
      (∀ rest, rest ≠ [] → splitOn cfg.sep v = cfg.outKey :: rest → Tree.get o rest = .ok (.leaf k)) ∧
      (v = cfg.outKey → o = .leaf k) := by
  obtain ⟨R', T, h1, -, h3, h4, h5, h6, h7, h8⟩ := concretize_main hcfg hsep hfresh
    (fun k => isDigit k = true → ofNat (toInt k) = k) (fun n _ => by rw [Concretize.toInt_ofNat]) hfcan hwf
  rw [hR] at h1
  simp only [Except.ok.injEq] at h1
  subst h1
  have hsplit : ∀ tr ∈ T, splitOn cfg.sep (joinWith cfg.sep (tr.mod ++ tr.inner)) = tr.mod ++ tr.inner := by
    intro tr htr
    obtain ⟨c1, c2, -⟩ := h6 tr htr
    obtain ⟨r, tg, -⟩ := h5 tr htr
    exact splitOn_joinWith _ _ (by simp [target_ne tg]) (fun w hw => ((c1.append c2) w hw).2)
  -- facts about every concrete target
  have hE : ∀ e ∈ edges R, Comps cfg.sep (splitOn cfg.sep e.2) ∧ Canonical (splitOn cfg.sep e.2) ∧
      (cfg.outKey <+: (splitOn cfg.sep e.2).headD [] → (splitOn cfg.sep e.2).headD [] = cfg.outKey) := by
    intro e he
    obtain ⟨tr, htr, rfl⟩ := List.mem_map.1 (h4.symm.subset he)
    simp only [hsplit tr htr]
    obtain ⟨c1, c2, c3⟩ := h6 tr htr
    obtain ⟨r, tg, -⟩ := h5 tr htr
    refine ⟨c1.append c2, ?_, ?_⟩
    · exact c3 (fun e he k hk => hcan e he k hk)
    · have hreq := h3.subset (List.mem_map_of_mem (f := fun t : Triple => (t.key, t.req)) htr)
      have := hclean _ hreq
      simp only [tg.1] at this
      have hne := target_ne tg
      have e1 : ∀ x : List Str, (tr.mod ++ x).headD [] = tr.mod.headD [] := by
        intro x; cases hm : tr.mod with
        | nil => exact absurd hm hne
        | cons a l => rfl
      rw [e1] at this
      rw [e1]; exact this
  have hfreeE : PrefixFree ((edges R).map fun e => splitOn cfg.sep e.2) := by
    have e : ((T.map fun t : Triple => (t.key, joinWith cfg.sep (t.mod ++ t.inner))).map fun e => splitOn cfg.sep e.2)
        = T.map fun t => t.mod ++ t.inner := by
      rw [List.map_map]
      exact List.map_congr_left fun tr htr => hsplit tr htr
    have hp := h4.map (fun e : Str × Str => splitOn cfg.sep e.2)
    rw [e] at hp
    exact hp.pairwise h7 (fun {a b} h => ⟨h.2, h.1⟩)
  have hnodup : ((edges R).map Prod.snd).Nodup := by
    unfold PrefixFree at hfreeE
    rw [List.pairwise_map] at hfreeE
    unfold List.Nodup
    rw [List.pairwise_map]
    exact hfreeE.imp fun h e => h.1 (by rw [e])
  obtain ⟨hany, hrev⟩ := reverse_spec R hnodup
  -- unfold `place`
  unfold place at h
  simp only [hR, hany, Bool.false_eq_true, if_false] at h
  generalize hrev1 : ((reverseConn R).map fun kv => (kv.1, kv.2.headD [])) = rev1 at h hrev
  have hmem : ∀ v k, (v, k) ∈ rev1 ↔ (k, v) ∈ edges R := by
    intro v k
    rw [hrev.mem_iff, List.mem_map]
    constructor
    · rintro ⟨e, he, e2⟩; cases e2; exact he
    · intro he; exact ⟨_, he, rfl⟩
  have hfreeRev : rev1.Pairwise fun a b => Diverge (splitOn cfg.sep a.1) (splitOn cfg.sep b.1) := by
    have hp : PrefixFree (rev1.map fun e => splitOn cfg.sep e.1) := by
      have := hrev.map (fun e : Str × Str => splitOn cfg.sep e.1)
      rw [List.map_map] at this
      exact this.symm.pairwise hfreeE (fun {a b} h => ⟨h.2, h.1⟩)
    unfold PrefixFree at hp
    rw [List.pairwise_map] at hp
    refine List.Pairwise.imp_of_mem (fun {a b} ha hb hab => ?_) hp
    exact diverge_of_free (hE _ ((hmem a.1 a.2).1 ha)).2.1 (hE _ ((hmem b.1 b.2).1 hb)).2.1 hab.1 hab.2
  have hprop : ∀ v k, (v, k) ∈ rev1 → splitOn cfg.sep v ≠ [] ∧ Proper (splitOn cfg.sep v) := by
    intro v k hm
    exact ⟨splitOn_ne_nil _ _, fun w hw => ((hE _ ((hmem v k).1 hm)).1 w hw).1⟩
  have hstrip : ∀ v k, (v, k) ∈ rev1 → strip cfg.sep v = v := by
    intro v k hm
    have hc := (hE _ ((hmem v k).1 hm)).1
    simp only at hc
    rw [← joinWith_splitOn cfg.sep v, strip_join hc]
  -- the text test for the output
  have hstart : ∀ v k, (v, k) ∈ rev1 → (cfg.outKey.isPrefixOf v = true ↔ (splitOn cfg.sep v).head? = some cfg.outKey) := by
    intro v k hm
    have hce := hE _ ((hmem v k).1 hm)
    simp only at hce
    rw [List.isPrefixOf_iff_prefix]
    have hj := joinWith_splitOn cfg.sep v
    match hs : splitOn cfg.sep v with
    | [] => exact absurd hs (splitOn_ne_nil _ _)
    | [w] =>
      rw [hs] at hj hce
      have hj' : w = v := hj
      simp only [List.headD_cons, List.head?_cons, Option.some.injEq] at hce ⊢
      rw [← hj']
      exact ⟨hce.2.2, fun e => e ▸ List.prefix_rfl⟩
    | w :: w' :: ws =>
      rw [hs] at hj hce
      simp only [List.headD_cons, List.head?_cons, Option.some.injEq] at hce ⊢
      have hj' : v = w ++ cfg.sep :: joinWith cfg.sep (w' :: ws) := hj.symm
      constructor
      · intro hpre
        refine hce.2.2 ?_
        rw [hj'] at hpre
        rcases Nat.lt_or_ge w.length cfg.outKey.length with hl | hl
        case inr => exact List.prefix_of_prefix_length_le hpre (List.prefix_append _ _) hl
        case inl =>
          exfalso
          have hw : w <+: cfg.outKey := List.prefix_of_prefix_length_le (List.prefix_append _ _) hpre (Nat.le_of_lt hl)
          obtain ⟨u, hu⟩ := hw
          rw [← hu] at hpre
          rw [List.prefix_append_right_inj] at hpre
          cases u with
          | nil =>
            rw [List.append_nil] at hu
            rw [hu] at hl
            exact absurd hl (Nat.lt_irrefl _)
          | cons c u =>
            obtain ⟨x, hx⟩ := hpre
            simp only [List.cons_append, List.cons.injEq] at hx
            exact hcfg.outSep (by rw [← hu, hx.1]; simp)
      · rintro rfl
        rw [hj']; exact List.prefix_append _ _
  generalize heqv : (fun a b : Tree Str => match a, b with
        | .leaf x, .leaf y => x == y
        | _, _ => false) = eqv at h
  have heq : ∀ v x, eqv v (.leaf x) = true → v = .leaf x := by
    intro v x hv
    rw [← heqv] at hv
    cases v <;> simp_all
  generalize houts : (rev1.filter fun kv => cfg.outKey.isPrefixOf kv.1) = outs at h
  have hmo : ∀ v k, (v, k) ∈ outs ↔ (v, k) ∈ rev1 ∧ (splitOn cfg.sep v).head? = some cfg.outKey := by
    intro v k
    rw [← houts, List.mem_filter]
    constructor
    · rintro ⟨a, b⟩; exact ⟨a, (hstart v k a).1 b⟩
    · rintro ⟨a, b⟩; exact ⟨a, (hstart v k a).2 b⟩
  intro k v hkv
  have hvk : (v, k) ∈ rev1 := (hmem v k).2 hkv
  split at h
  · simp at h
  · rename_i o' ho
    split at h
    · simp at h
    · rename_i t' ht
      simp only [Except.ok.injEq, Prod.mk.injEq] at h
      obtain ⟨rfl, rfl⟩ := h
      refine ⟨?_, ?_, ?_⟩
      · intro hhead
        have hr := Props.C11_extend_reads_fill eqv .none t' _ ht ?_ ?_ (splitOn cfg.sep (strip cfg.sep v), .leaf k) ?_
        · rw [hstrip v k hvk] at hr
          exact placed_read heq rfl hr
        · intro pf hpf
          obtain ⟨⟨v', k'⟩, hm', rfl⟩ := List.mem_map.1 hpf
          have hm := (List.mem_filter.1 hm').1
          simp only [hstrip v' k' hm]
          exact hprop v' k' hm
        · rw [List.pairwise_map]
          refine List.Pairwise.imp_of_mem (fun {a b} ha hb hab => ?_) (List.Pairwise.filter _ hfreeRev)
          obtain ⟨v1, k1⟩ := a
          obtain ⟨v2, k2⟩ := b
          simp only [hstrip v1 k1 (List.mem_filter.1 ha).1, hstrip v2 k2 (List.mem_filter.1 hb).1]
          exact hab
        · refine List.mem_map.2 ⟨(v, k), List.mem_filter.2 ⟨hvk, ?_⟩, rfl⟩
          simp only [Bool.not_eq_true', ← Bool.not_eq_true]
          intro hp
          apply hhead
          rw [← hstart v k hvk, List.isPrefixOf_iff_prefix]
          rw [List.isPrefixOf_iff_prefix] at hp
          exact (List.prefix_append _ _).trans hp
      · intro rest hrest hs
        have hvo : (v, k) ∈ outs := (hmo v k).2 ⟨hvk, by rw [hs]; rfl⟩
        have hnot : outs.map Prod.fst ≠ [cfg.outKey] := by
          intro e
          have : v ∈ outs.map Prod.fst := List.mem_map_of_mem (f := Prod.fst) hvo
          rw [e, List.mem_singleton] at this
          rw [this, splitOn_noSep _ _ hcfg.outSep] at hs
          cases hs
          exact hrest rfl
        rw [if_neg hnot] at ho
        -- every output path has something after the reserved word
        have hrestOf : ∀ v' k', (v', k') ∈ outs → ∃ rest', rest' ≠ [] ∧ splitOn cfg.sep v' = cfg.outKey :: rest' ∧
            splitOn cfg.sep (strip cfg.sep (removePrefix (cfg.outKey ++ [cfg.sep]) v')) = rest' := by
          intro v' k' hm
          obtain ⟨hm1, hm2⟩ := (hmo v' k').1 hm
          obtain ⟨rest', hr'⟩ : ∃ rest', splitOn cfg.sep v' = cfg.outKey :: rest' := by
            cases hs' : splitOn cfg.sep v' with
            | nil => rw [hs'] at hm2; simp at hm2
            | cons a l => rw [hs'] at hm2; simp at hm2; exact ⟨l, by rw [hm2]⟩
          have hne' : rest' ≠ [] := by
            rintro rfl
            have hvv : v' = v := by
              by_contra hvv
              haveI : Std.Symm (fun a b : Str × Str => Diverge (splitOn cfg.sep a.1) (splitOn cfg.sep b.1)) :=
                ⟨fun _ _ h => Tree.diverge_symm h⟩
              have hx := hfreeRev.forall hm1 hvk (fun e => hvv (by cases e; rfl))
              simp only [hr', hs] at hx
              obtain ⟨c, a1, b1, a2, b2, e1, e2, hk⟩ := hx
              cases c with
              | nil =>
                simp only [List.nil_append, List.cons.injEq] at e1 e2
                exact hk (.inl (by rw [← e1.1, ← e2.1]))
              | cons z c => simp at e1
            rw [hvv, hs] at hr'
            cases hr'
            exact hrest rfl
          refine ⟨rest', hne', hr', ?_⟩
          have hc := (hE _ ((hmem v' k').1 hm1)).1
          simp only [hr'] at hc
          have hc' : Comps cfg.sep rest' := fun w hw => hc w (List.mem_cons_of_mem _ hw)
          have hv' : v' = cfg.outKey ++ [cfg.sep] ++ joinWith cfg.sep rest' := by
            rw [← joinWith_splitOn cfg.sep v', hr']
            cases rest' with
            | nil => exact absurd rfl hne'
            | cons a l => simp [joinWith]
          rw [hv']
          have : removePrefix (cfg.outKey ++ [cfg.sep]) (cfg.outKey ++ [cfg.sep] ++ joinWith cfg.sep rest') =
              joinWith cfg.sep rest' := by
            unfold removePrefix
            rw [if_pos (by rw [List.isPrefixOf_iff_prefix]; exact List.prefix_append _ _), List.drop_left]
          rw [this, strip_join hc', splitOn_joinWith _ _ hne' (fun w hw => (hc' w hw).2)]
        have hr := Props.C11_extend_reads_fill eqv .none o' _ ho ?_ ?_ (rest, .leaf k) ?_
        · exact placed_read heq rfl hr
        · intro pf hpf
          obtain ⟨⟨v', k'⟩, hm, rfl⟩ := List.mem_map.1 hpf
          obtain ⟨rest', h1', h2', h3'⟩ := hrestOf v' k' hm
          simp only [h3']
          refine ⟨h1', fun w hw => ?_⟩
          exact (hprop v' k' ((hmo v' k').1 hm).1).2 w (by rw [h2']; exact List.mem_cons_of_mem _ hw)
        · rw [List.pairwise_map]
          have hpo : outs.Pairwise fun a b => Diverge (splitOn cfg.sep a.1) (splitOn cfg.sep b.1) := by
            rw [← houts]; exact List.Pairwise.filter _ hfreeRev
          refine List.Pairwise.imp_of_mem (fun {a b} ha hb hab => ?_) hpo
          obtain ⟨v1, k1⟩ := a
          obtain ⟨v2, k2⟩ := b
          obtain ⟨r1, -, s1, e1⟩ := hrestOf v1 k1 ha
          obtain ⟨r2, -, s2, e2⟩ := hrestOf v2 k2 hb
          simp only [e1, e2]
          simp only [s1, s2] at hab
          obtain ⟨c, a1, b1, a2, b2, f1, f2, hk⟩ := hab
          cases c with
          | nil =>
            simp only [List.nil_append, List.cons.injEq] at f1 f2
            exact absurd (.inl (by rw [← f1.1, ← f2.1])) hk
          | cons z c =>
            simp only [List.cons_append, List.cons.injEq] at f1 f2
            exact ⟨c, a1, b1, a2, b2, f1.2, f2.2, hk⟩
        · obtain ⟨r1, -, s1, e1⟩ := hrestOf v k hvo
          refine List.mem_map.2 ⟨(v, k), hvo, ?_⟩
          rw [hs] at s1
          cases s1
          simp only [e1]
      · rintro rfl
        have hsv : splitOn cfg.sep cfg.outKey = [cfg.outKey] := splitOn_noSep _ _ hcfg.outSep
        have hvo : (cfg.outKey, k) ∈ outs := (hmo _ k).2 ⟨hvk, by rw [hsv]; rfl⟩
        have honly : outs = [(cfg.outKey, k)] := by
          have hpo : outs.Pairwise fun a b => Diverge (splitOn cfg.sep a.1) (splitOn cfg.sep b.1) := by
            rw [← houts]; exact List.Pairwise.filter _ hfreeRev
          have hall : ∀ a ∈ outs, ∀ b ∈ outs, a.1 = cfg.outKey → ¬ Diverge (splitOn cfg.sep a.1) (splitOn cfg.sep b.1) := by
            intro a ha b hb hav hd
            rw [hav, hsv] at hd
            have hbh := ((hmo b.1 b.2).1 hb).2
            obtain ⟨c, a1, b1, a2, b2, f1, f2, hk⟩ := hd
            cases c with
            | nil =>
              simp only [List.nil_append, List.cons.injEq] at f1 f2
              rw [f2] at hbh
              simp only [List.head?_cons, Option.some.injEq] at hbh
              exact hk (.inl (by rw [← f1.1, hbh]))
            | cons z c => simp at f1
          cases outs with
          | nil => simp at hvo
          | cons a l =>
            cases l with
            | nil => rw [List.mem_singleton] at hvo; rw [hvo]
            | cons b l =>
              exfalso
              have hpc := List.pairwise_cons.1 hpo
              rcases List.mem_cons.1 hvo with e | hin
              · exact hall a (by simp) b (by simp) (by rw [← e]) (hpc.1 b (by simp))
              · exact hall _ (List.mem_cons_of_mem _ hin) a (by simp) rfl (Tree.diverge_symm (hpc.1 _ hin))
        rw [honly] at ho
        simp only [List.map_cons, List.map_nil, List.headD_cons, if_true, Except.ok.injEq] at ho
        exact ho.symm


end Verif.Conn
