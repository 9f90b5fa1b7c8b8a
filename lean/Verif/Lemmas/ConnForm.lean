import Verif.Lemmas.ConnPlace
import Verif.Lemmas.ExtendTuple

namespace Verif.Conn
open TreeSpec PathSpec ConnSpec

variable {β : Type}

/-- Python's `==` on the fill values of `place`. -/
def strEqv : Tree Str → Tree Str → Bool := fun a b => match a, b with
  | .leaf x, .leaf y => x == y
  | _, _ => false

/-- The concrete edges as component lists: where the module inputs and the outputs are placed. -/
structure PlaceData (cfg : Cfg) (R : List (Str × List Str)) (P O : List (List Str × Str)) : Prop where
  memP : ∀ p k, (p, k) ∈ P ↔ ∃ v, (k, v) ∈ edges R ∧ splitOn cfg.sep v = p ∧ ∀ rest, rest ≠ [] → p ≠ cfg.outKey :: rest
  memO : ∀ p k, (p, k) ∈ O ↔ ∃ v, (k, v) ∈ edges R ∧ splitOn cfg.sep v = cfg.outKey :: p
  divP : P.Pairwise fun a b => Diverge a.1 b.1
  divO : O.Pairwise fun a b => Diverge a.1 b.1
  properP : ∀ e ∈ P, e.1 ≠ [] ∧ Proper e.1 ∧ Canonical e.1
  properO : ∀ e ∈ O, Proper e.1 ∧ Canonical e.1

theorem diverge_tail {k : Str} {p q : List Str} (h : Diverge (k :: p) (k :: q)) : Diverge p q := by
  rcases Tree.diverge_cons h with h | h
  · exact absurd (.inl rfl) h
  · exact h.2

/-- The placed output. -/
def outTree (O : List (List Str × Str)) : Except PyErr (Tree Str) := match O with
  | [([], k)] => .ok (.leaf k)
  | _ => Tree.extend strEqv .none (O.map fun e => (e.1, .leaf e.2))

theorem place_form {cfg : Cfg} (hcfg : GoodCfg cfg) (hout : cfg.outKey ≠ []) {tree : Tree β}
    {fresh : Str → Nat → Nat → Str} (hsep : cfg.sep.isDigit = false)
    (hfresh : ∀ o c i, fresh o c i ≠ [] ∧ cfg.sep ∉ fresh o c i)
    (hfcan : ∀ o c i, isDigit (fresh o c i) = true → ofNat (toInt (fresh o c i)) = fresh o c i)
    {conn : List (Str × List Str)} (hwf : WellFormed cfg tree conn)
    (hcan : ∀ e ∈ edges conn, Canonical (splitOn cfg.sep e.2))
    (hclean : ∀ e ∈ edges conn, cfg.outKey <+: (splitOn cfg.sep e.2).headD [] →
      (splitOn cfg.sep e.2).headD [] = cfg.outKey)
    {R : List (Str × List Str)} (hR : concretizeConnections cfg fresh tree conn = .ok R) :
    ∃ P O : List (List Str × Str), PlaceData cfg R P O ∧
      place cfg fresh tree conn =
        match outTree O with
        | .error e => .error e
        | .ok o => match Tree.extend strEqv .none (P.map fun e : List Str × Str => (e.1, .leaf e.2)) with
          | .error e => .error e
          | .ok t => .ok (t, o) := by
  obtain ⟨R', T, h1, -, h3, h4, h5, h6, h7, h8⟩ := concretize_main hcfg hsep hfresh
    (fun k => isDigit k = true → ofNat (toInt k) = k) (fun n _ => by rw [Concretize.toInt_ofNat]) hfcan hwf
  rw [hR] at h1
  simp only [Except.ok.injEq] at h1
  subst h1
  have hsplit : ∀ tr ∈ T, splitOn cfg.sep (joinWith cfg.sep (tr.mod ++ tr.inner)) = tr.mod ++ tr.inner := by
    intro tr htr
    obtain ⟨c1, c2, -⟩ := h6 tr htr
    obtain ⟨r, tg, -⟩ := h5 tr htr
    exact splitOn_joinWith _ _ (by simp [target_ne tg]) (fun w hw => ((c1.append c2) w hw).2)
  -- facts about every concrete target
  have hE : ∀ e ∈ edges R, Comps cfg.sep (splitOn cfg.sep e.2) ∧ Canonical (splitOn cfg.sep e.2) ∧
      (cfg.outKey <+: (splitOn cfg.sep e.2).headD [] → (splitOn cfg.sep e.2).headD [] = cfg.outKey) := by
    intro e he
    obtain ⟨tr, htr, rfl⟩ := List.mem_map.1 (h4.symm.subset he)
    simp only [hsplit tr htr]
    obtain ⟨c1, c2, c3⟩ := h6 tr htr
    obtain ⟨r, tg, -⟩ := h5 tr htr
    refine ⟨c1.append c2, ?_, ?_⟩
    · exact c3 (fun e he k hk => hcan e he k hk)
    · have hreq := h3.subset (List.mem_map_of_mem (f := fun t : Triple => (t.key, t.req)) htr)
      have := hclean _ hreq
      simp only [tg.1] at this
      have hne := target_ne tg
      have e1 : ∀ x : List Str, (tr.mod ++ x).headD [] = tr.mod.headD [] := by
        intro x; cases hm : tr.mod with
        | nil => exact absurd hm hne
        | cons a l => rfl
      rw [e1] at this
      rw [e1]; exact this
  have hfreeE : PrefixFree ((edges R).map fun e => splitOn cfg.sep e.2) := by
    have e : ((T.map fun t : Triple => (t.key, joinWith cfg.sep (t.mod ++ t.inner))).map fun e => splitOn cfg.sep e.2)
        = T.map fun t => t.mod ++ t.inner := by
      rw [List.map_map]
      exact List.map_congr_left fun tr htr => hsplit tr htr
    have hp := h4.map (fun e : Str × Str => splitOn cfg.sep e.2)
    rw [e] at hp
    exact hp.pairwise h7 (fun {a b} h => ⟨h.2, h.1⟩)
  have hnodup : ((edges R).map Prod.snd).Nodup := by
    unfold PrefixFree at hfreeE
    rw [List.pairwise_map] at hfreeE
    unfold List.Nodup
    rw [List.pairwise_map]
    exact hfreeE.imp fun h e => h.1 (by rw [e])
  obtain ⟨hany, hrev⟩ := reverse_spec R hnodup
  -- unfold `place`
  unfold place
  simp only [hR, hany, Bool.false_eq_true, if_false]
  generalize hrev1 : ((reverseConn R).map fun kv => (kv.1, kv.2.headD [])) = rev1 at hrev ⊢
  have hmem : ∀ v k, (v, k) ∈ rev1 ↔ (k, v) ∈ edges R := by
    intro v k
    rw [hrev.mem_iff, List.mem_map]
    constructor
    · rintro ⟨e, he, e2⟩; cases e2; exact he
    · intro he; exact ⟨_, he, rfl⟩
  have hfreeRev : rev1.Pairwise fun a b => Diverge (splitOn cfg.sep a.1) (splitOn cfg.sep b.1) := by
    have hp : PrefixFree (rev1.map fun e => splitOn cfg.sep e.1) := by
      have := hrev.map (fun e : Str × Str => splitOn cfg.sep e.1)
      rw [List.map_map] at this
      exact this.symm.pairwise hfreeE (fun {a b} h => ⟨h.2, h.1⟩)
    unfold PrefixFree at hp
    rw [List.pairwise_map] at hp
    refine List.Pairwise.imp_of_mem (fun {a b} ha hb hab => ?_) hp
    exact diverge_of_free (hE _ ((hmem a.1 a.2).1 ha)).2.1 (hE _ ((hmem b.1 b.2).1 hb)).2.1 hab.1 hab.2
  have hprop : ∀ v k, (v, k) ∈ rev1 → splitOn cfg.sep v ≠ [] ∧ Proper (splitOn cfg.sep v) := by
    intro v k hm
    exact ⟨splitOn_ne_nil _ _, fun w hw => ((hE _ ((hmem v k).1 hm)).1 w hw).1⟩
  have hstrip : ∀ v k, (v, k) ∈ rev1 → strip cfg.sep v = v := by
    intro v k hm
    have hc := (hE _ ((hmem v k).1 hm)).1
    simp only at hc
    rw [← joinWith_splitOn cfg.sep v, strip_join hc]
  -- the text test for the output
  have hstart : ∀ v k, (v, k) ∈ rev1 → (cfg.outKey.isPrefixOf v = true ↔ (splitOn cfg.sep v).head? = some cfg.outKey) := by
    intro v k hm
    have hce := hE _ ((hmem v k).1 hm)
    simp only at hce
    rw [List.isPrefixOf_iff_prefix]
    have hj := joinWith_splitOn cfg.sep v
    match hs : splitOn cfg.sep v with
    | [] => exact absurd hs (splitOn_ne_nil _ _)
    | [w] =>
      rw [hs] at hj hce
      have hj' : w = v := hj
      simp only [List.headD_cons, List.head?_cons, Option.some.injEq] at hce ⊢
      rw [← hj']
      exact ⟨hce.2.2, fun e => e ▸ List.prefix_rfl⟩
    | w :: w' :: ws =>
      rw [hs] at hj hce
      simp only [List.headD_cons, List.head?_cons, Option.some.injEq] at hce ⊢
      have hj' : v = w ++ cfg.sep :: joinWith cfg.sep (w' :: ws) := hj.symm
      constructor
      · intro hpre
        refine hce.2.2 ?_
        rw [hj'] at hpre
        rcases Nat.lt_or_ge w.length cfg.outKey.length with hl | hl
        case inr => exact List.prefix_of_prefix_length_le hpre (List.prefix_append _ _) hl
        case inl =>
          exfalso
          have hw : w <+: cfg.outKey := List.prefix_of_prefix_length_le (List.prefix_append _ _) hpre (Nat.le_of_lt hl)
          obtain ⟨u, hu⟩ := hw
          rw [← hu] at hpre
          rw [List.prefix_append_right_inj] at hpre
          cases u with
          | nil =>
            rw [List.append_nil] at hu
            rw [hu] at hl
            exact absurd hl (Nat.lt_irrefl _)
          | cons c u =>
            obtain ⟨x, hx⟩ := hpre
            simp only [List.cons_append, List.cons.injEq] at hx
            exact hcfg.outSep (by rw [← hu, hx.1]; simp)
      · rintro rfl
        rw [hj']; exact List.prefix_append _ _
  have hsplitJoin : ∀ v k rest, (v, k) ∈ rev1 → splitOn cfg.sep v = cfg.outKey :: rest → rest ≠ [] →
      v = cfg.outKey ++ [cfg.sep] ++ joinWith cfg.sep rest ∧ Comps cfg.sep rest := by
    intro v k rest hm hs hr
    have hc := (hE _ ((hmem v k).1 hm)).1
    simp only [hs] at hc
    refine ⟨?_, fun w hw => hc w (List.mem_cons_of_mem _ hw)⟩
    rw [← joinWith_splitOn cfg.sep v, hs]
    cases rest with
    | nil => exact absurd rfl hr
    | cons a l => simp [joinWith]
  -- the filter of the module inputs
  have hfilt : ∀ v k, (v, k) ∈ rev1 → ((cfg.outKey ++ [cfg.sep]).isPrefixOf v = true ↔
      ∃ rest, rest ≠ [] ∧ splitOn cfg.sep v = cfg.outKey :: rest) := by
    intro v k hm
    constructor
    · intro hp
      rw [List.isPrefixOf_iff_prefix] at hp
      have h0 := (hstart v k hm).1 (by rw [List.isPrefixOf_iff_prefix]; exact (List.prefix_append _ _).trans hp)
      cases hs : splitOn cfg.sep v with
      | nil => exact absurd hs (splitOn_ne_nil _ _)
      | cons a l =>
        rw [hs] at h0
        simp only [List.head?_cons, Option.some.injEq] at h0
        subst h0
        refine ⟨l, ?_, rfl⟩
        rintro rfl
        have hj := joinWith_splitOn cfg.sep v
        rw [hs] at hj
        have hj' : cfg.outKey = v := hj
        rw [← hj'] at hp
        obtain ⟨x, hx⟩ := hp
        have := congrArg List.length hx
        simp at this
    · rintro ⟨rest, hr, hs⟩
      rw [(hsplitJoin v k rest hm hs hr).1, List.isPrefixOf_iff_prefix]
      exact List.prefix_append _ _
  generalize houts : (rev1.filter fun kv => cfg.outKey.isPrefixOf kv.1) = outs
  have hmo : ∀ v k, (v, k) ∈ outs ↔ (v, k) ∈ rev1 ∧ (splitOn cfg.sep v).head? = some cfg.outKey := by
    intro v k
    rw [← houts, List.mem_filter]
    constructor
    · rintro ⟨a, b⟩; exact ⟨a, (hstart v k a).1 b⟩
    · rintro ⟨a, b⟩; exact ⟨a, (hstart v k a).2 b⟩
  have hmo' : ∀ v k, (v, k) ∈ outs → splitOn cfg.sep v = cfg.outKey :: (splitOn cfg.sep v).tail := by
    intro v k hm
    have := ((hmo v k).1 hm).2
    cases hs : splitOn cfg.sep v with
    | nil => rw [hs] at this; simp at this
    | cons a l => rw [hs] at this; simp at this; rw [this]; rfl
  have hsv : splitOn cfg.sep cfg.outKey = [cfg.outKey] := splitOn_noSep _ _ hcfg.outSep
  have hpo : outs.Pairwise fun a b => Diverge (splitOn cfg.sep a.1) (splitOn cfg.sep b.1) := by
    rw [← houts]; exact List.Pairwise.filter _ hfreeRev
  have hdivO : (outs.map fun kv => ((splitOn cfg.sep kv.1).tail, kv.2)).Pairwise fun a b => Diverge a.1 b.1 := by
    rw [List.pairwise_map]
    refine List.Pairwise.imp_of_mem (fun {a b} ha hb hab => ?_) hpo
    rw [hmo' a.1 a.2 ha, hmo' b.1 b.2 hb] at hab
    exact diverge_tail hab
  -- the two lists
  refine ⟨(rev1.filter fun kv => !(cfg.outKey ++ [cfg.sep]).isPrefixOf kv.1).map fun kv => (splitOn cfg.sep kv.1, kv.2),
    outs.map fun kv => ((splitOn cfg.sep kv.1).tail, kv.2), ⟨?_, ?_, ?_, hdivO, ?_, ?_⟩, ?_⟩
  · intro p k
    simp only [List.mem_map, List.mem_filter, Prod.mk.injEq, Prod.exists]
    constructor
    · rintro ⟨v, k', ⟨hm, hf⟩, rfl, rfl⟩
      refine ⟨v, (hmem v k').1 hm, rfl, fun rest hr e => ?_⟩
      rw [(hfilt v k' hm).2 ⟨rest, hr, e⟩] at hf
      simp at hf
    · rintro ⟨v, he, rfl, hne⟩
      refine ⟨v, k, ⟨(hmem v k).2 he, ?_⟩, rfl, rfl⟩
      rw [Bool.not_eq_true', ← Bool.not_eq_true, hfilt v k ((hmem v k).2 he)]
      rintro ⟨rest, hr, e⟩
      exact hne rest hr e
  · intro p k
    simp only [List.mem_map, Prod.mk.injEq, Prod.exists]
    constructor
    · rintro ⟨v, k', hm, rfl, rfl⟩
      exact ⟨v, (hmem v k').1 ((hmo v k').1 hm).1, hmo' v k' hm⟩
    · rintro ⟨v, he, hs⟩
      exact ⟨v, k, (hmo v k).2 ⟨(hmem v k).2 he, by rw [hs]; rfl⟩, by rw [hs]; rfl, rfl⟩
  · rw [List.pairwise_map]
    exact List.Pairwise.filter _ hfreeRev
  · intro e he
    simp only [List.mem_map, List.mem_filter, Prod.exists] at he
    obtain ⟨v, k, ⟨hm, -⟩, rfl⟩ := he
    exact ⟨(hprop v k hm).1, (hprop v k hm).2, (hE _ ((hmem v k).1 hm)).2.1⟩
  · intro e he
    simp only [List.mem_map, Prod.exists] at he
    obtain ⟨v, k, hm, rfl⟩ := he
    have hm1 := ((hmo v k).1 hm).1
    exact ⟨fun w hw => (hprop v k hm1).2 w (List.mem_of_mem_tail hw),
      fun w hw => (hE _ ((hmem v k).1 hm1)).2.1 w (List.mem_of_mem_tail hw)⟩
  · have hP : ((rev1.filter fun kv => !(cfg.outKey ++ [cfg.sep]).isPrefixOf kv.1).map fun kv =>
        (splitOn cfg.sep (strip cfg.sep kv.1), (.leaf kv.2 : Tree Str))) =
        ((rev1.filter fun kv => !(cfg.outKey ++ [cfg.sep]).isPrefixOf kv.1).map fun kv => (splitOn cfg.sep kv.1, kv.2)).map
          fun e => (e.1, .leaf e.2) := by
      rw [List.map_map]
      refine List.map_congr_left fun kv hkv => ?_
      obtain ⟨v, k⟩ := kv
      simp only [Function.comp, hstrip v k (List.mem_filter.1 hkv).1]
    have hO : (if outs.map Prod.fst = [cfg.outKey] then (.ok (.leaf ((outs.map Prod.snd).headD [])) : Except PyErr (Tree Str))
        else Tree.extend strEqv .none (outs.map fun kv =>
          (splitOn cfg.sep (strip cfg.sep (removePrefix (cfg.outKey ++ [cfg.sep]) kv.1)), .leaf kv.2))) =
        outTree (outs.map fun kv => ((splitOn cfg.sep kv.1).tail, kv.2)) := by
      unfold outTree
      split
      · next e =>
        match outs, e with
        | [(v, k)], e =>
          simp only [List.map_cons, List.map_nil, List.cons.injEq, and_true] at e
          subst e
          simp [hsv]
      · next hno =>
        have hne : ∀ v k, (v, k) ∈ outs → (splitOn cfg.sep v).tail ≠ [] := by
          intro v k hm ht
          apply hno
          have hvv : v = cfg.outKey := by
            have := hmo' v k hm
            rw [ht] at this
            have hj := joinWith_splitOn cfg.sep v
            rw [this] at hj
            exact hj.symm
          -- nothing else can be there
          have hall : ∀ b ∈ outs, ¬ Diverge (splitOn cfg.sep v) (splitOn cfg.sep b.1) := by
            intro b hb hd
            rw [hvv, hsv, hmo' b.1 b.2 hb] at hd
            exact Tree.not_diverge_nil.1 (diverge_tail hd)
          match outs, hm, hpo, hall with
          | [a], hm, _, _ =>
            rw [List.mem_singleton] at hm
            rw [← hm, hvv]; rfl
          | a :: b :: l, hm, hpo, hall =>
            exfalso
            have hpc := List.pairwise_cons.1 hpo
            rcases List.mem_cons.1 hm with e | hin
            · subst e
              exact hall b (by simp) (hpc.1 b (by simp))
            · exact hall a (by simp) (Tree.diverge_symm (hpc.1 _ hin))
        have hm1 : (outs.map fun kv =>
            (splitOn cfg.sep (strip cfg.sep (removePrefix (cfg.outKey ++ [cfg.sep]) kv.1)), (.leaf kv.2 : Tree Str))) =
            (outs.map fun kv => ((splitOn cfg.sep kv.1).tail, kv.2)).map fun e => (e.1, .leaf e.2) := by
          rw [List.map_map]
          refine List.map_congr_left fun kv hkv => ?_
          obtain ⟨v, k⟩ := kv
          obtain ⟨hm1, hm2⟩ := (hmo v k).1 hkv
          have hs := hmo' v k hkv
          have hr := hne v k hkv
          generalize (splitOn cfg.sep v).tail = rest at hs hr
          obtain ⟨hv, hc⟩ := hsplitJoin v k rest hm1 hs hr
          have e2 : removePrefix (cfg.outKey ++ [cfg.sep]) v = joinWith cfg.sep rest := by
            rw [hv]
            unfold removePrefix
            rw [if_pos (by rw [List.isPrefixOf_iff_prefix]; exact List.prefix_append _ _), List.drop_left]
          simp only [Function.comp, e2, strip_join hc, splitOn_joinWith _ _ hr (fun w hw => (hc w hw).2), hs, List.tail_cons]
        rw [hm1]
        match outs, hne with
        | [], _ => rfl
        | [(v, k)], hne =>
          have := hne v k (by simp)
          simp only [List.map_cons, List.map_nil]
          split
          · next e =>
            simp only [List.cons.injEq, Prod.mk.injEq, and_true] at e
            exact absurd e.1 this
          · rfl
        | (_, _) :: (_, _) :: _, _ =>
          simp only [List.map_cons]
          split
          · next e => simp at e
          · rfl
    rw [← hP, ← hO]
    rfl

end Verif.Conn
