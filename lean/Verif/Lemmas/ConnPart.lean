import Verif.Lemmas.ConnOuter

namespace Verif.Conn
open TreeSpec ConnSpec

variable {β : Type}

theorem reserved_split {cfg : Cfg} {k s : Str} (hk : cfg.sep ∉ k) (h : isKey cfg k s = true) :
    ∃ r, splitOn cfg.sep s = [k] ++ r := by
  rw [isKey_iff hk] at h
  cases hs : splitOn cfg.sep s with
  | nil => rw [hs] at h; simp at h
  | cons a l => rw [hs] at h; simp at h; exact ⟨l, by rw [h]; rfl⟩

theorem remainder_split {cfg : Cfg} {tree : Tree β} {s rem : Str} (hp : Proper (splitOn cfg.sep s))
    (h : remainder cfg tree s = .ok rem) :
    ∃ m r n, splitOn cfg.sep s = m ++ r ∧ rem = joinWith cfg.sep r ∧ Tree.get tree m = .ok n ∧
      (r ≠ [] → (∃ b, n = .leaf b) ∨ n = .none) := by
  unfold remainder at h
  split at h
  · rename_i n r hg
    simp only [Except.ok.injEq] at h
    obtain ⟨m, e1, e2, e3⟩ := Tree.getPath_split (fun _ => false) tree _ hp n r hg
    refine ⟨m, r, n, e1, h.symm, ?_, fun hr => ?_⟩
    · unfold Tree.get; rw [e2]
    · rcases e3 hr with h | h | h
      · simp at h
      · exact .inl h
      · exact .inr h
  · simp at h

theorem removeSuffix_join' {sep : Char} {m r : List Str} :
    removeSuffix (joinWith sep r) (joinWith sep (m ++ r)) =
      if m = [] then [] else if r = [] then joinWith sep m else joinWith sep m ++ [sep] := by
  by_cases hm : m = []
  · subst hm
    simp [removeSuffix]
  · rw [if_neg hm, removeSuffix_join hm]

theorem partKey_split {cfg : Cfg} (hcfg : GoodCfg cfg) {tree : Tree β} {s x : Str}
    (hp : Proper (splitOn cfg.sep s)) (h : partKey cfg tree s = .ok x) :
    ∃ m r, splitOn cfg.sep s = m ++ r ∧ unpack cfg.sep x = .ok (joinWith cfg.sep m, joinWith cfg.sep r) ∧
      (m = [cfg.inKey] ∨ m.head? ≠ some cfg.outKey ∧ ∃ n, Tree.get tree m = .ok n ∧
        (r ≠ [] → (∃ b, n = .leaf b) ∨ n = .none)) := by
  unfold partKey at h
  split at h
  · rename_i hk
    obtain ⟨r, hr⟩ := reserved_split hcfg.inSep hk
    rw [hr] at hp
    rw [reserved_eq hcfg.inSep hr hp, Except.ok.injEq] at h
    have hc := comps_of_split hr hp
    exact ⟨[cfg.inKey], r, hr, by rw [← h, unpack_enc hc.left hc.right], .inl rfl⟩
  · split at h
    · simp at h
    · rename_i hno
      split at h
      · rename_i rem hrem
        obtain ⟨m, r, n, e1, rfl, e3, e4⟩ := remainder_split hp hrem
        rw [e1] at hp
        have hc := comps_of_split e1 hp
        refine ⟨m, r, e1, ?_, .inr ⟨?_, n, e3, e4⟩⟩
        · have hx : x = enc cfg.sep m r := by
            simp only [Except.ok.injEq] at h
            rw [← h]
            unfold enc
            congr 2
            conv => lhs; rw [str_of_split e1, removeSuffix_join']
            by_cases hm : m = []
            · subst hm; simp [rstrip, joinWith]
            · rw [if_neg hm]
              split
              · exact rstrip_of_last (getLast_join hc.left)
              · rw [rstrip_concat]; exact rstrip_of_last (getLast_join hc.left)
          rw [hx, unpack_enc hc.left hc.right]
        · intro hh
          apply hno
          rw [isKey_iff hcfg.outSep, e1]
          cases m with
          | nil => simp at hh
          | cons a m => exact hh
      · simp at h

theorem partVal_split {cfg : Cfg} (hcfg : GoodCfg cfg) {tree : Tree β} {s x : Str}
    (hp : Proper (splitOn cfg.sep s)) (h : partVal cfg tree s = .ok x) :
    ∃ m r, splitOn cfg.sep s = m ++ r ∧ unpack cfg.sep x = .ok (joinWith cfg.sep m, joinWith cfg.sep r) ∧
      (m = [cfg.outKey] ∨ m.head? ≠ some cfg.inKey ∧ ∃ n, Tree.get tree m = .ok n ∧
        (r ≠ [] → (∃ b, n = .leaf b) ∨ n = .none)) := by
  unfold partVal at h
  split at h
  · rename_i hk
    obtain ⟨r, hr⟩ := reserved_split hcfg.outSep hk
    rw [hr] at hp
    rw [reserved_eq hcfg.outSep hr hp, Except.ok.injEq] at h
    have hc := comps_of_split hr hp
    exact ⟨[cfg.outKey], r, hr, by rw [← h, unpack_enc hc.left hc.right], .inl rfl⟩
  · split at h
    · simp at h
    · rename_i hno
      split at h
      · rename_i rem hrem
        obtain ⟨m, r, n, e1, rfl, e3, e4⟩ := remainder_split hp hrem
        rw [e1] at hp
        have hc := comps_of_split e1 hp
        refine ⟨m, r, e1, ?_, .inr ⟨?_, n, e3, e4⟩⟩
        · have hx : x = enc cfg.sep m r := by
            simp only [Except.ok.injEq] at h
            rw [← h]
            unfold enc
            congr 2
            conv => lhs; rw [str_of_split e1, removeSuffix_join']
            by_cases hm : m = []
            · subst hm; simp [removeSuffix, joinWith]
            · rw [if_neg hm]
              split
              · exact removeSuffix_sep_self (getLast_join hc.left)
              · exact removeSuffix_sep_concat _
          rw [hx, unpack_enc hc.left hc.right]
        · intro hh
          apply hno
          rw [isKey_iff hcfg.inSep, e1]
          cases m with
          | nil => simp at hh
          | cons a m => exact hh
      · simp at h

theorem mapM_ok_mem {α γ ε : Type} {f : α → Except ε γ} {l : List α} {r : List γ} (h : l.mapM f = .ok r) :
    ∀ a ∈ l, ∃ b, f a = .ok b := by
  induction l generalizing r with
  | nil => simp
  | cons a l ih =>
    rw [List.mapM_cons] at h
    cases hf : f a with
    | error e => rw [hf] at h; simp [bind, Except.bind] at h
    | ok b =>
      rw [hf] at h
      cases hl : l.mapM f with
      | error e => rw [hl] at h; simp [bind, Except.bind] at h
      | ok bs =>
        intro x hx
        rcases List.mem_cons.1 hx with rfl | hx
        · exact ⟨b, hf⟩
        · exact ih hl x hx

theorem partLoop_ok {cfg : Cfg} {tree : Tree β} {conn acc p : List (Str × List Str)}
    (h : partLoop cfg tree acc conn = .ok p) :
    ∀ kv ∈ conn, (∃ x, partKey cfg tree kv.1 = .ok x) ∧ ∀ v ∈ kv.2, ∃ x, partVal cfg tree v = .ok x := by
  induction conn generalizing acc with
  | nil => simp
  | cons kv conn ih =>
    obtain ⟨key, vs⟩ := kv
    simp only [partLoop] at h
    split at h
    · simp at h
    · rename_i nk hnk
      split at h
      · simp at h
      · rename_i nvs hnvs
        intro x hx
        rcases List.mem_cons.1 hx with rfl | hx
        · exact ⟨⟨nk, hnk⟩, mapM_ok_mem hnvs⟩
        · exact ih h x hx

theorem hasDouble_mid (sep : Char) (a b : Str) : hasDouble sep (a ++ [sep, sep] ++ b) = true := by
  induction a with
  | nil => simp [hasDouble]
  | cons c a ih =>
    cases a with
    | nil => simp [hasDouble]
    | cons d a => simp only [List.cons_append, hasDouble, Bool.or_eq_true] at ih ⊢; exact .inr ih

theorem misuse {cfg : Cfg} (hcfg : GoodCfg cfg) {tree : Tree β} {conn : List (Str × List Str)}
    {key : Str} {vs : List Str} (hm : (key, vs) ∈ conn)
    (hbad : (splitOn cfg.sep key).head? = some cfg.outKey ∨
      (∃ v ∈ vs, (splitOn cfg.sep v).head? = some cfg.inKey) ∨
      (∃ v, (v = key ∨ v ∈ vs) ∧ ∃ a b, v = a ++ [cfg.sep, cfg.sep] ++ b) ∨
      (∃ v, (v = key ∨ v ∈ vs) ∧ (splitOn cfg.sep v).head? ≠ some cfg.inKey ∧
        (splitOn cfg.sep v).head? ≠ some cfg.outKey ∧
        ∀ x, Tree.getPath (fun _ => false) true tree (splitOn cfg.sep v) ≠ .ok x)) :
    ∃ e, partition cfg tree conn = .error e := by
  cases h : partition cfg tree conn with
  | error e => exact ⟨e, rfl⟩
  | ok p =>
    exfalso
    unfold partition at h
    split at h
    · simp at h
    · rename_i hd
      obtain ⟨⟨x, hx⟩, hv⟩ := partLoop_ok h _ hm
      simp only at hx hv
      rcases hbad with hb | ⟨v, hvm, hb⟩ | ⟨v, hvm, a, b, rfl⟩ | ⟨v, hvm, hb1, hb2, hb3⟩
      · unfold partKey at hx
        rw [if_neg, if_pos ((isKey_iff hcfg.outSep).2 hb)] at hx
        · simp at hx
        · rw [isKey_iff hcfg.inSep, hb]
          intro e; exact hcfg.diff (Option.some.inj e).symm
      · obtain ⟨y, hy⟩ := hv v hvm
        unfold partVal at hy
        rw [if_neg, if_pos ((isKey_iff hcfg.inSep).2 hb)] at hy
        · simp at hy
        · rw [isKey_iff hcfg.outSep, hb]
          intro e; exact hcfg.diff (Option.some.inj e)
      · apply hd
        rw [List.any_eq_true]
        refine ⟨_, hm, ?_⟩
        rw [Bool.or_eq_true]
        rcases hvm with rfl | hvm
        · exact .inl (hasDouble_mid _ _ _)
        · exact .inr (List.any_eq_true.2 ⟨_, hvm, hasDouble_mid _ _ _⟩)
      · have hrem : ∀ y, remainder cfg tree v ≠ .ok y := by
          intro y hy
          unfold remainder at hy
          split at hy
          · rename_i n r hg; exact hb3 _ hg
          · simp at hy
        rcases hvm with rfl | hvm
        · unfold partKey at hx
          rw [if_neg (by rw [isKey_iff hcfg.inSep]; exact hb1), if_neg (by rw [isKey_iff hcfg.outSep]; exact hb2)] at hx
          split at hx
          · rename_i r hr; exact hrem _ hr
          · simp at hx
        · obtain ⟨y, hy⟩ := hv v hvm
          unfold partVal at hy
          rw [if_neg (by rw [isKey_iff hcfg.outSep]; exact hb2), if_neg (by rw [isKey_iff hcfg.inSep]; exact hb1)] at hy
          split at hy
          · rename_i r hr; exact hrem _ hr
          · simp at hy

theorem prefix_before_sep {w a u : Str} {sep : Char} (hw : sep ∉ w) (h : w <+: a ++ sep :: u) : w <+: a := by
  rcases Nat.lt_or_ge a.length w.length with hl | hl
  · exfalso
    obtain ⟨t, ht⟩ : a <+: w := List.prefix_of_prefix_length_le (List.prefix_append _ _) h (Nat.le_of_lt hl)
    rw [← ht, List.prefix_append_right_inj] at h
    cases t with
    | nil => rw [List.append_nil] at ht; rw [ht] at hl; exact Nat.lt_irrefl _ hl
    | cons c t =>
      obtain ⟨x, hx⟩ := h
      simp only [List.cons_append, List.cons.injEq] at hx
      exact hw (by rw [← ht, hx.1]; simp)
  · exact List.prefix_of_prefix_length_le h (List.prefix_append _ _) hl

theorem outerKey_eq {cfg : Cfg} (hi : cfg.sep ∉ "input".toList) (ho : cfg.sep ∉ "output".toList)
    {m r : List Str} (hm : Comps cfg.sep m) (hr : Comps cfg.sep r) (hne : m ≠ [])
    (hclean : ("input".toList <+: joinWith cfg.sep m ∨ "output".toList <+: joinWith cfg.sep m) → m.length = 1) :
    outerKey cfg (enc cfg.sep m r) = .ok (joinWith cfg.sep m) := by
  have hpre : ∀ w : Str, cfg.sep ∉ w → w <+: enc cfg.sep m r → w <+: joinWith cfg.sep m := by
    intro w hw h
    unfold enc at h
    rw [List.append_assoc] at h
    exact prefix_before_sep hw h
  unfold outerKey
  split
  · rename_i h
    rw [Bool.or_eq_true, List.isPrefixOf_iff_prefix, List.isPrefixOf_iff_prefix] at h
    have hl := hclean (h.imp (hpre _ hi) (hpre _ ho))
    match m, hl with
    | [m0], _ => rw [splitOn_head_enc (hm m0 (by simp)).2]; rfl
  · rw [unpack_enc hm hr]

theorem outer_main {cfg : Cfg} (hcfg : GoodCfg cfg) (hi : cfg.sep ∉ "input".toList) (ho : cfg.sep ∉ "output".toList)
    {tree : Tree β} {conn : List (Str × List Str)} (hwf : WellFormed cfg tree conn)
    (hclean : ∀ kv ∈ conn, ∀ m r, Source cfg tree kv.1 m r →
      ("input".toList <+: joinWith cfg.sep m ∨ "output".toList <+: joinWith cfg.sep m) → m.length = 1) :
    ∃ g, outerConnections cfg tree conn = .ok g ∧ GraphSpec.IsDict g ∧ (∀ kv ∈ g, kv.2.Nodup) ∧
      ∀ a b, GraphSpec.Edge g a b ↔ ∃ e ∈ edges conn, ∃ m r m' r', Source cfg tree e.1 m r ∧ Target cfg tree e.2 m' r' ∧
        a = joinWith cfg.sep m ∧ b = joinWith cfg.sep m' := by
  obtain ⟨f, g, hf, hg⟩ := wf_choose hwf
  have hpart := partition_eq hcfg f g conn hf hg hwf.keys
  let fst : Str → Str := fun x => match unpack cfg.sep x with
    | .ok (a, _) => a
    | .error _ => []
  have hfst : ∀ m r, Comps cfg.sep m → Comps cfg.sep r → fst (enc cfg.sep m r) = joinWith cfg.sep m := by
    intro m r hm hr; show (match unpack cfg.sep (enc cfg.sep m r) with
      | .ok (a, _) => a
      | .error _ => []) = _
    rw [unpack_enc hm hr]
  have hfc : ∀ kv ∈ conn, Comps cfg.sep (f kv.1).1 ∧ Comps cfg.sep (f kv.1).2 := fun kv hkv => by
    have := comps_of_split (hf kv hkv).1 (hf kv hkv).2.1
    exact ⟨this.left, this.right⟩
  have hgc : ∀ kv ∈ conn, ∀ v ∈ kv.2, Comps cfg.sep (g v).1 ∧ Comps cfg.sep (g v).2 := fun kv hkv v hv => by
    have := comps_of_split (hg kv hkv v hv).1 (hg kv hkv v hv).2.1
    exact ⟨this.left, this.right⟩
  obtain ⟨G, h1, h2, h3, h4⟩ := outerLoop_eq cfg fst fst (conn.map fun kv =>
      (enc cfg.sep (f kv.1).1 (f kv.1).2, kv.2.map fun v => enc cfg.sep (g v).1 (g v).2)) [] (by
      intro x hx
      obtain ⟨kv, hkv, rfl⟩ := List.mem_map.1 hx
      obtain ⟨c1, c2⟩ := hfc kv hkv
      simp only [hfst _ _ c1 c2]
      exact outerKey_eq hi ho c1 c2 (source_ne (hf kv hkv)) (hclean kv hkv _ _ (hf kv hkv))) (by
      intro x hx v hv
      obtain ⟨kv, hkv, rfl⟩ := List.mem_map.1 hx
      obtain ⟨w, hw, rfl⟩ := List.mem_map.1 hv
      obtain ⟨c1, c2⟩ := hgc kv hkv w hw
      exact ⟨joinWith cfg.sep (g w).2, by rw [hfst _ _ c1 c2, unpack_enc c1 c2]⟩)
    (by simp [GraphSpec.IsDict]) (by simp)
  refine ⟨G, ?_, h2, h3, ?_⟩
  · unfold outerConnections; rw [hpart]; exact h1
  · intro a b
    rw [h4 a b]
    constructor
    · rintro (⟨vs, h, -⟩ | ⟨x, hx, rfl, v, hv, rfl⟩)
      · simp at h
      · obtain ⟨kv, hkv, rfl⟩ := List.mem_map.1 hx
        obtain ⟨w, hw, rfl⟩ := List.mem_map.1 hv
        obtain ⟨c1, c2⟩ := hfc kv hkv
        obtain ⟨d1, d2⟩ := hgc kv hkv w hw
        exact ⟨(kv.1, w), List.mem_flatMap.2 ⟨kv, hkv, List.mem_map.2 ⟨w, hw, rfl⟩⟩, _, _, _, _, hf kv hkv, hg kv hkv w hw,
          hfst _ _ c1 c2, hfst _ _ d1 d2⟩
    · rintro ⟨e, he, m, r, m', r', hs, ht, rfl, rfl⟩
      obtain ⟨kv, hkv, hin⟩ := List.mem_flatMap.1 he
      obtain ⟨w, hw, rfl⟩ := List.mem_map.1 hin
      obtain ⟨rfl, rfl⟩ := source_unique (hf kv hkv) hs
      obtain ⟨rfl, rfl⟩ := target_unique (hg kv hkv w hw) ht
      obtain ⟨c1, c2⟩ := hfc kv hkv
      obtain ⟨d1, d2⟩ := hgc kv hkv w hw
      exact .inr ⟨_, List.mem_map.2 ⟨kv, hkv, rfl⟩, hfst _ _ c1 c2, _, List.mem_map.2 ⟨w, hw, rfl⟩, hfst _ _ d1 d2⟩

end Verif.Conn
