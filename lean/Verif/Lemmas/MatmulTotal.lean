import Verif.Lemmas.MatmulCore
import Verif.Lemmas.ExtendOk

/-! When `MatMul` compiles. -/

namespace Verif.Matmul
open Tree TreeSpec Einsum EinsumSpec MatmulSpec PathSpec
open ForwardSpec (At KeysOk Spells Uniform)

variable {K : Type}

theorem leads_uniform {γ : Type} {p : List Str} : ∀ {p' : List Str} {G : Tree γ}, Leads G p → Leads G p' → Uniform p p' := by
  intro p' G h1 h2 c k₁ r₁ k₂ r₂ hc e1 e2
  clear hc
  subst e1 e2
  induction c generalizing G with
  | nil =>
    cases h1 with
    | list a _ _ => cases h2 with
      | list b _ _ => rw [a, b]
    | tuple a _ _ => cases h2 with
      | tuple b _ _ => rw [a, b]
    | dict a _ _ => cases h2 with
      | dict b _ _ => rw [a, b]
  | cons k c ih =>
    cases h1 with
    | list _ a1 a => cases h2 with
      | list _ b1 b => rw [a1] at b1; cases b1; exact ih a b
    | tuple _ a1 a => cases h2 with
      | tuple _ b1 b => rw [a1] at b1; cases b1; exact ih a b
    | dict _ a1 a => cases h2 with
      | dict _ b1 b => rw [a1] at b1; cases b1; exact ih a b

/-- A tree can be built from different addresses of leaves. -/
theorem extend_total {β γ : Type} (eqv : Tree β → Tree β → Bool) {G : Tree γ} (hk : KeysOk G) (hdig : ∀ q g k, At G q g → .key k ∈ q → isDigit k = false)
    {pfs : List (List Str × β)} (hnd : (pfs.map Prod.fst).Nodup)
    (hp : ∀ pf ∈ pfs, pf.1 ≠ [] ∧ Proper pf.1 ∧ Canonical pf.1 ∧ ∃ g, get G pf.1 = .ok (.leaf g)) :
    ∃ t, extend eqv .none (pfs.map fun p => (p.1, .leaf p.2)) = .ok t := by
  have hq : ∀ pf ∈ pfs, ∃ q g, Spells pf.1 q ∧ At G q g := by
    intro pf hpf
    obtain ⟨_, h2, _, g, hg⟩ := hp pf hpf
    obtain ⟨q, h3, h4⟩ := at_of_get h2 hg (.leaf g)
    rw [List.append_nil] at h4
    exact ⟨q, g, h3, h4⟩
  refine extend_none_ok eqv _ ?_ ?_
  · rw [List.pairwise_map]
    rw [List.Nodup, List.pairwise_map] at hnd
    refine hnd.imp_of_mem fun {a b} ha hb hab => ?_
    obtain ⟨qa, ga, ha1, ha2⟩ := hq a ha
    obtain ⟨qb, gb, hb1, hb2⟩ := hq b hb
    refine ⟨Conn.diverge_of_free (hp _ ha).2.2.1 (hp _ hb).2.2.1 (fun hpre => hab (not_prefix hk ha1 hb1 ha2 hb2 hpre)) (fun hpre => hab (not_prefix hk hb1 ha1 hb2 ha2 hpre).symm), ?_⟩
    exact leads_uniform (leads_of_spells hk ha1 ha2 (fun k hk => hdig _ _ _ ha2 hk)) (leads_of_spells hk hb1 hb2 (fun k hk => hdig _ _ _ hb2 hk))
  · intro pf hpf
    obtain ⟨pf', hpf', rfl⟩ := List.mem_map.1 hpf
    exact ⟨(hp pf' hpf').1, (hp pf' hpf').2.1⟩

theorem perm_total {cfg : Cfg} {hp : Bool} {shapes : Tree (List Nat)} (hk : KeysOk shapes) {sl : List (Option (List Nat))} (hsl : shapeList cfg hp shapes = .ok sl)
    (hok : OrderOk cfg.sep cfg.pathOrder shapes) (pos : Option (Nat × List Nat)) (n : Nat) : ∃ pm, perm cfg pos n = .ok pm := by
  unfold perm
  cases hpo : cfg.pathOrder with
  | none => exact ⟨_, rfl⟩
  | some po =>
    obtain ⟨hnd, hf, -⟩ := shapeList_order hsl hpo
    obtain ⟨hpath, hdig⟩ := hok po hpo
    simp only
    set pths := (po.zip (List.range po.length)).filter fun p => p.1 ≠ cfg.param with hpths
    have hpm : ∀ (path : Str) (i : Nat), (path, i) ∈ pths → path ∈ po ∧ path ≠ cfg.param := by
      intro path i h
      rw [hpths, List.mem_filter] at h
      exact ⟨(List.of_mem_zip h.1).1, by simpa using h.2⟩
    obtain ⟨t, ht⟩ := extend_total natEqv hk hdig (pfs := pths.map fun p => (splitOn cfg.sep p.1, p.2)) (by
        rw [List.map_map]
        have hsub : (pths.map Prod.fst).Sublist po := by
          have h1 : pths.Sublist (po.zip (List.range po.length)) := List.filter_sublist
          have h2 := h1.map Prod.fst
          rwa [List.map_fst_zip (by simp)] at h2
        have := (hnd.sublist hsub).map (f := splitOn cfg.sep) fun a b h => splitOn_inj h
        rwa [List.map_map] at this) (by
        intro pf hpf
        obtain ⟨⟨path, i⟩, hm, rfl⟩ := List.mem_map.1 hpf
        obtain ⟨h1, h2⟩ := hpm _ _ hm
        obtain ⟨j, hj⟩ := List.mem_iff_getElem?.1 h1
        obtain ⟨s, -, hs⟩ := forall₂_get hf hj
        refine ⟨splitOn_ne_nil _ _, (hpath path h1 h2).1, (hpath path h1 h2).2, ?_⟩
        rcases shapeAt_ok hs with ⟨e, -⟩ | ⟨-, x, -, hx⟩
        · exact absurd e h2
        · exact ⟨x, hx⟩)
    rw [List.map_map] at ht
    have : (pths.map fun p => (splitOn cfg.sep p.1, (Tree.leaf p.2 : Tree Nat))) = pths.map ((fun p : List Str × Nat => (p.1, (Tree.leaf p.2 : Tree Nat))) ∘ fun p => (splitOn cfg.sep p.1, p.2)) := rfl
    rw [this, ht]
    exact ⟨_, rfl⟩

/-! ### Chains -/

theorem chain_get : ∀ {l : List (List Nat)}, Chain l → ∀ {j : Nat} {s t : List Nat}, l[j]? = some s → l[j + 1]? = some t → s.length = 2 ∧ s.getD 1 0 = t.getD 0 0
  | [], _, _, _, _, h, _ => by cases h
  | [_], _, j, _, _, _, h => by cases j <;> cases h
  | s :: t :: l, h, 0, _, _, h1, h2 => by cases h1; cases h2; exact ⟨h.1, h.2.1⟩
  | s :: t :: l, h, j + 1, _, _, h1, h2 => chain_get h.2.2 (j := j) h1 h2

theorem chain_rank : ∀ {l : List (List Nat)}, Chain l → ∀ s ∈ l, s.length = 1 ∨ s.length = 2
  | [s], h, _, hs => by rw [List.mem_singleton] at hs; subst hs; exact h
  | s :: t :: l, h, x, hx => by
    rcases List.mem_cons.1 hx with rfl | hx
    · exact .inr h.1
    · exact chain_rank h.2.2 x hx

theorem chain_count_vec : ∀ {l : List (List Nat)}, Chain l → l.countP (fun s => s.length = 1) ≤ 1
  | [s], _ => by rw [List.countP_singleton]; split <;> omega
  | s :: t :: l, h => by
    rw [List.countP_cons_of_neg (by simp [h.1])]
    exact chain_count_vec h.2.2

theorem chain_ne {l : List (List Nat)} (h : Chain l) : l ≠ [] := by rintro rfl; exact h

theorem chain_vectorsLast {l : List (List Nat)} (h : Chain l) : vectorsLast l = true := by
  unfold vectorsLast
  rw [List.all_eq_true]
  intro i hi
  rw [List.mem_range] at hi
  by_cases e : i = l.length - 1
  · simp [e]
  · have h2 : i + 1 < l.length := by omega
    have := (chain_get h (List.getElem?_eq_getElem hi) (List.getElem?_eq_getElem h2)).1
    rw [List.getD_eq_getElem?_getD, List.getElem?_eq_getElem hi]
    simp [this]

/-- Every chain of shapes has one size per index. -/
theorem chain_sizes : ∀ {l : List (List Nat)} {cs : List Char} {c : Char} {e : Str}, Chain l → l.length = (c :: cs).length → (c :: cs).Nodup → (∀ x ∈ e, x ∉ c :: cs) → e.Nodup →
    e.length + 1 = (l.getLastD []).length → ∃ f : Char → Nat, l = (chainSubs e (c :: cs)).map fun s => s.map f
  | [s], [], c, e, h, _, _, he, hen, hl => by
    simp only [List.getLastD_cons, List.getLastD_nil] at hl
    have hle : e.length ≤ 1 := by
      have : s.length = 1 ∨ s.length = 2 := h
      omega
    cases e with
    | nil =>
      obtain ⟨a, rfl⟩ := List.length_eq_one_iff.1 hl.symm
      exact ⟨fun _ => a, rfl⟩
    | cons x e =>
      cases e with
      | nil =>
        obtain ⟨a, b, rfl⟩ := List.length_eq_two.1 hl.symm
        have hne : x ≠ c := fun e => he x (by simp) (by simp [e])
        refine ⟨Function.update (fun _ => a) x b, ?_⟩
        simp [chainSubs, Function.update_of_ne hne.symm]
      | cons y e => simp at hle
  | s :: t :: l, c' :: cs, c, e, h, hlen, hnd, he, hen, hl => by
    have hnd' := List.nodup_cons.1 hnd
    obtain ⟨f, hf⟩ := chain_sizes h.2.2 (cs := cs) (c := c') (e := e) (by simpa using hlen) hnd'.2 (fun x hx hx' => he x hx (List.mem_cons_of_mem _ hx')) hen
      (by simpa [List.getLastD_cons] using hl)
    obtain ⟨a, b, rfl⟩ := List.length_eq_two.1 h.1
    have hce : c ∉ e := fun hc => he c hc (by simp)
    refine ⟨Function.update f c a, ?_⟩
    rw [chainSubs, List.map_cons]
    have hrest : (chainSubs e (c' :: cs)).map (fun s => s.map (Function.update f c a)) = (chainSubs e (c' :: cs)).map fun s => s.map f := by
      refine List.map_congr_left fun s hs => List.map_congr_left fun x hx => ?_
      have hxne : x ≠ c := by
        rintro rfl
        have h1 : 0 < (chainSubs e (c' :: cs)).flatten.count x := List.count_pos_iff.2 (List.mem_flatten.2 ⟨s, hs, hx⟩)
        rw [chain_count hen x hnd'.2 (fun x hx hx' => he x hx (List.mem_cons_of_mem _ hx'))] at h1
        have h2 : x ≠ c' := fun e => hnd'.1 (by simp [e])
        have h3 : x ∉ cs := fun e => hnd'.1 (by simp [e])
        simp [h2, h3, hce] at h1
      rw [Function.update_of_ne hxne]
    rw [hrest, ← hf]
    have h1 : f c' = b := by
      have := congrArg (fun l => (l.headD []).getD 0 0) hf
      have h2 : (((chainSubs e (c' :: cs)).map fun s => s.map f).headD []).getD 0 0 = f c' := by cases cs <;> rfl
      simp only [h2, List.headD_cons] at this
      have h3 := h.2.1
      simp only [List.getD_cons_succ, List.getD_cons_zero] at h3
      rw [h3, this]
    have hne : c' ≠ c := fun e => hnd'.1 (by simp [e])
    simp [Function.update_of_ne hne, h1]

theorem terms_total : ∀ {full : List (List Nat)} {i : Nat}, i + full.length ≤ 51 → ∃ ts, terms i full = .ok ts
  | [], i, _ => ⟨[], rfl⟩
  | sh :: l, i, h => by
    rw [List.length_cons] at h
    obtain ⟨ts, hts⟩ := terms_total (full := l) (i := i + 1) (by omega)
    have h1 : letters[i]? = some (letters[i]'(by rw [letters_length]; omega)) := List.getElem?_eq_getElem _
    have h2 : letters[i + 1]? = some (letters[i + 1]'(by rw [letters_length]; omega)) := List.getElem?_eq_getElem _
    unfold terms term
    rw [h1, h2, hts]
    by_cases e : sh.length = 2
    · simp only [if_pos e]; exact ⟨_, rfl⟩
    · simp only [if_neg e]; exact ⟨_, rfl⟩

theorem compile_total {cfg : Cfg} {p : Option (NArr K)} {shapes : Tree (List Nat)} (draw : Nat → List Nat → K) (hk : KeysOk shapes) (hok : OrderOk cfg.sep cfg.pathOrder shapes)
    (hne : jaxLeaves shapes ≠ []) {sl : List (Option (List Nat))} {pos : Option (Nat × List Nat)} (hsl : shapeList cfg (p.map NArr.shape).isSome shapes = .ok sl)
    (hpos : paramPos cfg (p.map NArr.shape) sl = .ok pos) (hch : Chain (fillShapes sl pos)) (hlen : (fillShapes sl pos).length ≤ 50)
    (hout : checkOut cfg.outShape (fillShapes sl pos) = .ok ()) : ∃ c, Matmul.compile draw cfg p shapes = .ok c ∧ c.1.arrays.head?.map NArr.shape = pos.map Prod.snd := by
  have hposok := paramPos_ok hpos
  have hop := fill_operands hsl hposok
  set full := fillShapes sl pos with hfull
  have hfl : full.length = sl.length := fill_length sl pos
  obtain ⟨ts, hts⟩ := terms_total (full := full) (i := 0) (by omega)
  have htl : ts.length = sl.length := by rw [terms_length hts, hfl]
  obtain ⟨pm, hpm⟩ := perm_total hk hsl hok pos sl.length
  obtain ⟨O0, hO0, hO0l, hperm0, hpml⟩ := perm_spec hk hsl hok hposok hpm (t := shapes) (param := pos.map Prod.snd) (by simp) hk (by
    rw [sameStruct_iff])
  rw [hop] at hO0
  cases hO0
  set psh := pos.map Prod.snd with hpsh
  have hX0full : (psh.toList ++ jaxLeaves shapes).Perm full := by
    have := hperm0.map Prod.snd
    rwa [List.map_snd_zip (by rw [hpml]), List.map_snd_zip (by rw [List.length_range, hfl])] at this
  have hrank : ∀ x ∈ jaxLeaves shapes, x.length = 1 ∨ x.length = 2 := fun x hx => chain_rank hch x (hX0full.subset (List.mem_append_right _ hx))
  have hvec1 : (jaxLeaves shapes).countP (fun s => s.length = 1) ≤ 1 := by
    have h1 := chain_count_vec hch
    rw [← hX0full.countP_eq, List.countP_append] at h1
    omega
  have hplan : plan cfg (p.map NArr.shape) shapes = .ok (joinWith ',' (pm.map fun i => ts.getD i []), sizes pos) := by
    unfold plan
    have h1 : ((jaxLeaves shapes).all fun s => decide (s.length = 1) || decide (s.length = 2)) = true := by
      rw [List.all_eq_true]
      intro x hx
      simpa using hrank x hx
    rw [h1, hsl]
    simp only [Bool.not_true, Bool.false_eq_true, if_false, hpos, if_neg (show ¬ 1 < (jaxLeaves shapes).countP (fun s => s.length = 1) by omega), ← hfull, chain_vectorsLast hch,
      hout, hts, htl, hpm]
  set subs := pm.map fun i => ts.getD i [] with hsubs
  have hpmn : pm.Perm (List.range sl.length) := by
    have := hperm0.map Prod.fst
    rwa [List.map_fst_zip (by rw [hpml]), List.map_fst_zip (by rw [List.length_range, hfl])] at this
  have hgetts : (List.range sl.length).map (fun i => ts.getD i []) = ts := by
    refine List.ext_getElem (by simp [htl]) fun i h1 h2 => ?_
    rw [List.getElem_map, List.getElem_range, List.getD_eq_getElem?_getD, List.getElem?_eq_getElem h2]
    rfl
  have hsubts : subs.Perm ts := by
    have h1 := hpmn.map fun i => ts.getD i []
    rwa [hgetts] at h1
  have hsubl : subs.length = psh.toList.length + (jaxLeaves shapes).length := by rw [hsubs, List.length_map, hpml, List.length_append]
  have hNpos : 0 < (jaxLeaves shapes).length := List.length_pos_iff.2 hne
  have hX : List.Forall₂ (fun i x => full[i]? = some x) pm (psh.toList ++ jaxLeaves shapes) := by
    rw [List.forall₂_iff_zip]
    refine ⟨hpml, fun {i x} hix => ?_⟩
    have := hperm0.subset hix
    rw [← hfl] at this
    exact mem_range_zip.1 this
  have hterm : ∀ {i x}, full[i]? = some x → term i x = .ok (ts.getD i []) := by
    intro i x hi
    obtain ⟨t, h1, h2⟩ := terms_get hts hi
    rw [Nat.zero_add] at h2
    rw [List.getD_eq_getElem?_getD, h1]
    exact h2
  have hfne := chain_ne hch
  have hdrop : ∀ sh ∈ full.dropLast, sh.length = 2 := by
    intro sh hsh
    obtain ⟨j, hj⟩ := List.mem_iff_getElem?.1 hsh
    have hjl : j < full.length - 1 := by
      have := (List.getElem?_eq_some_iff.1 hj).1
      rwa [List.length_dropLast] at this
    have hj' : full[j]? = some sh := by
      rw [List.dropLast_eq_take, List.getElem?_take_of_lt hjl] at hj
      exact hj
    exact (chain_get hch hj' (List.getElem?_eq_getElem (by omega))).1
  have hchain := terms_chain hfne hts hdrop
  rw [List.drop_zero] at hchain
  obtain ⟨cs, hcs⟩ : ∃ cs, letters.take full.length = 'a' :: cs := by
    obtain ⟨m, hm⟩ : ∃ m, full.length = m + 1 := ⟨full.length - 1, by have := List.length_pos_iff.2 hfne; omega⟩
    rw [hm]
    exact ⟨_, rfl⟩
  have hcsl : full.length = ('a' :: cs).length := by rw [← hcs, List.length_take, letters_length]; omega
  rw [hcs] at hchain
  set e := lastIndex 0 full with he
  have hen : e.Nodup := by
    rw [he, lastIndex]
    split <;> simp
  have hndcs : ('a' :: cs).Nodup := by rw [← hcs]; exact letters_nodup.sublist (List.take_sublist _ _)
  have hedis : ∀ x ∈ e, x ∉ 'a' :: cs := by
    intro x hx hx'
    rw [he, lastIndex] at hx
    split at hx
    · rw [Nat.zero_add, List.getD_eq_getElem?_getD, List.getElem?_eq_getElem (by rw [letters_length]; omega), List.mem_singleton] at hx
      rw [← hcs, List.mem_take_iff_getElem] at hx'
      obtain ⟨j, hj, e2⟩ := hx'
      rw [hx] at e2
      have := (List.Nodup.getElem_inj_iff letters_nodup).1 e2
      omega
    · cases hx
  have hel : e.length + 1 = (full.getLastD []).length := by
    rw [he, lastIndex]
    have hl : (full.getLastD []).length = 1 ∨ (full.getLastD []).length = 2 := by
      refine chain_rank hch _ ?_
      rw [List.getLastD_eq_getLast?, List.getLast?_eq_some_getLast hfne]
      exact List.getLast_mem hfne
    split
    · next h => rw [h]; rfl
    · next h => rw [hl.resolve_right h]; rfl
  obtain ⟨f, hf⟩ := chain_sizes hch hcsl hndcs hedis hen hel
  have hfullts : full = ts.map fun s => s.map f := by rw [hchain]; exact hf
  have hX0 : psh.toList ++ jaxLeaves shapes = subs.map fun s => s.map f := by
    rw [hsubs, List.map_map]
    refine List.ext_getElem? fun j => ?_
    rw [List.getElem?_map]
    cases hj : pm[j]? with
    | none =>
      rw [List.getElem?_eq_none_iff] at hj
      rw [Option.map_none, List.getElem?_eq_none_iff, ← hpml]
      exact hj
    | some i =>
      obtain ⟨x, h1, h2⟩ := forall₂_get hX hj
      rw [h1]
      rw [hfullts, List.getElem?_map] at h2
      simp only [Option.map_some, Function.comp, List.getD_eq_getElem?_getD]
      cases ht : ts[i]? with
      | none => rw [ht] at h2; cases h2
      | some t => rw [ht] at h2; cases h2; rfl
  set ls := subs.take psh.toList.length with hls
  set is := subs.drop psh.toList.length with his
  have hlsis : ls ++ is = subs := List.take_append_drop _ _
  have hlsl : ls.length = psh.toList.length := by rw [hls, List.length_take, hsubl]; omega
  have hisl : is.length = (jaxLeaves shapes).length := by rw [his, List.length_drop, hsubl]; omega
  have hisne : is ≠ [] := by rw [← List.length_pos_iff, hisl]; exact hNpos
  have hsplit : psh.toList = ls.map (fun s => s.map f) ∧ jaxLeaves shapes = is.map fun s => s.map f := by
    rw [← hlsis, List.map_append] at hX0
    exact List.append_inj hX0 (by rw [List.length_map, hlsl])
  have hlet : ∀ x ∈ subs.flatten, x ∈ letters.take (sl.length + 1) := by
    intro x hx
    have h1 := terms_mem hts x (hsubts.flatten.subset hx)
    rwa [Nat.zero_add, hfl] at h1
  have halpha : ∀ t ∈ subs, ∀ x ∈ t, x.isAlpha = true := fun t ht x hx =>
    mem_letters.1 (List.mem_of_mem_take (hlet x (List.mem_flatten.2 ⟨t, ht, hx⟩)))
  have htne : ∀ t ∈ subs, t ≠ [] := by
    intro t ht
    obtain ⟨j, hj⟩ := List.mem_iff_getElem?.1 (hsubts.subset ht)
    have hjl : j < full.length := by rw [hfl, ← htl]; exact (List.getElem?_eq_some_iff.1 hj).1
    have := hterm (List.getElem?_eq_getElem hjl)
    rw [List.getD_eq_getElem?_getD, hj] at this
    rcases term_ok this with ⟨_, _, e⟩ | ⟨_, _, e⟩ <;> (simp only [Option.getD_some] at e; rw [e]; simp)
  have hsubscr : Subscripts ls is Option.none := by
    refine ⟨fun t ht => halpha t (hlsis ▸ List.mem_append_left _ ht), fun t ht => halpha t (hlsis ▸ List.mem_append_right _ ht), fun _ h => (by cases h), hisne, .inr ?_⟩
    cases his' : is with
    | nil => exact absurd his' hisne
    | cons t r => exact htne t (hlsis ▸ List.mem_append_right _ (his' ▸ by simp))
  have hcomma : ∀ t ∈ ls ++ is, ',' ∉ t := by
    intro t ht hc
    have := halpha t (hlsis ▸ ht) _ hc
    revert this
    decide
  have hio := Props.isOutput_inferred ls is hcomma
  set out := inferOutput (joinWith ',' (ls ++ is)) with houtdef
  have houtsub : ∀ x ∈ out, x ∈ subs.flatten := fun x hx => List.count_pos_iff.1 (by
    have := (hio.2.2 x).1 hx
    rw [hlsis] at this
    rw [this]; omega)
  have hfree : ∃ b : Char, b.isAlpha = true ∧ b ∉ (ls ++ is).flatten ∧ b ∉ out := by
    obtain ⟨b, hb1, hb2⟩ := Props.free_letter (s := subs.flatten) (by
      have h1 := (List.Nodup.subperm (List.nodup_dedup subs.flatten) fun x hx => hlet x (List.mem_dedup.1 hx)).length_le
      rw [List.length_take] at h1
      omega)
    exact ⟨b, hb1, by rwa [hlsis], fun hb => hb2 (houtsub b hb)⟩
  have hr : List.Forall₂ (fun s sh => s.length = sh.length) is (jaxLeaves shapes) := by
    rw [hsplit.2, List.forall₂_map_right_iff, List.forall₂_same]
    intro s _
    rw [List.length_map]
  have hconc := Props.C62_string hsubscr hio hr hfree
  have htext : text (ls ++ is) Option.none = joinWith ',' subs := by rw [hlsis]; simp [text]
  rw [htext] at hconc
  have hnew : ∀ k sh, p = Option.none → pos = some (k, sh) → sh.length = 1 ∨ sh.length = 2 → ls = [ts.getD k []] ∧ full[k]? = some sh := by
    intro k sh hp hpc _
    have e : psh = some sh := by rw [hpsh, hpc]; rfl
    rw [hpc] at hposok hpm
    have hh := perm_head hsl hposok hpm
    obtain ⟨pm', hpm'⟩ : ∃ pm', pm = k :: pm' := by
      cases hpm1 : pm with
      | nil => rw [hpm1] at hh; cases hh
      | cons a pm' => rw [hpm1] at hh; cases hh; exact ⟨pm', rfl⟩
    constructor
    · rw [hls, hsubs, e, hpm']
      rfl
    · rw [e, hpm'] at hX
      cases hX with
      | cons h _ => exact h
  have hu : ∀ c d, (sizes pos).lookup c = some d → d = f c := by
    intro c d hcd
    cases hpc : pos with
    | none => rw [hpc] at hcd; simp [sizes] at hcd
    | some pr =>
      obtain ⟨k, sh⟩ := pr
      rw [hpc] at hcd
      have e : psh = some sh := by rw [hpsh, hpc]; rfl
      rw [hpc] at hposok hpm
      have hh := perm_head hsl hposok hpm
      obtain ⟨pm', hpm'⟩ : ∃ pm', pm = k :: pm' := by
        cases hpm1 : pm with
        | nil => rw [hpm1] at hh; cases hh
        | cons a pm' => rw [hpm1] at hh; cases hh; exact ⟨pm', rfl⟩
      have hfk : full[k]? = some sh := by
        rw [e, hpm'] at hX
        cases hX with
        | cons h _ => exact h
      have hshf : sh = (ts.getD k []).map f := by
        rw [hfullts, List.getElem?_map] at hfk
        rw [List.getD_eq_getElem?_getD]
        cases ht : ts[k]? with
        | none => rw [ht] at hfk; cases hfk
        | some t => rw [ht] at hfk; cases hfk; rfl
      rcases term_ok (hterm hfk) with ⟨h1, _, e2⟩ | ⟨h1, _, e2⟩
      · rw [e2] at hshf
        subst hshf
        simp only [sizes, List.map_cons, List.map_nil, List.lookup_cons, List.lookup_nil] at hcd
        by_cases h3 : c = letters.getD k 'a'
        · subst h3; simpa using hcd.symm
        · have : (c == letters.getD k 'a') = false := by simpa using h3
          rw [this] at hcd
          simp only at hcd
          by_cases h4 : c = letters.getD (k + 1) 'a'
          · subst h4; simpa using hcd.symm
          · have : (c == letters.getD (k + 1) 'a') = false := by simpa using h4
            rw [this] at hcd
            cases hcd
      · rw [e2] at hshf
        subst hshf
        simp only [sizes, List.map_cons, List.map_nil, List.lookup_cons, List.lookup_nil] at hcd
        by_cases h3 : c = letters.getD k 'a'
        · subst h3; simpa using hcd.symm
        · have : (c == letters.getD k 'a') = false := by simpa using h3
          rw [this] at hcd
          cases hcd
  have hfit : Props.Fitting (toParams p) ls f := by
    cases hp : p with
    | none => exact .inl rfl
    | some x =>
      right
      subst hp
      obtain ⟨k, hk⟩ := paramPos_given hpos
      have e : psh = some x.shape := by rw [hpsh, hk]; rfl
      obtain ⟨l, hl⟩ : ∃ l, ls = [l] := List.length_eq_one_iff.1 (by rw [hlsl, e]; rfl)
      refine ⟨x, l, rfl, hl, ?_⟩
      have := hsplit.1
      rw [e, hl] at this
      simpa using this
  have hcovls : ∀ c ∈ ls.flatten, ((sizes pos).lookup c).isSome = true ∨ ((∃ x, toParams p = .arr x) ∧ c ∈ ls.flatten) := by
    intro c hc
    cases hp : p with
    | some x => exact .inr ⟨⟨x, rfl⟩, hc⟩
    | none =>
      left
      cases hpc : pos with
      | none =>
        have e : psh = Option.none := by rw [hpsh, hpc]; rfl
        rw [e] at hlsl
        rw [List.length_eq_zero_iff.1 hlsl] at hc
        cases hc
      | some pr =>
        obtain ⟨k, sh⟩ := pr
        have hlen' := chain_rank hch sh (hX0full.subset (by rw [hpsh, hpc]; simp))
        obtain ⟨hls', hfk⟩ := hnew k sh hp hpc hlen'
        rw [hls', List.flatten_singleton] at hc
        rcases term_ok (hterm hfk) with ⟨h1, _, e2⟩ | ⟨h1, _, e2⟩
        · obtain ⟨a, b, rfl⟩ := List.length_eq_two.1 h1
          rw [e2] at hc
          simp only [sizes, List.lookup_cons, List.lookup_nil]
          simp only [List.mem_cons, List.not_mem_nil, or_false] at hc
          rcases hc with rfl | rfl
          · simp
          · split
            · rfl
            · simp
        · obtain ⟨a, rfl⟩ := List.length_eq_one_iff.1 (hlen'.resolve_right h1)
          rw [e2, List.mem_singleton] at hc
          subst hc
          simp [sizes]
  obtain ⟨q, hq1, hq2, -, -⟩ := Props.C62_compile hconc hisne hsplit.2 hu hfit (by
    intro c hc
    rcases List.mem_append.1 hc with hc | hc
    · exact .inr (hcovls c hc)
    · have := houtsub c hc
      rw [← hlsis, List.flatten_append, List.mem_append] at this
      rcases this with h | h
      · exact .inr (hcovls c h)
      · exact .inl h) (tr := cfg.trainable) (by
    cases hp : p with
    | some x => exact .inr (.inr ⟨x, rfl⟩)
    | none =>
      cases htr : cfg.trainable with
      | true => exact .inl rfl
      | false =>
        right; left
        subst hp
        have : psh = Option.none := by
          rw [hpsh]
          unfold paramPos at hpos
          simp only [Option.map_none, htr, Bool.false_eq_true, if_false] at hpos
          split at hpos
          · cases hpos
          · cases hpos; rfl
        rw [this] at hlsl
        exact List.length_eq_zero_iff.1 hlsl) draw
  refine ⟨(q, joinWith ',' subs), ?_, ?_⟩
  · unfold Matmul.compile
    rw [hplan]
    simp only [hq1]
  · rw [← hsplit.1] at hq2
    show q.arrays.head?.map NArr.shape = psh
    cases hqa : q.arrays with
    | nil => rw [hqa] at hq2; cases hps : psh with
      | none => rfl
      | some x => rw [hps] at hq2; cases hq2
    | cons y r => rw [hqa] at hq2; cases hps : psh with
      | none => rw [hps] at hq2; cases hq2
      | some x => rw [hps] at hq2; simp only [List.map_cons, Option.toList_some, List.cons.injEq] at hq2; simp [hq2.1]

theorem mapM_total_ok {α β : Type} {f : α → Except PyErr β} : ∀ {l : List α} {r : List β}, List.Forall₂ (fun a b => f a = .ok b) l r → l.mapM f = .ok r
  | _, _, .nil => rfl
  | _, _, .cons h1 h2 => by
    rw [List.mapM_cons, h1, mapM_total_ok h2]
    rfl

theorem shapeList_total {cfg : Cfg} {hp : Bool} {shapes : Tree (List Nat)} {psh : Option (List Nat)} {full : List (List Nat)}
    (hops : operands cfg.sep cfg.pathOrder psh shapes = some full) (hord : ∀ po, cfg.pathOrder = some po → po.Nodup ∧ (psh.isSome = true → [cfg.sep, cfg.sep] ∈ po))
    (hlen : full.length = psh.toList.length + (jaxLeaves shapes).length) (hhp : (cfg.trainable || hp) = psh.isSome) :
    ∃ sl, shapeList cfg hp shapes = .ok sl ∧ sl.length = full.length ∧ (∀ j : Nat, sl[j]? = some Option.none ↔ (psh.isSome = true ∧ j = paramPlace cfg.sep cfg.pathOrder)) ∧
      ∀ (j : Nat) x, sl[j]? = some (some x) → full[j]? = some x := by
  cases hpo : cfg.pathOrder with
  | none =>
    rw [hpo] at hops
    simp only [operands, Option.some.injEq] at hops
    refine ⟨(if cfg.trainable || hp then [Option.none] else []) ++ (jaxLeaves shapes).map some, ?_, ?_, ?_, ?_⟩
    · unfold shapeList; rw [hpo]
    · rw [hlen, hhp]
      cases psh <;> simp [Nat.add_comm]
    · intro j
      rw [hhp, paramPlace]
      cases psh with
      | none =>
        simp only [Option.isSome_none, Bool.false_eq_true, if_false, List.nil_append, false_and, iff_false, List.getElem?_map]
        cases (jaxLeaves shapes)[j]? <;> simp
      | some x =>
        cases j with
        | zero => simp
        | succ j =>
          simp only [Option.isSome_some, if_true, List.singleton_append, List.getElem?_cons_succ, List.getElem?_map]
          cases (jaxLeaves shapes)[j]? <;> simp
    · intro j x hj
      rw [hhp] at hj
      subst hops
      cases psh with
      | none =>
        simp only [Option.isSome_none, Bool.false_eq_true, if_false, List.nil_append, List.getElem?_map] at hj
        cases h : (jaxLeaves shapes)[j]? with
        | none => rw [h] at hj; cases hj
        | some y => rw [h] at hj; cases hj; simpa using h
      | some y =>
        cases j with
        | zero => simp at hj
        | succ j =>
          simp only [Option.isSome_some, if_true, List.singleton_append, List.getElem?_cons_succ, List.getElem?_map] at hj
          cases h : (jaxLeaves shapes)[j]? with
          | none => rw [h] at hj; cases hj
          | some y => rw [h] at hj; cases hj; simpa using h
  | some po =>
    rw [hpo, operands_some, mapM_some] at hops
    obtain ⟨hnd, hmem⟩ := hord po hpo
    have hsl : ∃ sl, List.Forall₂ (fun path s => shapeAt cfg shapes path = .ok s) po sl := by
      have : ∀ path ∈ po, ∃ s, shapeAt cfg shapes path = .ok s := by
        intro path hpa
        obtain ⟨i, hi⟩ := List.mem_iff_getElem?.1 hpa
        obtain ⟨x, _, hx⟩ := forall₂_get hops hi
        by_cases e : path = cfg.param
        · exact ⟨_, if_pos e⟩
        · rw [factor_path e] at hx
          exact ⟨some x, by unfold shapeAt; rw [if_neg e, hx]⟩
      clear hops hmem hnd hpo
      induction po with
      | nil => exact ⟨[], .nil⟩
      | cons a po ih =>
        obtain ⟨s, hs⟩ := this a (by simp)
        obtain ⟨r, hr⟩ := ih fun q hq => this q (List.mem_cons_of_mem _ hq)
        exact ⟨s :: r, .cons hs hr⟩
    obtain ⟨sl, hsl⟩ := hsl
    have hnone : ∀ j : Nat, sl[j]? = some Option.none ↔ po[j]? = some cfg.param := by
      intro j
      constructor
      · intro h
        obtain ⟨path, h1, h2⟩ := forall₂_get' hsl h
        rcases shapeAt_ok h2 with ⟨e, _⟩ | ⟨_, x, e, _⟩
        · rw [h1, e]
        · cases e
      · intro h
        obtain ⟨s, h1, h2⟩ := forall₂_get hsl h
        rw [shapeAt, if_pos rfl] at h2
        cases h2
        exact h1
    have hsome : ∀ (j : Nat) x, sl[j]? = some (some x) → full[j]? = some x := by
      intro j x hj
      obtain ⟨path, h1, h2⟩ := forall₂_get' hsl hj
      rcases shapeAt_ok h2 with ⟨_, e⟩ | ⟨e1, x', e, h3⟩
      · cases e
      · cases e
        obtain ⟨y, h4, h5⟩ := forall₂_get hops h1
        rw [factor_path e1, h3] at h5
        cases h5
        exact h4
    have hpar : ∀ j : Nat, po[j]? = some cfg.param ↔ (psh.isSome = true ∧ j = paramPlace cfg.sep cfg.pathOrder) := by
      intro j
      have hpl : paramPlace cfg.sep cfg.pathOrder = po.idxOf cfg.param := by rw [hpo]; rfl
      constructor
      · intro h
        obtain ⟨y, h4, h5⟩ := forall₂_get hops h
        rw [factor_param rfl] at h5
        refine ⟨by rw [h5]; rfl, ?_⟩
        obtain ⟨hl, e⟩ := List.getElem?_eq_some_iff.1 h
        rw [hpl, ← e, List.Nodup.idxOf_getElem hnd]
      · rintro ⟨h1, rfl⟩
        rw [hpl]
        exact List.getElem?_idxOf (hmem h1)
    have hcount : sl.count Option.none = psh.toList.length := by
      cases psh with
      | none =>
        refine List.count_eq_zero.2 fun hm => ?_
        obtain ⟨j, hj⟩ := List.mem_iff_getElem?.1 hm
        have := ((hpar j).1 ((hnone j).1 hj)).1
        cases this
      | some x =>
        have h0 := (hnone _).2 ((hpar (paramPlace cfg.sep cfg.pathOrder)).2 ⟨rfl, rfl⟩)
        obtain ⟨hl, e⟩ := List.getElem?_eq_some_iff.1 h0
        have hsplit : sl = sl.take (paramPlace cfg.sep cfg.pathOrder) ++ Option.none :: sl.drop (paramPlace cfg.sep cfg.pathOrder + 1) := by
          rw [← e, List.getElem_cons_drop, List.take_append_drop]
        rw [hsplit, List.count_append, List.count_cons]
        have hz1 : (sl.take (paramPlace cfg.sep cfg.pathOrder)).count Option.none = 0 := by
          refine List.count_eq_zero.2 fun hm => ?_
          obtain ⟨j, hj⟩ := List.mem_iff_getElem?.1 hm
          have hjl : j < paramPlace cfg.sep cfg.pathOrder := by
            have := (List.getElem?_eq_some_iff.1 hj).1
            rw [List.length_take] at this
            omega
          rw [List.getElem?_take_of_lt hjl] at hj
          have := ((hpar j).1 ((hnone j).1 hj)).2
          omega
        have hz2 : (sl.drop (paramPlace cfg.sep cfg.pathOrder + 1)).count Option.none = 0 := by
          refine List.count_eq_zero.2 fun hm => ?_
          obtain ⟨j, hj⟩ := List.mem_iff_getElem?.1 hm
          rw [List.getElem?_drop] at hj
          have := ((hpar _).1 ((hnone _).1 hj)).2
          omega
        rw [hz1, hz2]
        rfl
    have hl : sl.length = full.length := by rw [← hsl.length_eq, hops.length_eq]
    refine ⟨sl, ?_, hl, fun j => (hnone j).trans (by rw [hpar j, hpo]), hsome⟩
    unfold shapeList
    rw [hpo]
    have h1 : (!decide po.Nodup) = false := by simp [hnd]
    simp only [h1, Bool.false_eq_true, if_false, mapM_total_ok hsl]
    rw [if_neg]
    rw [hcount, hl, hlen]
    omega

end Verif.Matmul
