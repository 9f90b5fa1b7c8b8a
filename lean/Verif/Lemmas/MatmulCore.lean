import Verif.Lemmas.MatmulTerms
import Verif.Props.Einsum
import Verif.Props.Eigen

/-! `MatMul` from its configuration to its result. -/

namespace Verif.Matmul
open Tree Einsum EinsumSpec MatmulSpec
open ForwardSpec (At KeysOk)

variable {K : Type}

theorem zip_fact {γ δ : Type} {F : γ → δ} {G : Nat → δ} : ∀ {pm : List Nat} {X : List γ}, X.map F = pm.map G → ∀ p ∈ pm.zip X, F p.2 = G p.1
  | [], _, _, p, hp => by simp at hp
  | _ :: _, [], h, p, hp => by simp at hp
  | i :: pm, x :: X, h, p, hp => by
    rw [List.map_cons, List.map_cons, List.cons.injEq] at h
    rw [List.zip_cons_cons, List.mem_cons] at hp
    rcases hp with rfl | hp
    · exact h.1
    · exact zip_fact h.2 p hp

theorem unperm {γ δ : Type} {pm : List Nat} {n : Nat} {X O : List γ} (hp : (pm.zip X).Perm ((List.range n).zip O)) (hO : O.length = n) {F : γ → δ} {G : Nat → δ}
    (h : X.map F = pm.map G) : O.map F = (List.range n).map G := by
  subst hO
  refine List.ext_getElem (by simp) fun i h1 h2 => ?_
  rw [List.getElem_map, List.getElem_map, List.getElem_range]
  have hi : i < O.length := by simpa using h1
  exact zip_fact h (i, O[i]) (hp.symm.subset (mem_range_zip.2 (List.getElem?_eq_getElem hi)))

theorem jaxLeaves_map {γ δ : Type} (f : γ → δ) (t : Tree γ) : jaxLeaves (map f t) = (jaxLeaves t).map f := by
  rw [jaxLeaves, jaxLeaves, Tree.norm_map, Props.flat_map]

theorem paramPos_given {cfg : Cfg} {sh : List Nat} {sl : List (Option (List Nat))} {pos : Option (Nat × List Nat)} (h : paramPos cfg (some sh) sl = .ok pos) :
    ∃ k, pos = some (k, sh) := by
  unfold paramPos at h
  simp only at h
  split at h
  · cases h; exact ⟨_, rfl⟩
  · cases h

theorem paramPos_new {cfg : Cfg} {sl : List (Option (List Nat))} {k : Nat} {sh : List Nat} (h : paramPos cfg Option.none sl = .ok (some (k, sh))) : sh.length = 1 ∨ sh.length = 2 := by
  unfold paramPos at h
  simp only at h
  split at h
  · split at h
    · cases hs : paramShape cfg.outShape sl (sl.idxOf Option.none) with
      | error e => rw [hs] at h; cases h
      | ok s => rw [hs] at h; cases h; exact paramShape_length hs
    · cases h
  · split at h <;> cases h

theorem perm_head {cfg : Cfg} {hp : Bool} {shapes : Tree (List Nat)} {sl : List (Option (List Nat))} (hsl : shapeList cfg hp shapes = .ok sl) {k : Nat} {sh : List Nat}
    (hpos : PosOk sl (some (k, sh))) {pm : List Nat} (hpm : perm cfg (some (k, sh)) sl.length = .ok pm) : pm.head? = some k := by
  unfold perm at hpm
  cases hpo : cfg.pathOrder with
  | some po =>
    rw [hpo] at hpm
    simp only at hpm
    split at hpm
    · cases hpm
    · cases hpm; rfl
  | none =>
    rw [hpo] at hpm
    cases hpm
    obtain ⟨hm, rfl⟩ := hpos
    unfold shapeList at hsl
    rw [hpo] at hsl
    simp only [Except.ok.injEq] at hsl
    subst hsl
    generalize (cfg.trainable || hp) = bb at hm ⊢
    cases bb with
    | true =>
      have : (List.map some shapes.jaxLeaves).length + 1 = ((if true = true then [Option.none] else []) ++ List.map some shapes.jaxLeaves).length := by simp
      rw [← this, List.range_succ_eq_map]
      rfl
    | false => simp at hm

theorem compile_arr {draw : Nat → List Nat → K} {spec : Tree Str} {user : List (Char × Nat)} {tr : Bool} {x : NArr K} {shapes : Tree (List Nat)} {q : Params K}
    (h : Einsum.compile draw spec user tr (.arr x) shapes = .ok q) : q = .arr x := by
  unfold Einsum.compile at h
  split at h
  · cases h
  · split at h
    · cases h
    · next m' hm =>
      simp only at h
      generalize (if (jaxLeaves shapes).length = 0 then [] else _ : List Str) = leading at h
      by_cases e : leading.map (fun s => s.map (dim m')) = (Params.arr x).arrays.map NArr.shape
      · rw [if_pos e] at h; cases h; rfl
      · rw [if_neg e] at h; cases h

/-- What a successful plan consists of. -/
theorem plan_ok {cfg : Cfg} {param : Option (List Nat)} {shapes : Tree (List Nat)} {s : Str} {dm : List (Char × Nat)} (h : plan cfg param shapes = .ok (s, dm)) :
    (∀ x ∈ jaxLeaves shapes, x.length = 1 ∨ x.length = 2) ∧ ∃ sl pos ts pm, shapeList cfg param.isSome shapes = .ok sl ∧ paramPos cfg param sl = .ok pos ∧
      vectorsLast (fillShapes sl pos) = true ∧ checkOut cfg.outShape (fillShapes sl pos) = .ok () ∧ terms 0 (fillShapes sl pos) = .ok ts ∧ perm cfg pos ts.length = .ok pm ∧ s = joinWith ',' (pm.map fun i => ts.getD i []) ∧
      dm = sizes pos := by
  unfold plan at h
  split at h
  · cases h
  · next h1 =>
    split at h
    · cases h
    · split at h
      · cases h
      · next sl hsl =>
        split at h
        · cases h
        · next pos hpos =>
          simp only at h
          split at h
          · cases h
          · next hv =>
            split at h
            · cases h
            · next hout =>
              split at h
              · cases h
              · next ts hts =>
                split at h
                · cases h
                · next pm hpm =>
                  cases h
                  refine ⟨fun x hx => ?_, sl, pos, ts, pm, hsl, hpos, by simpa using hv, hout, hts, hpm, rfl, rfl⟩
                  have h2 : ((jaxLeaves shapes).all fun s => decide (s.length = 1) || decide (s.length = 2)) = true := by
                    cases hb : ((jaxLeaves shapes).all fun s => decide (s.length = 1) || decide (s.length = 2)) with
                    | true => rfl
                    | false => rw [hb] at h1; exact absurd rfl h1
                  have h3 := List.all_eq_true.1 h2 x hx
                  simpa using h3

theorem fill_length (sl : List (Option (List Nat))) (pos : Option (Nat × List Nat)) : (fillShapes sl pos).length = sl.length := by
  unfold fillShapes
  split <;> simp

theorem letters_length : letters.length = 52 := by decide +kernel

theorem core [CommSemiring K] {cfg : Cfg} {p : Option (NArr K)} {shapes : Tree (List Nat)} {draw : Nat → List Nat → K} {c : Params K × Str} (hk : KeysOk shapes)
    (hok : OrderOk cfg.sep cfg.pathOrder shapes) (hne : jaxLeaves shapes ≠ []) (hn : (jaxLeaves shapes).length ≤ 49) (h : Matmul.compile draw cfg p shapes = .ok c) :
    ∃ full cs out f, operands cfg.sep cfg.pathOrder (c.1.arrays.head?.map NArr.shape) shapes = some full ∧ letters.take full.length = 'a' :: cs ∧
      full = (chainSubs (lastIndex 0 full) ('a' :: cs)).map (fun s => s.map f) ∧ out.Pairwise (· ≤ ·) ∧ out.Perm ('a' :: lastIndex 0 full) ∧ full.length ≤ 50 ∧ full.length = c.1.arrays.length + (jaxLeaves shapes).length ∧ c.1.arrays.length ≤ 1 ∧ checkOut cfg.outShape full = .ok () ∧
      Matmul.outputShape cfg p shapes = .ok (out.map f) ∧ (∀ x, p = some x → c.1.arrays = [x]) ∧ (p = Option.none → cfg.trainable = false → c.1.arrays = []) ∧
      (∃ ls is, Props.Concretises (.leaf c.2) shapes ls is out ∧ is ≠ [] ∧ jaxLeaves shapes = is.map (fun s => s.map f) ∧ c.1.arrays.map NArr.shape = ls.map (fun s => s.map f) ∧
        (c.1.absent = false → ls ≠ []) ∧ out.Nodup ∧ ∀ x ∈ out, x ∈ (ls ++ is).flatten) ∧
      ∀ B (data : Tree (NArr K)), KeysOk data → sameStruct data.norm shapes.norm = true → (jaxLeaves data).map NArr.shape = (jaxLeaves shapes).map (B :: ·) →
        ∃ y, Matmul.call c shapes data = .ok y ∧ y.shape = B :: out.map f ∧ ∀ b, ∃ O, operands cfg.sep cfg.pathOrder c.1.arrays.head? (map (sampleOf b) data) = some O ∧
          ∀ i, i.length = out.length → y.val (b :: i) = prodEntry O (assign out i 'a' :: (lastIndex 0 full).map (assign out i)) := by
  unfold Matmul.compile at h
  split at h
  · cases h
  next s dm hplan =>
  split at h
  · cases h
  next q hq =>
  cases h
  obtain ⟨hrank, sl, pos, ts, pm, hsl, hpos, hvec, hchk, hts, hpm, rfl, rfl⟩ := plan_ok hplan
  have hposok := paramPos_ok hpos
  have hop := fill_operands hsl hposok
  set full := fillShapes sl pos with hfull
  have hfl : full.length = sl.length := fill_length sl pos
  have htl : ts.length = sl.length := by rw [terms_length hts, hfl]
  rw [htl] at hpm
  obtain ⟨O0, hO0, hO0l, hperm0, hpml⟩ := perm_spec hk hsl hok hposok hpm (t := shapes) (param := pos.map Prod.snd) (by simp) hk (by
    rw [sameStruct_iff])
  rw [hop] at hO0
  cases hO0
  have hpmn : pm.Perm (List.range sl.length) := by
    have := hperm0.map Prod.fst
    rwa [List.map_fst_zip (by rw [hpml]), List.map_fst_zip (by rw [List.length_range, hfl])] at this
  set psh := pos.map Prod.snd with hpsh
  set subs := pm.map fun i => ts.getD i [] with hsubs
  have hsubts : subs.Perm ts := by
    have h1 := hpmn.map fun i => ts.getD i []
    have h2 : (List.range sl.length).map (fun i => ts.getD i []) = ts := by
      refine List.ext_getElem (by simp [htl]) fun i h1 h2 => ?_
      rw [List.getElem_map, List.getElem_range, List.getD_eq_getElem?_getD, List.getElem?_eq_getElem h2]
      rfl
    rwa [h2] at h1
  have hsubl : subs.length = psh.toList.length + (jaxLeaves shapes).length := by rw [hsubs, List.length_map, hpml, List.length_append]
  have hm1 : psh.toList.length ≤ 1 := by cases psh <;> simp
  have hN : sl.length = psh.toList.length + (jaxLeaves shapes).length := by rw [← hsubl, hsubs, List.length_map, hpmn.length_eq, List.length_range]
  have hNpos : 0 < (jaxLeaves shapes).length := List.length_pos_iff.2 hne
  have hX : List.Forall₂ (fun i x => full[i]? = some x) pm (psh.toList ++ jaxLeaves shapes) := by
    rw [List.forall₂_iff_zip]
    refine ⟨hpml, fun {i x} hix => ?_⟩
    have := hperm0.subset hix
    rw [← hfl] at this
    exact mem_range_zip.1 this
  have hterm : ∀ {i x}, full[i]? = some x → term i x = .ok (ts.getD i []) := by
    intro i x hi
    obtain ⟨t, h1, h2⟩ := terms_get hts hi
    rw [Nat.zero_add] at h2
    rw [List.getD_eq_getElem?_getD, h1]
    exact h2
  set ls := subs.take psh.toList.length with hls
  set is := subs.drop psh.toList.length with his
  have hlsis : ls ++ is = subs := List.take_append_drop _ _
  have hlsl : ls.length = psh.toList.length := by rw [hls, List.length_take, hsubl]; omega
  have hisl : is.length = (jaxLeaves shapes).length := by rw [his, List.length_drop, hsubl]; omega
  have hisne : is ≠ [] := by rw [← List.length_pos_iff, hisl]; exact hNpos
  have htmem : ∀ t ∈ subs, ∃ i x, term i x = .ok t := by
    intro t ht
    obtain ⟨j, hj⟩ := List.mem_iff_getElem?.1 (hsubts.subset ht)
    have hjl : j < full.length := by rw [hfl, ← htl]; exact (List.getElem?_eq_some_iff.1 hj).1
    have := hterm (List.getElem?_eq_getElem hjl)
    rw [List.getD_eq_getElem?_getD, hj] at this
    exact ⟨_, _, this⟩
  have htne : ∀ t ∈ subs, t ≠ [] := by
    intro t ht
    obtain ⟨i, x, h1⟩ := htmem t ht
    rcases term_ok h1 with ⟨_, _, rfl⟩ | ⟨_, _, rfl⟩ <;> simp
  have hlet : ∀ x ∈ subs.flatten, x ∈ letters.take (sl.length + 1) := by
    intro x hx
    have h1 := terms_mem hts x (hsubts.flatten.subset hx)
    rwa [Nat.zero_add, hfl] at h1
  have halpha : ∀ t ∈ subs, ∀ x ∈ t, x.isAlpha = true := fun t ht x hx =>
    mem_letters.1 (List.mem_of_mem_take (hlet x (List.mem_flatten.2 ⟨t, ht, hx⟩)))
  have hsubscr : Subscripts ls is Option.none := by
    refine ⟨fun t ht => halpha t (hlsis ▸ List.mem_append_left _ ht), fun t ht => halpha t (hlsis ▸ List.mem_append_right _ ht), fun _ h => (by cases h), hisne, .inr ?_⟩
    cases his' : is with
    | nil => exact absurd his' hisne
    | cons t r => exact htne t (hlsis ▸ List.mem_append_right _ (his' ▸ by simp))
  have hcomma : ∀ t ∈ ls ++ is, ',' ∉ t := by
    intro t ht hc
    have := halpha t (hlsis ▸ ht) _ hc
    revert this
    decide
  have hio := Props.isOutput_inferred ls is hcomma
  set out := inferOutput (joinWith ',' (ls ++ is)) with hout
  have hoc : ∀ x, x ∈ out ↔ subs.flatten.count x = 1 := fun x => by rw [← hlsis]; exact hio.2.2 x
  have houtsub : ∀ x ∈ out, x ∈ subs.flatten := fun x hx => List.count_pos_iff.1 (by rw [(hoc x).1 hx]; omega)
  have hfree : ∃ b : Char, b.isAlpha = true ∧ b ∉ (ls ++ is).flatten ∧ b ∉ out := by
    obtain ⟨b, hb1, hb2⟩ := Props.free_letter (s := subs.flatten) (by
      have h1 := (List.Nodup.subperm (List.nodup_dedup subs.flatten) fun x hx => hlet x (List.mem_dedup.1 hx)).length_le
      rw [List.length_take] at h1
      omega)
    exact ⟨b, hb1, by rwa [hlsis], fun hb => hb2 (houtsub b hb)⟩
  have hr : List.Forall₂ (fun s sh => s.length = sh.length) is (jaxLeaves shapes) := by
    have h1 := List.forall₂_drop psh.toList.length hX
    rw [List.drop_left] at h1
    rw [his, hsubs, ← List.map_drop, List.forall₂_map_left_iff, List.forall₂_iff_zip]
    refine ⟨h1.length_eq, fun {i x} hix => ?_⟩
    have h2 := hterm ((List.forall₂_iff_zip.1 h1).2 hix)
    have h3 := hrank x (List.of_mem_zip hix).2
    rcases term_ok h2 with ⟨h4, _, e⟩ | ⟨h4, _, e⟩
    · rw [e, h4]; rfl
    · rw [e, h3.resolve_right h4]; rfl
  have hconc := Props.C62_string hsubscr hio hr hfree
  have htext : text (ls ++ is) Option.none = joinWith ',' subs := by rw [hlsis]; simp [text]
  rw [htext] at hconc
  have hparr : (∀ x, p = some x → ∃ k, pos = some (k, x.shape)) := by
    rintro x rfl
    exact paramPos_given hpos
  have hls0 : ls = [] → psh = Option.none := by
    intro e
    rw [e] at hlsl
    cases hc : psh with
    | none => rfl
    | some x => rw [hc] at hlsl; cases hlsl
  obtain ⟨f, hf1, hf2, hf3, hf4⟩ := Props.C62_sizes hconc hisne hisl (q := toParams p) (by
    intro e
    cases p with
    | none => rfl
    | some x =>
      obtain ⟨k, hk⟩ := hparr x rfl
      have := hls0 e
      rw [hpsh, hk] at this
      cases this) hq
  have hpshls : psh.toList = ls.map fun s => s.map f := by
    cases hpc : pos with
    | none =>
      have e : psh = Option.none := by rw [hpsh, hpc]; rfl
      rw [e] at hlsl ⊢
      rw [List.length_eq_zero_iff.1 hlsl]
      rfl
    | some pr =>
      obtain ⟨k, sh⟩ := pr
      have e : psh = some sh := by rw [hpsh, hpc]; rfl
      cases hp : p with
      | some x =>
        obtain ⟨k', hk'⟩ := hparr x hp
        rw [hpc] at hk'
        cases hk'
        subst hp
        rw [compile_arr hq] at hf3
        rw [e, ← hf3]
        rfl
      | none =>
        subst hp
        rw [hpc] at hpos hposok hpm hf2
        have hh := perm_head hsl hposok hpm
        obtain ⟨pm', rfl⟩ : ∃ pm', pm = k :: pm' := by
          cases pm with
          | nil => cases hh
          | cons a pm' => cases hh; exact ⟨pm', rfl⟩
        have hls' : ls = [ts.getD k []] := by
          rw [hls, hsubs, e]
          rfl
        rw [hls', e]
        rw [e] at hX
        have hfk : full[k]? = some sh := by
          cases hX with
          | cons h _ => exact h
        have := sizes_lookup (hterm hfk) (paramPos_new hpos) hf2
        simp only [Option.toList_some, List.map_cons, List.map_nil]
        rw [← this]
  have hX0 : (psh.toList ++ jaxLeaves shapes).map id = pm.map fun i => (ts.getD i []).map f := by
    rw [List.map_id, hpshls, hf1, ← List.map_append, hlsis, hsubs, List.map_map]
    rfl
  have hfullts : full = ts.map fun s => s.map f := by
    have h1 := unperm hperm0 hfl hX0
    rw [List.map_id] at h1
    rw [h1]
    refine List.ext_getElem (by simp [htl]) fun i h2 h3 => ?_
    rw [List.getElem_map, List.getElem_range, List.getElem_map, List.getD_eq_getElem?_getD, List.getElem?_eq_getElem (by simpa using h3)]
    rfl
  have hfne : full ≠ [] := by
    intro e
    rw [e] at hfl
    simp only [List.length_nil] at hfl
    omega
  have hdrop : ∀ sh ∈ full.dropLast, sh.length = 2 := by
    intro sh hsh
    obtain ⟨j, hj⟩ := List.mem_iff_getElem?.1 hsh
    have hjl : j < full.length - 1 := by
      have := (List.getElem?_eq_some_iff.1 hj).1
      rwa [List.length_dropLast] at this
    have hj' : full[j]? = some sh := by
      rw [List.dropLast_eq_take, List.getElem?_take_of_lt hjl] at hj
      exact hj
    have hv := List.all_eq_true.1 hvec j (List.mem_range.2 (by omega))
    rw [List.getD_eq_getElem?_getD, hj'] at hv
    simp only [Option.getD_some, ne_eq, Bool.or_eq_true, decide_eq_true_eq] at hv
    have hv1 : sh.length ≠ 1 := hv.resolve_right (by omega)
    have h2 := hterm hj'
    rcases term_ok h2 with ⟨h4, _, _⟩ | ⟨h4, _, e⟩
    · exact h4
    · exfalso
      rw [hfullts, List.getElem?_map] at hj'
      rw [List.getD_eq_getElem?_getD] at e
      cases ht : ts[j]? with
      | none => rw [ht] at hj'; cases hj'
      | some t =>
        rw [ht] at hj' e
        cases hj'
        simp only [Option.getD_some] at e
        rw [e] at hv1
        exact hv1 rfl
  have hchain := terms_chain hfne hts hdrop
  rw [List.drop_zero] at hchain
  obtain ⟨cs, hcs⟩ : ∃ cs, letters.take full.length = 'a' :: cs := by
    obtain ⟨m, hm⟩ : ∃ m, full.length = m + 1 := ⟨full.length - 1, by have := List.length_pos_iff.2 hfne; omega⟩
    rw [hm]
    exact ⟨_, rfl⟩
  rw [hcs] at hchain
  have hfl50 : full.length ≤ 50 := by omega
  set e := lastIndex 0 full with he
  have hen : e.Nodup := by
    rw [he, lastIndex]
    split <;> simp
  have hndcs : ('a' :: cs).Nodup := by rw [← hcs]; exact letters_nodup.sublist (List.take_sublist _ _)
  have hedis : ∀ x ∈ e, x ∉ 'a' :: cs := by
    intro x hx hx'
    rw [he, lastIndex] at hx
    split at hx
    · rw [Nat.zero_add, List.getD_eq_getElem?_getD, List.getElem?_eq_getElem (by rw [letters_length]; omega), List.mem_singleton] at hx
      rw [← hcs, List.mem_take_iff_getElem] at hx'
      obtain ⟨j, hj, e2⟩ := hx'
      rw [hx] at e2
      have := (List.Nodup.getElem_inj_iff letters_nodup).1 e2
      omega
    · cases hx
  have hcount : ∀ x, subs.flatten.count x = if x = 'a' then 1 else if x ∈ cs then 2 else if x ∈ e then 1 else 0 := by
    intro x
    rw [hsubts.flatten.count_eq, hchain, chain_count hen x hndcs hedis]
  have houtp : out.Perm ('a' :: e) := by
    refine (List.perm_ext_iff_of_nodup hio.2.1 (List.nodup_cons.2 ⟨fun ha => hedis _ ha (by simp), hen⟩)).2 fun x => ?_
    rw [hoc, hcount, List.mem_cons]
    by_cases h1 : x = 'a'
    · simp [h1]
    · by_cases h2 : x ∈ cs
      · have : x ∉ e := fun h3 => hedis x h3 (List.mem_cons_of_mem _ h2)
        simp [h1, h2, this]
      · simp [h1, h2]
  have hqarr : q.arrays = q.arrays.head?.toList := by
    have h1 : q.arrays.length ≤ 1 := by
      have := congrArg List.length hf3
      rw [List.length_map, List.length_map, hlsl] at this
      omega
    cases hqa : q.arrays with
    | nil => rfl
    | cons x r =>
      rw [hqa] at h1
      cases r with
      | nil => rfl
      | cons _ _ => simp at h1
  have hqsh : q.arrays.head?.map NArr.shape = psh := by
    rw [← hpshls, hqarr] at hf3
    cases hqa : q.arrays.head? with
    | none => rw [hqa] at hf3; cases hps : psh with
      | none => rfl
      | some x => rw [hps] at hf3; cases hf3
    | some y => rw [hqa] at hf3; cases hps : psh with
      | none => rw [hps] at hf3; cases hf3
      | some x => rw [hps] at hf3; simp only [Option.toList_some, List.map_cons, List.map_nil, List.cons.injEq, and_true] at hf3; simp [hf3]
  have habs : q.absent = false → ls ≠ [] := by
    intro hab hl
    rw [hl] at hf3
    cases q with
    | none => cases hab
    | arr x => simp [Params.arrays] at hf3
    | tuple xs => cases xs with
      | nil => cases hab
      | cons _ _ => simp [Params.arrays] at hf3
  refine ⟨full, cs, out, f, ?_, hcs, ?_, hio.1, houtp, hfl50, ?_, ?_, hchk, ?_, ?_, ?_, ⟨ls, is, hconc, hisne, hf1, hf3, habs, hio.2.1, fun x hx => by rw [hlsis]; exact houtsub x hx⟩, ?_⟩
  · rw [hqsh]; exact hop
  · rw [← hchain]; exact hfullts
  · rw [hfl, hN, ← hqsh, hqarr]
    cases q.arrays.head? <;> rfl
  · rw [hqarr]
    cases q.arrays.head? <;> simp
  · unfold Matmul.outputShape
    rw [hplan]
    exact hf4
  · rintro x rfl
    rw [compile_arr hq]
    rfl
  · rintro rfl htr
    have : psh = Option.none := by
      rw [hpsh]
      unfold paramPos at hpos
      simp only [Option.map_none, htr, Bool.false_eq_true, if_false] at hpos
      split at hpos
      · cases hpos
      · cases hpos; rfl
    rw [this] at hqsh
    rw [hqarr]
    cases hqa : q.arrays.head? with
    | none => rfl
    | some y => rw [hqa] at hqsh; cases hqsh
  · intro B data hkd hsd hdsh
    obtain ⟨y, hy1, hy2, hy3⟩ := Props.C62_call hconc hisne hf1 hf3 habs hio.2.1 (fun x hx => by rw [hlsis]; exact houtsub x hx) hdsh
    refine ⟨y, hy1, hy2, fun b => ?_⟩
    have hparam : q.arrays.head?.isSome = pos.isSome := by
      have := congrArg Option.isSome hqsh
      rw [Option.isSome_map, hpsh, Option.isSome_map] at this
      exact this
    obtain ⟨O, hO1, hO2, hO3, hO4⟩ := perm_spec hk hsl hok hposok hpm (t := map (sampleOf b) data) (param := q.arrays.head?) hparam ((keysOk_map _ _).2 hkd) (by
      rw [sameStruct_iff] at hsd ⊢
      rw [Tree.norm_map, map_map]
      exact hsd)
    refine ⟨O, hO1, fun i hi => ?_⟩
    rw [hy3 b i hi]
    rw [← hqarr, jaxLeaves_map] at hO3 hO4
    set X := q.arrays ++ (jaxLeaves data).map (sampleOf b) with hXdef
    have hXsh : X.map NArr.shape = pm.map fun i => (ts.getD i []).map f := by
      have h1 : ((jaxLeaves data).map (sampleOf b)).map NArr.shape = jaxLeaves shapes := by
        have h2 := congrArg (List.map List.tail) hdsh
        rw [List.map_map, List.map_map] at h2
        rw [List.map_map]
        refine Eq.trans (Eq.trans ?_ h2) ?_
        · rfl
        · conv_rhs => rw [← List.map_id (jaxLeaves shapes)]
          rfl
      rw [hXdef, List.map_append, h1, hf3, ← hpshls, ← hX0, List.map_id]
    have hops : (ls.zip (q.arrays.map NArr.val) ++ is.zip ((jaxLeaves data).map fun x j => x.val (b :: j))).Perm (ts.zip (O.map NArr.val)) := by
      have h1 : ls.zip (q.arrays.map NArr.val) ++ is.zip ((jaxLeaves data).map fun x j => x.val (b :: j)) = subs.zip (X.map NArr.val) := by
        rw [← List.zip_append (by
          have := congrArg List.length hf3
          rw [List.length_map, List.length_map] at this
          rw [List.length_map, this]), hlsis, hXdef, List.map_append, List.map_map]
        rfl
      rw [h1, hsubs, List.zip_map]
      have h2 := hO3.map (Prod.map (fun i => ts.getD i []) NArr.val)
      rw [← List.zip_map (l₁ := List.range sl.length)] at h2
      have h3 : (List.range sl.length).map (fun i => ts.getD i []) = ts := by
        refine List.ext_getElem (by simp [htl]) fun i h1 h2 => ?_
        rw [List.getElem_map, List.getElem_range, List.getD_eq_getElem?_getD, List.getElem?_eq_getElem h2]
        rfl
      rwa [h3] at h2
    rw [entry_perm hops hi]
    have hOsh : O.map NArr.shape = (chainSubs e ('a' :: cs)).map fun s => s.map f := by
      rw [unperm hO3 hO2 hXsh, ← hchain]
      refine List.ext_getElem (by simp [htl]) fun i h2 h3 => ?_
      rw [List.getElem_map, List.getElem_range, List.getElem_map, List.getD_eq_getElem?_getD, List.getElem?_eq_getElem (by simpa using h3)]
      rfl
    rw [hchain]
    exact chain_entry hen hndcs hedis hOsh houtp hi

end Verif.Matmul
