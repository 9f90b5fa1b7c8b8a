import Verif.Lemmas.ConnOuter

namespace Verif

section GroupPerm
variable {κ ι : Type} [DecidableEq κ]

theorem dictAppend_perm (d : List (κ × List ι)) (k : κ) (x : ι) :
    ((dictAppend d k x).flatMap Prod.snd).Perm (d.flatMap Prod.snd ++ [x]) := by
  induction d with
  | nil => simp [dictAppend]
  | cons e d ih =>
    obtain ⟨k', xs⟩ := e
    simp only [dictAppend]
    split
    · simp only [List.flatMap_cons]
      have : (xs ++ [x] ++ d.flatMap Prod.snd).Perm (xs ++ (d.flatMap Prod.snd ++ [x])) := by
        rw [List.append_assoc]
        exact List.Perm.append_left _ List.perm_append_comm
      simpa [List.append_assoc] using this
    · simp only [List.flatMap_cons, List.append_assoc]
      exact ih.append_left _

/-- The groups together hold exactly the items. -/
theorem groupItems_perm (key : ι → κ) (items : List ι) : ((groupItems key items).flatMap Prod.snd).Perm items := by
  have : ∀ (items : List ι) (d : List (κ × List ι)),
      ((items.foldl (fun d x => dictAppend d (key x) x) d).flatMap Prod.snd).Perm (d.flatMap Prod.snd ++ items) := by
    intro items
    induction items with
    | nil => intro d; simp
    | cons x items ih =>
      intro d
      rw [List.foldl_cons]
      refine (ih _).trans ?_
      have := (dictAppend_perm d (key x) x).append_right items
      simpa using this
  simpa [groupItems] using this items []

theorem dictAppend_map {ι' : Type} (φ : ι → ι') (d : List (κ × List ι)) (k : κ) (x : ι) :
    dictAppend (d.map fun g => (g.1, g.2.map φ)) k (φ x) = (dictAppend d k x).map fun g => (g.1, g.2.map φ) := by
  induction d with
  | nil => rfl
  | cons e d ih =>
    obtain ⟨k', xs⟩ := e
    simp only [List.map_cons, dictAppend, ih]
    split <;> simp

theorem groupItems_map {ι' : Type} (φ : ι → ι') (key : ι' → κ) (items : List ι) :
    groupItems key (items.map φ) = (groupItems (fun x => key (φ x)) items).map fun g => (g.1, g.2.map φ) := by
  have : ∀ (items : List ι) (d : List (κ × List ι)),
      (items.map φ).foldl (fun d x => dictAppend d (key x) x) (d.map fun g => (g.1, g.2.map φ)) =
      (items.foldl (fun d x => dictAppend d (key (φ x)) x) d).map fun g => (g.1, g.2.map φ) := by
    intro items
    induction items with
    | nil => intro d; rfl
    | cons x items ih =>
      intro d
      rw [List.map_cons, List.foldl_cons, List.foldl_cons, dictAppend_map, ih]
  exact this items []

end GroupPerm

namespace Conn
open TreeSpec ConnSpec PathSpec

theorem numberDups_id (cfg : Cfg) (all : List Str) (hn : all.Nodup) (seen l : List Str) (h : l ⊆ all) :
    numberDups cfg all seen l = l := by
  induction l generalizing seen with
  | nil => rfl
  | cons p l ih =>
    have hc : ¬ all.count p > 1 := by
      have := List.nodup_iff_count.1 hn p
      omega
    simp only [numberDups, hc, if_false]
    rw [ih _ (fun x hx => h (List.mem_cons_of_mem _ hx))]

theorem prefixFree_nodup {ps : List (List Str)} (h : PrefixFree ps) : ps.Nodup := by
  refine List.Pairwise.imp ?_ h
  rintro a b ⟨h1, -⟩ rfl
  exact h1 List.prefix_rfl

theorem ofNat_ne_nil (n : Nat) : ofNat n ≠ [] := by
  unfold ofNat; exact Nat.toDigits_ne_nil

theorem ofNat_isDigit (n : Nat) : ∀ c ∈ ofNat n, c.isDigit = true := by
  intro c hc
  exact Nat.isDigit_of_mem_toDigits (by omega) (by omega) hc

/-- Concretising the inner paths of one outer path. -/
theorem concreteInner_eq {cfg : Cfg} {fresh : Nat → Nat → Str} (hsep : cfg.sep.isDigit = false)
    (hfresh : ∀ c i, fresh c i ≠ [] ∧ cfg.sep ∉ fresh c i)
    (rs : List (List Str)) (hr : ∀ r ∈ rs, Comps cfg.sep r) (hne : rs ≠ []) :
    ∃ ps, concreteInner cfg fresh (rs.map (joinWith cfg.sep)) = .ok (ps.map (joinWith cfg.sep)) ∧
      numberDups cfg (ps.map (joinWith cfg.sep)) [] (ps.map (joinWith cfg.sep)) = ps.map (joinWith cfg.sep) ∧
      Extends rs ps ∧ PrefixFree ps ∧ (∀ p ∈ ps, Comps cfg.sep p) ∧
      (∀ P : Str → Prop, (∀ n, P (ofNat n)) → (∀ c i, P (fresh c i)) →
        (∀ o ∈ rs, ∀ k ∈ o, P k) → ∀ p ∈ ps, ∀ k ∈ p, P k) ∧
      ((∀ c i, ∀ o ∈ rs, fresh c i ∉ o) → ∀ (i : Nat) (o : List Str), rs[i]? = some o →
        (∀ (j : Nat) (q : List Str), j ≠ i → rs[j]? = some q → ¬ o <+: q) → ps[i]? = some o) := by
  obtain ⟨ps, h1, h2, h3⟩ := Concretize.concretize_run fresh rs hne
  have e : (rs.map (joinWith cfg.sep)).map (fun p => if p = [] then [] else splitOn cfg.sep p) = rs := by
    rw [List.map_map]
    conv => rhs; rw [← List.map_id rs]
    refine List.map_congr_left fun r hrm => ?_
    exact splitInner (hr r hrm)
  have hcomps : ∀ p ∈ ps, Comps cfg.sep p := by
    refine h2.pred (fun w => w ≠ [] ∧ cfg.sep ∉ w) ?_ hfresh hr
    intro n
    refine ⟨ofNat_ne_nil n, fun hc => ?_⟩
    have := ofNat_isDigit n _ hc
    rw [hsep] at this; simp at this
  refine ⟨ps, by simp [concreteInner, e, h1], ?_, ⟨h2.len, fun i p q hp hq => (h2.ext i p q hp hq).1⟩, h3, hcomps,
    h2.pred, fun hfr i o ho hl => (h2.lone hfr i o ho hl).1⟩
  refine numberDups_id cfg _ ?_ _ _ (List.Subset.refl _)
  unfold List.Nodup
  rw [List.pairwise_map]
  have hnd := prefixFree_nodup h3
  exact List.Pairwise.imp_of_mem (fun {a b} ha hb hab e => hab (join_inj (hcomps a ha) (hcomps b hb) e)) hnd

variable {β : Type}

theorem itemsOf_eq {cfg : Cfg} (ek : Str → Str) (gm gr : Str → List Str)
    (conn : List (Str × List Str))
    (hv : ∀ kv ∈ conn, ∀ v ∈ kv.2, Comps cfg.sep (gm v) ∧ Comps cfg.sep (gr v)) :
    itemsOf cfg (conn.map fun kv => (ek kv.1, kv.2.map fun v => enc cfg.sep (gm v) (gr v))) =
      .ok ((edges conn).map fun e => (joinWith cfg.sep (gm e.2), joinWith cfg.sep (gr e.2), ek e.1)) := by
  induction conn with
  | nil => rfl
  | cons kv conn ih =>
    obtain ⟨key, vs⟩ := kv
    have h1 : (vs.map fun v => enc cfg.sep (gm v) (gr v)).mapM (unpack cfg.sep) =
        .ok (vs.map fun v => (joinWith cfg.sep (gm v), joinWith cfg.sep (gr v))) := by
      have : ∀ l : List Str, (∀ v ∈ l, Comps cfg.sep (gm v) ∧ Comps cfg.sep (gr v)) →
          (l.map fun v => enc cfg.sep (gm v) (gr v)).mapM (unpack cfg.sep) =
          .ok (l.map fun v => (joinWith cfg.sep (gm v), joinWith cfg.sep (gr v))) := by
        intro l
        induction l with
        | nil => intro _; rfl
        | cons v l ihl =>
          intro h
          obtain ⟨c1, c2⟩ := h v (by simp)
          rw [List.map_cons, List.mapM_cons, unpack_enc c1 c2, ihl (fun x hx => h x (List.mem_cons_of_mem _ hx))]
          rfl
      exact this vs (hv (key, vs) (by simp))
    simp only [List.map_cons, itemsOf, h1, ih (fun kv h => hv kv (List.mem_cons_of_mem _ h))]
    simp [edges, List.flatMap_cons, List.map_map, Function.comp_def]

/-- A correspondence between requested and concrete edges: key, requested target, concrete target (components). -/
structure Triple where
  key : Str
  req : Str
  mod : List Str
  inner : List Str

/-- What is known about one outer path after `rebuildGroup`. -/
structure GroupOK (cfg : Cfg) (tree : Tree β) (ek : Str → Str) (Q bad : Str → Prop) (es : List (Str × Str))
    (out : List (Str × Str)) (T : List Triple) : Prop where
  req : T.map (fun t => (t.key, t.req)) = es
  out : T.map (fun t => (ek t.key, enc cfg.sep t.mod t.inner)) = out
  ext : ∀ t ∈ T, ∃ r, Target cfg tree t.req t.mod r ∧ r <+: t.inner
  comps : ∀ t ∈ T, Comps cfg.sep t.mod ∧ Comps cfg.sep t.inner ∧
    ((∀ e ∈ es, ∀ k ∈ splitOn cfg.sep e.2, Q k) → ∀ k ∈ t.mod ++ t.inner, Q k)
  free : PrefixFree (T.map fun t => t.mod ++ t.inner)
  lone : (∀ e ∈ es, ∀ k ∈ splitOn cfg.sep e.2, ¬ bad k) → ∀ (i : Nat) (t : Triple), T[i]? = some t →
    (∀ (j : Nat) (t' : Triple), j ≠ i → T[j]? = some t' → ¬ splitOn cfg.sep t.req <+: splitOn cfg.sep t'.req) →
    t.mod ++ t.inner = splitOn cfg.sep t.req

theorem rebuildGroup_eq {cfg : Cfg} {tree : Tree β} {fresh : Nat → Nat → Str} (hsep : cfg.sep.isDigit = false)
    (hfresh : ∀ c i, fresh c i ≠ [] ∧ cfg.sep ∉ fresh c i) (Q : Str → Prop) (hQn : ∀ n, Q (ofNat n))
    (hQf : ∀ c i, Q (fresh c i)) (bad : Str → Prop) (hbad : ∀ c i, bad (fresh c i)) (ek : Str → Str) (m : List Str) (gr : Str → List Str) (es : List (Str × Str))
    (hne : es ≠ []) (ht : ∀ e ∈ es, Target cfg tree e.2 m (gr e.2)) :
    ∃ out T, rebuildGroup cfg fresh (joinWith cfg.sep m)
        (es.map fun e => (joinWith cfg.sep m, joinWith cfg.sep (gr e.2), ek e.1)) = .ok out ∧
      GroupOK cfg tree ek Q bad es out T ∧ (∀ t ∈ T, t.mod = m) := by
  have hc : ∀ e ∈ es, Comps cfg.sep (m ++ gr e.2) := fun e he => comps_of_split (ht e he).1 (ht e he).2.1
  obtain ⟨ps, h1, h2, hext, hfree, hcomps, hpred, hlone⟩ := concreteInner_eq hsep hfresh (es.map fun e => gr e.2)
    (by intro r hr; obtain ⟨e, he, rfl⟩ := List.mem_map.1 hr; exact (hc e he).right) (by simpa using hne)
  have hlen : ps.length = es.length := by rw [hext.1]; simp
  refine ⟨List.zipWith (fun p (e : Str × Str) => (ek e.1, enc cfg.sep m p)) ps es,
    List.zipWith (fun p (e : Str × Str) => ⟨e.1, e.2, m, p⟩) ps es, ?_, ⟨?_, ?_, ?_, ?_, ?_, ?_⟩, ?_⟩
  · unfold rebuildGroup
    rw [show (es.map fun e => (joinWith cfg.sep m, joinWith cfg.sep (gr e.2), ek e.1)).map (fun it : Item => it.2.1)
      = (es.map fun e => gr e.2).map (joinWith cfg.sep) from by simp [List.map_map, Function.comp_def], h1]
    simp only [h2, List.zipWith_map]
    rfl
  · rw [List.map_zipWith]
    simp only
    apply List.ext_getElem
    · simp [hlen]
    · intro i h3 h4; simp
  · rw [List.map_zipWith]
  · intro t htm
    obtain ⟨i, hi, rfl⟩ := List.mem_iff_getElem.1 htm
    simp only [List.length_zipWith] at hi
    simp only [List.getElem_zipWith]
    refine ⟨_, ht _ (List.getElem_mem _), ?_⟩
    refine hext.2 i _ _ ?_ (List.getElem?_eq_getElem (by omega))
    rw [List.getElem?_map, List.getElem?_eq_getElem (by omega)]
    rfl
  · intro t htm
    obtain ⟨i, hi, rfl⟩ := List.mem_iff_getElem.1 htm
    simp only [List.length_zipWith] at hi
    simp only [List.getElem_zipWith]
    refine ⟨(hc _ (List.getElem_mem (l := es) (n := i) (by omega))).left, hcomps _ (List.getElem_mem _), ?_⟩
    intro hQ k hk
    rcases List.mem_append.1 hk with hk | hk
    · refine hQ _ (List.getElem_mem (l := es) (n := i) (by omega)) k ?_
      rw [(ht _ (List.getElem_mem _)).1]
      exact List.mem_append_left _ hk
    · refine hpred Q hQn hQf ?_ _ (List.getElem_mem _) k hk
      intro o ho k' hk'
      obtain ⟨e, he, rfl⟩ := List.mem_map.1 ho
      refine hQ e he k' ?_
      rw [(ht e he).1]
      exact List.mem_append_right _ hk'
  · have : (List.zipWith (fun p (e : Str × Str) => (⟨e.1, e.2, m, p⟩ : Triple)) ps es).map
        (fun t => t.mod ++ t.inner) = ps.map (m ++ ·) := by
      rw [List.map_zipWith]
      apply List.ext_getElem
      · simp [hlen]
      · intro i h3 h4; simp
    rw [this]
    unfold PrefixFree
    rw [List.pairwise_map]
    exact List.Pairwise.imp (fun {a b} h => ⟨fun h' => h.1 ((List.prefix_append_right_inj m).1 h'),
      fun h' => h.2 ((List.prefix_append_right_inj m).1 h')⟩) hfree
  · intro hb i t hti hl
    have hi : i < es.length := by
      have := (List.getElem?_eq_some_iff.1 hti).1
      simp only [List.length_zipWith] at this; omega
    obtain ⟨_, rfl⟩ := List.getElem?_eq_some_iff.1 hti
    simp only [List.getElem_zipWith] at hl ⊢
    have hsp : ∀ (j : Nat) (hj : j < es.length), splitOn cfg.sep es[j].2 = m ++ gr es[j].2 :=
      fun j hj => (ht _ (List.getElem_mem hj)).1
    have hp := hlone (by
      intro c n o ho hc
      obtain ⟨e, he, rfl⟩ := List.mem_map.1 ho
      exact hb e he _ (by rw [(ht e he).1]; exact List.mem_append_right _ hc) (hbad c n)) i (gr es[i].2)
      (by rw [List.getElem?_map, List.getElem?_eq_getElem hi]; rfl) (by
      intro j q hji hq hpre
      rw [List.getElem?_map] at hq
      have hj : j < es.length := by
        rcases Nat.lt_or_ge j es.length with h | h
        · exact h
        · rw [List.getElem?_eq_none h] at hq; simp at hq
      rw [List.getElem?_eq_getElem hj] at hq
      simp only [Option.map_some, Option.some.injEq] at hq
      subst hq
      refine hl j ⟨es[j].1, es[j].2, m, ps[j]⟩ hji ?_ ?_
      · rw [List.getElem?_zipWith, List.getElem?_eq_getElem hj, List.getElem?_eq_getElem (by omega)]
      · simp only
        rw [hsp i hi, hsp j hj]
        exact (List.prefix_append_right_inj m).2 hpre)
    rw [List.getElem?_eq_getElem (by omega)] at hp
    simp only [Option.some.injEq] at hp
    rw [hp, hsp i hi]
  · intro t htm
    obtain ⟨i, hi, rfl⟩ := List.mem_iff_getElem.1 htm
    simp

/-- Different modules (or the output) never contain each other. -/
theorem mods_free {cfg : Cfg} {tree : Tree β} {s s' : Str} {m r m' r' x x' : List Str} (h : Target cfg tree s m r)
    (h' : Target cfg tree s' m' r') (hne : m ≠ m') : ¬ m ++ x <+: m' ++ x' := by
  intro hpre
  have hp' : Proper m' := fun w hw => h'.2.1 w (List.mem_append_left _ hw)
  have hp : Proper m := fun w hw => h.2.1 w (List.mem_append_left _ hw)
  have p1 : m <+: m' ++ x' := (List.prefix_append _ _).trans hpre
  have p2 : m' <+: m' ++ x' := List.prefix_append _ _
  have hhead : m.head? = m'.head? := by
    have hm := target_ne h
    have hm' := target_ne h'
    obtain ⟨t, ht⟩ := p1
    have := congrArg List.head? ht
    rwa [head_of_split hm, head_of_split hm'] at this
  rcases h.2.2 with rfl | ⟨hm, hin, hout, b, hb⟩
  · rcases h'.2.2 with rfl | ⟨hm', hin', hout', b', hb'⟩
    · exact hne rfl
    · exact hout' (by rw [← hhead]; rfl)
  · rcases h'.2.2 with rfl | ⟨hm', hin', hout', b', hb'⟩
    · exact hout (by rw [hhead]; rfl)
    · rcases Nat.le_total m.length m'.length with hl | hl
      · exact hne (leaf_not_prefix hp' hb hb' (List.prefix_of_prefix_length_le p1 p2 hl))
      · exact hne (leaf_not_prefix hp hb' hb (List.prefix_of_prefix_length_le p2 p1 hl)).symm

theorem pairwise_append_free {ps qs : List (List Str)} (hp : PrefixFree ps) (hq : PrefixFree qs)
    (h : ∀ p ∈ ps, ∀ q ∈ qs, ¬ p <+: q ∧ ¬ q <+: p) : PrefixFree (ps ++ qs) :=
  List.pairwise_append.2 ⟨hp, hq, h⟩

/-- All outer paths together. -/
theorem groups_eq {cfg : Cfg} {tree : Tree β} {fresh : Str → Nat → Nat → Str} (hsep : cfg.sep.isDigit = false)
    (hfresh : ∀ o c i, fresh o c i ≠ [] ∧ cfg.sep ∉ fresh o c i) (Q : Str → Prop) (hQn : ∀ n, Q (ofNat n))
    (hQf : ∀ o c i, Q (fresh o c i)) (bad : Str → Prop) (hbad : ∀ o c i, bad (fresh o c i)) (ek : Str → Str) (gm gr : Str → List Str)
    (G : List (Str × List (Str × Str))) (hnd : (G.map Prod.fst).Nodup)
    (hG : ∀ g ∈ G, g.2 ≠ [] ∧ ∀ e ∈ g.2, Target cfg tree e.2 (gm e.2) (gr e.2) ∧ joinWith cfg.sep (gm e.2) = g.1) :
    ∃ outs T, (G.map fun g => (g.1, g.2.map fun e => (joinWith cfg.sep (gm e.2), joinWith cfg.sep (gr e.2), ek e.1))).mapM
        (fun g => rebuildGroup cfg (fresh g.1) g.1 g.2) = .ok outs ∧
      GroupOK cfg tree ek Q bad (G.flatMap Prod.snd) outs.flatten T ∧
      (∀ t ∈ T, joinWith cfg.sep t.mod ∈ G.map Prod.fst) := by
  induction G with
  | nil => exact ⟨[], [], rfl, ⟨rfl, rfl, by simp, by simp, List.Pairwise.nil, by simp⟩, by simp⟩
  | cons g G ih =>
    simp only [List.map_cons, List.nodup_cons] at hnd
    obtain ⟨outs, T, h1, h2, h3⟩ := ih hnd.2 (fun g hg => hG g (List.mem_cons_of_mem _ hg))
    obtain ⟨hgne, hge⟩ := hG g (List.mem_cons_self ..)
    obtain ⟨e0, he0⟩ := List.exists_mem_of_ne_nil _ hgne
    have hm : ∀ e ∈ g.2, gm e.2 = gm e0.2 := by
      intro e he
      obtain ⟨t1, j1⟩ := hge e he
      obtain ⟨t2, j2⟩ := hge e0 he0
      exact join_inj (comps_of_split t1.1 t1.2.1).left (comps_of_split t2.1 t2.2.1).left (j1.trans j2.symm)
    obtain ⟨out, T', h1', h2', h3'⟩ := rebuildGroup_eq (fresh := fresh g.1) hsep (hfresh _) Q hQn (hQf _) bad (hbad _) ek
      (gm e0.2) gr g.2 hgne (fun e he => by rw [← hm e he]; exact (hge e he).1)
    have hg1 := (hge e0 he0).2
    have hitems : (g.2.map fun e => (joinWith cfg.sep (gm e.2), joinWith cfg.sep (gr e.2), ek e.1)) =
        (g.2.map fun e => (joinWith cfg.sep (gm e0.2), joinWith cfg.sep (gr e.2), ek e.1)) :=
      List.map_congr_left fun e he => by rw [hm e he]
    rw [← hitems, hg1] at h1'
    refine ⟨out :: outs, T' ++ T, ?_, ⟨?_, ?_, ?_, ?_, ?_, ?_⟩, ?_⟩
    · rw [List.map_cons, List.mapM_cons]
      simp only
      rw [h1', h1]; rfl
    · rw [List.map_append, h2'.req, h2.req]; rfl
    · rw [List.map_append, h2'.out, h2.out]; rfl
    · intro t ht
      rcases List.mem_append.1 ht with ht | ht
      · exact h2'.ext t ht
      · exact h2.ext t ht
    · intro t ht
      rcases List.mem_append.1 ht with ht | ht
      · obtain ⟨c1, c2, c3⟩ := h2'.comps t ht
        exact ⟨c1, c2, fun hQ => c3 fun e he => hQ e (List.mem_append_left _ he)⟩
      · obtain ⟨c1, c2, c3⟩ := h2.comps t ht
        exact ⟨c1, c2, fun hQ => c3 fun e he => hQ e (List.mem_append_right _ he)⟩
    · rw [List.map_append]
      refine pairwise_append_free h2'.free h2.free ?_
      intro p hp q hq
      obtain ⟨t', ht', rfl⟩ := List.mem_map.1 hp
      obtain ⟨t, ht, rfl⟩ := List.mem_map.1 hq
      have hne : t'.mod ≠ t.mod := by
        intro e
        have := h3 t ht
        rw [← e, h3' t' ht', hg1] at this
        exact hnd.1 this
      obtain ⟨r', tg', -⟩ := h2'.ext t' ht'
      obtain ⟨r, tg, -⟩ := h2.ext t ht
      exact ⟨mods_free tg' tg hne, mods_free tg tg' (fun e => hne e.symm)⟩
    · intro hb i t hti hl
      rcases Nat.lt_or_ge i T'.length with hi | hi
      · rw [List.getElem?_append_left hi] at hti
        refine h2'.lone (fun e he => hb e (List.mem_append_left _ he)) i t hti fun j t' hj htj => hl j t' hj ?_
        rw [List.getElem?_append_left (List.getElem?_eq_some_iff.1 htj).1]; exact htj
      · rw [List.getElem?_append_right hi] at hti
        refine h2.lone (fun e he => hb e (List.mem_append_right _ he)) (i - T'.length) t hti fun j t' hj htj =>
          hl (j + T'.length) t' (by omega) ?_
        rw [List.getElem?_append_right (by omega), Nat.add_sub_cancel]; exact htj
    · intro t ht
      rcases List.mem_append.1 ht with ht | ht
      · rw [h3' t ht, hg1]; exact List.mem_cons_self ..
      · exact List.mem_cons_of_mem _ (h3 t ht)

theorem foldl_dictSet {ι γ : Type} (kf : ι → Str) (vf : ι → γ) (l : List ι) (acc : List (Str × γ))
    (hn : (l.map kf).Nodup) (hacc : ∀ x ∈ l, kf x ∉ acc.map Prod.fst) :
    l.foldl (fun d x => dictSet d (kf x) (vf x)) acc = acc ++ l.map fun x => (kf x, vf x) := by
  induction l generalizing acc with
  | nil => simp
  | cons x l ih =>
    simp only [List.map_cons, List.nodup_cons] at hn
    rw [List.foldl_cons, dictSet_new (hacc x (by simp)), ih _ hn.2 ?_]
    · simp
    · intro y hy
      simp only [List.map_append, List.map_cons, List.map_nil, List.mem_append, List.mem_singleton, not_or]
      exact ⟨hacc y (List.mem_cons_of_mem _ hy), fun e => hn.1 (e ▸ List.mem_map_of_mem hy)⟩

/-- Concretising well-formed connections. -/
theorem concretize_main {cfg : Cfg} (hcfg : GoodCfg cfg) {tree : Tree β} {fresh : Str → Nat → Nat → Str}
    (hsep : cfg.sep.isDigit = false)
    (hfresh : ∀ o c i, fresh o c i ≠ [] ∧ cfg.sep ∉ fresh o c i) (Q : Str → Prop) (hQn : ∀ n, Q (ofNat n))
    (hQf : ∀ o c i, Q (fresh o c i)) {conn : List (Str × List Str)} (hwf : WellFormed cfg tree conn) :
    ∃ R, ∃ T : List Triple, concretizeConnections cfg fresh tree conn = .ok R ∧ GraphSpec.IsDict R ∧
      (T.map fun t : Triple => (t.key, t.req)).Perm (edges conn) ∧
      (T.map fun t : Triple => (t.key, joinWith cfg.sep (t.mod ++ t.inner))).Perm (edges R) ∧
      (∀ t ∈ T, ∃ r, Target cfg tree t.req t.mod r ∧ r <+: t.inner) ∧
      (∀ t ∈ T, Comps cfg.sep t.mod ∧ Comps cfg.sep t.inner ∧
        ((∀ e ∈ edges conn, ∀ k ∈ splitOn cfg.sep e.2, Q k) → ∀ k ∈ t.mod ++ t.inner, Q k)) ∧
      PrefixFree (T.map fun t => t.mod ++ t.inner) ∧
      ((∀ e ∈ edges conn, ∀ k ∈ splitOn cfg.sep e.2, ∀ o c i, k ≠ fresh o c i) → ∀ (i : Nat) (t : Triple), T[i]? = some t →
        (∀ (j : Nat) (t' : Triple), j ≠ i → T[j]? = some t' → ¬ splitOn cfg.sep t.req <+: splitOn cfg.sep t'.req) →
        t.mod ++ t.inner = splitOn cfg.sep t.req) := by
  obtain ⟨f, g, hf, hg⟩ := wf_choose hwf
  have hpart := partition_eq hcfg f g conn hf hg hwf.keys
  have hit := itemsOf_eq (cfg := cfg) (fun k => enc cfg.sep (f k).1 (f k).2) (fun v => (g v).1) (fun v => (g v).2) conn
    (fun kv hkv v hv => by
      have := comps_of_split (hg kv hkv v hv).1 (hg kv hkv v hv).2.1
      exact ⟨this.left, this.right⟩)
  have hedge : ∀ e ∈ edges conn, (∃ vs, (e.1, vs) ∈ conn) ∧ Target cfg tree e.2 (g e.2).1 (g e.2).2 := by
    intro e he
    simp only [edges, List.mem_flatMap, List.mem_map] at he
    obtain ⟨kv, hkv, v, hv, rfl⟩ := he
    exact ⟨⟨kv.2, hkv⟩, hg kv hkv v hv⟩
  obtain ⟨hGn, hGk, hGg⟩ := groupItems_spec (fun e : Str × Str => joinWith cfg.sep (g e.2).1) (edges conn)
  have hGperm := groupItems_perm (fun e : Str × Str => joinWith cfg.sep (g e.2).1) (edges conn)
  have hgmap := groupItems_map (fun e : Str × Str =>
      ((joinWith cfg.sep (g e.2).1, joinWith cfg.sep (g e.2).2, enc cfg.sep (f e.1).1 (f e.1).2) : Item))
      (fun it : Item => it.1) (edges conn)
  simp only at hgmap
  obtain ⟨outs, T, h1, h2, -⟩ := groups_eq (tree := tree) (fresh := fresh) hsep hfresh Q hQn hQf (fun k => ∃ o c i, k = fresh o c i)
    (fun o c i => ⟨o, c, i, rfl⟩)
    (fun k => enc cfg.sep (f k).1 (f k).2) (fun v => (g v).1) (fun v => (g v).2)
    (groupItems (fun e : Str × Str => joinWith cfg.sep (g e.2).1) (edges conn)) hGn (by
      intro G hGm
      have hGe := hGg G.1 G.2 hGm
      have hk := (hGk G.1).1 (List.mem_map_of_mem (f := Prod.fst) hGm)
      refine ⟨?_, ?_⟩
      · obtain ⟨e, he, hek⟩ := hk
        intro h0
        have : e ∈ G.2 := by rw [hGe]; exact List.mem_filter.2 ⟨he, by simpa using hek⟩
        rw [h0] at this; simp at this
      · intro e he
        rw [hGe, List.mem_filter] at he
        exact ⟨(hedge e he.1).2, by simpa using he.2⟩)
  have hTperm : (T.map fun t : Triple => (t.key, t.req)).Perm (edges conn) := by rw [h2.req]; exact hGperm
  have hTkey : ∀ t ∈ T, strip cfg.sep (replaceDouble cfg.sep (enc cfg.sep (f t.key).1 (f t.key).2)) = t.key := by
    intro t ht
    have : (t.key, t.req) ∈ edges conn := hTperm.subset (List.mem_map_of_mem (f := fun t : Triple => (t.key, t.req)) ht)
    obtain ⟨⟨vs, hvs⟩, -⟩ := hedge _ this
    exact fin_source (hf _ hvs)
  have hTtgt : ∀ t ∈ T, strip cfg.sep (replaceDouble cfg.sep (enc cfg.sep t.mod t.inner))
      = joinWith cfg.sep (t.mod ++ t.inner) := by
    intro t ht
    obtain ⟨c1, c2, -⟩ := h2.comps t ht
    obtain ⟨r, tg, -⟩ := h2.ext t ht
    exact fin_enc c1 (target_ne tg) c2
  -- the final dictionary
  obtain ⟨hRn, hRk, hRg⟩ := groupItems_spec (fun e : Str × Str => e.1) outs.flatten
  have hfinKeys : ∀ G ∈ groupItems (fun e : Str × Str => e.1) outs.flatten,
      ∃ t ∈ T, G.1 = enc cfg.sep (f t.key).1 (f t.key).2 := by
    intro G hGm
    obtain ⟨e, he, hek⟩ := (hRk G.1).1 (List.mem_map_of_mem (f := Prod.fst) hGm)
    rw [← h2.out] at he
    obtain ⟨t, ht, rfl⟩ := List.mem_map.1 he
    exact ⟨t, ht, hek.symm⟩
  have hkn : ((groupItems (fun e : Str × Str => e.1) outs.flatten).map
      fun G => strip cfg.sep (replaceDouble cfg.sep G.1)).Nodup := by
    unfold List.Nodup
    rw [List.pairwise_map]
    have hRn' := hRn
    unfold List.Nodup at hRn'
    rw [List.pairwise_map] at hRn'
    refine List.Pairwise.imp_of_mem (fun {a b} ha hb hab e => ?_) hRn'
    obtain ⟨t, ht, ea⟩ := hfinKeys a ha
    obtain ⟨t', ht', eb⟩ := hfinKeys b hb
    rw [ea, eb, hTkey t ht, hTkey t' ht'] at e
    rw [ea, eb, e] at hab
    exact hab rfl
  refine ⟨(groupItems (fun e : Str × Str => e.1) outs.flatten).map fun G =>
    (strip cfg.sep (replaceDouble cfg.sep G.1), G.2.map fun e => strip cfg.sep (replaceDouble cfg.sep e.2)),
    T, ?_, ?_, hTperm, ?_, h2.ext, ?_, h2.free,
    fun hb => h2.lone fun e he k hk ⟨o, c, i, e'⟩ => hb e (hGperm.subset he) k hk o c i e'⟩
  · unfold concretizeConnections
    rw [hpart]
    simp only [hit, hgmap, h1]
    rw [foldl_dictSet (fun G : Str × List (Str × Str) => strip cfg.sep (replaceDouble cfg.sep G.1))
      (fun G => G.2.map fun e => strip cfg.sep (replaceDouble cfg.sep e.2)) _ [] hkn (by simp), List.nil_append]
  · unfold GraphSpec.IsDict
    rw [List.map_map]
    exact hkn
  · have e1 : edges ((groupItems (fun e : Str × Str => e.1) outs.flatten).map fun G =>
        (strip cfg.sep (replaceDouble cfg.sep G.1), G.2.map fun e => strip cfg.sep (replaceDouble cfg.sep e.2))) =
        ((groupItems (fun e : Str × Str => e.1) outs.flatten).flatMap Prod.snd).map fun e =>
          (strip cfg.sep (replaceDouble cfg.sep e.1), strip cfg.sep (replaceDouble cfg.sep e.2)) := by
      unfold edges
      rw [List.flatMap_map, List.map_flatMap]
      rw [List.flatMap_def, List.flatMap_def]
      congr 1
      refine List.map_congr_left fun G hGm => ?_
      simp only [List.map_map, Function.comp_def]
      refine List.map_congr_left fun e he => ?_
      rw [hRg G.1 G.2 hGm, List.mem_filter] at he
      rw [of_decide_eq_true he.2]
    rw [e1]
    have e2 : (T.map fun t : Triple => (t.key, joinWith cfg.sep (t.mod ++ t.inner))) = outs.flatten.map fun e =>
          (strip cfg.sep (replaceDouble cfg.sep e.1), strip cfg.sep (replaceDouble cfg.sep e.2)) := by
      rw [← h2.out, List.map_map]
      refine List.map_congr_left fun t ht => ?_
      simp only [Function.comp_def]
      rw [hTkey t ht, hTtgt t ht]
    rw [e2]
    exact ((groupItems_perm (fun e : Str × Str => e.1) outs.flatten).map _).symm
  · intro t ht
    obtain ⟨c1, c2, c3⟩ := h2.comps t ht
    exact ⟨c1, c2, fun hQ => c3 fun e he => hQ e (hGperm.subset he)⟩

/-- A target that no other edge equals or extends is kept. -/
theorem lone_kept {cfg : Cfg} (hcfg : GoodCfg cfg) {tree : Tree β} {fresh : Str → Nat → Nat → Str}
    (hsep : cfg.sep.isDigit = false) (hfresh : ∀ o c i, fresh o c i ≠ [] ∧ cfg.sep ∉ fresh o c i)
    {conn R : List (Str × List Str)} (hwf : WellFormed cfg tree conn)
    (hnew : ∀ e ∈ edges conn, ∀ k ∈ splitOn cfg.sep e.2, ∀ o c i, k ≠ fresh o c i)
    (hR : concretizeConnections cfg fresh tree conn = .ok R) {e : Str × Str} {rest : List (Str × Str)}
    (hp : (edges conn).Perm (e :: rest)) (hl : ∀ e' ∈ rest, ¬ splitOn cfg.sep e.2 <+: splitOn cfg.sep e'.2) :
    e ∈ edges R := by
  obtain ⟨R', T, h1, -, h3, h4, h5, h6, h7, h8⟩ :=
    concretize_main hcfg hsep hfresh (fun _ => True) (fun _ => trivial) (fun _ _ _ => trivial) hwf
  rw [hR] at h1
  cases h1
  have hq := h3.trans hp
  obtain ⟨t, ht, rfl⟩ := List.mem_map.1 (hq.symm.subset (List.mem_cons_self ..))
  obtain ⟨pre, post, rfl⟩ := List.append_of_mem ht
  have hrest : ((pre ++ post).map fun t : Triple => (t.key, t.req)).Perm rest := by
    have h9 : ((pre ++ t :: post).map fun t : Triple => (t.key, t.req)).Perm
        ((t.key, t.req) :: (pre ++ post).map fun t : Triple => (t.key, t.req)) :=
      (List.perm_middle (a := t) (l₁ := pre) (l₂ := post)).map _
    exact (List.perm_cons _).1 (h9.symm.trans hq)
  have := h8 hnew pre.length t (by simp) (by
    intro j t' hj hjt
    refine hl (t'.key, t'.req) (hrest.subset (List.mem_map.2 ⟨t', ?_, rfl⟩))
    rcases Nat.lt_or_ge j pre.length with h | h
    · rw [List.getElem?_append_left h] at hjt
      exact List.mem_append_left _ (List.mem_of_getElem? hjt)
    · rw [List.getElem?_append_right h] at hjt
      obtain ⟨n, hn⟩ : ∃ n, j - pre.length = n + 1 := ⟨j - pre.length - 1, by omega⟩
      rw [hn, List.getElem?_cons_succ] at hjt
      exact List.mem_append_right _ (List.mem_of_getElem? hjt))
  have h9 := h4.subset (List.mem_map.2 ⟨t, ht, rfl⟩)
  rw [this, joinWith_splitOn] at h9
  exact h9

end Conn
end Verif
