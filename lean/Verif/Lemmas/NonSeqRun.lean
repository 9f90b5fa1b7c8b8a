import Verif.Lemmas.NonSeqPlace

/-! The loop of a non-sequential model as a list of steps. -/

namespace Verif.Forward
open TreeSpec ConnSpec PathSpec ForwardSpec DataflowSpec Conn Tree

variable {M A σ : Type} {sep : Char}

/-- The steps of the loop: module path, module, layout of its input. -/
inductive Steps (sep : Char) (call : M → Str → Tree A → σ → Except PyErr (Tree A × σ)) :
    List (List Str × M × Tree Str) → Tree A → σ → Tree A → σ → Prop
  | nil (outs st) : Steps sep call [] outs st outs st
  | cons {m b req L outs st inp out st1 outs1 outs' st'} : assemble sep outs req = .ok inp →
      call b (joinWith sep m) inp st = .ok (out, st1) → Tree.set outs m out = .ok outs1 → Steps sep call L outs1 st1 outs' st' →
      Steps sep call ((m, b, req) :: L) outs st outs' st'

theorem mapE_iff {α β : Type} (f : α → Except PyErr β) : ∀ (l : List α) (r : List β),
    mapE f l = .ok r ↔ List.Forall₂ (fun x y => f x = .ok y) l r
  | [], r => by
    simp only [mapE, Except.ok.injEq, List.forall₂_nil_left_iff]
    exact eq_comm
  | x :: l, r => by
    simp only [mapE]
    constructor
    · intro h
      split at h
      · simp at h
      · next y hy =>
        split at h
        · simp at h
        · next ys hys =>
          simp only [Except.ok.injEq] at h
          subst h
          exact .cons hy ((mapE_iff f l ys).1 hys)
    · intro h
      cases h with
      | cons hy hys => simp only [hy, (mapE_iff f l _).2 hys]

theorem nsLoop_iff {call : M → Str → Tree A → σ → Except PyErr (Tree A × σ)} : ∀ {L : List (List Str × M × Tree Str)},
    (∀ x ∈ L, Comps sep x.1 ∧ x.1 ≠ [] ∧ reserved (joinWith sep x.1) = false) → ∀ {outs outs' : Tree A} {st st' : σ},
    nsLoop sep call (L.map fun x => (joinWith sep x.1, some x.2.1, x.2.2)) outs st = .ok (outs', st') ↔
      Steps sep call L outs st outs' st'
  | [], _, outs, outs', st, st' => by
    simp only [List.map_nil, nsLoop, Except.ok.injEq, Prod.mk.injEq]
    constructor
    · rintro ⟨rfl, rfl⟩; exact .nil _ _
    · intro h; cases h; exact ⟨rfl, rfl⟩
  | (m, b, req) :: L, hL, outs, outs', st, st' => by
    obtain ⟨hc, hne, hr⟩ := hL _ (List.mem_cons_self)
    have ih := @nsLoop_iff call L (fun x hx => hL x (List.mem_cons_of_mem _ hx))
    simp only at hc hne hr
    simp only [List.map_cons, nsLoop, hr, Bool.false_eq_true, if_false, split_join_comps hc hne]
    constructor
    · intro h
      split at h
      · simp at h
      · next inp hi =>
        split at h
        · simp at h
        · next out st1 hcall =>
          split at h
          · simp at h
          · next outs1 hset => exact .cons hi hcall hset (ih.1 h)
    · intro h
      cases h with
      | cons hi hcall hset hrest => simp only [hi, hcall, hset]; exact ih.2 hrest

variable {modules : Tree M} {conn : List (Str × List Str)} {fresh : Str → Nat → Nat → Str}

theorem comps_in (h : Names sep modules conn) : Comps sep ["input".toList] := by
  intro w hw; rw [List.mem_singleton] at hw; subst hw; exact ⟨by decide, h.inSep⟩
theorem comps_out (h : Names sep modules conn) : Comps sep ["output".toList] := by
  intro w hw; rw [List.mem_singleton] at hw; subst hw; exact ⟨by decide, h.outSep⟩

theorem reserved_false (h : Names sep modules conn) {m : List Str} (hm : IsModule (nsCfg sep) modules m) (hc : Comps sep m) :
    reserved (joinWith sep m) = false := by
  unfold reserved
  rw [Bool.or_eq_false_iff]
  constructor
  · rw [beq_eq_false_iff_ne]
    intro e
    obtain rfl := join_inj hc hm.1 (comps_in h) (by simp) e
    exact hm.2.1 rfl
  · rw [beq_eq_false_iff_ne]
    intro e
    obtain rfl := join_inj hc hm.1 (comps_out h) (by simp) e
    exact hm.2.2.1 rfl

theorem order_filter (h : Names sep modules conn) {order : List Str} {ms : List (List Str)}
    (ho : Order sep modules conn order ms) : order.filter (!reserved ·) = ms.map (joinWith sep) := by
  rw [ho.eq]
  have h1 : (ms.map (joinWith sep)).filter (!reserved ·) = ms.map (joinWith sep) := by
    rw [List.filter_eq_self]
    intro x hx
    obtain ⟨m, hm, rfl⟩ := List.mem_map.1 hx
    rw [reserved_false h ((ho.mem m).1 hm).1 (ho.comps m hm).1]
    rfl
  have r1 : (!reserved "input".toList) = false := by decide
  have r2 : (!reserved "output".toList) = false := by decide
  rw [List.cons_append, List.filter_cons, r1, List.filter_append, h1, List.filter_cons, r2]
  simp

theorem leafAt_iff {β : Type} (t : Tree β) {m : List Str} (hc : Comps sep m) (hne : m ≠ []) (b : β) :
    leafAt sep t (joinWith sep m) = .ok b ↔ get t m = .ok (.leaf b) := by
  unfold leafAt
  rw [split_join_comps hc hne]
  split
  · next e h => simp [h]
  · next c h => simp [h]
  · next t' hnot h =>
    simp only [h, Except.ok.injEq, reduceCtorEq, false_iff]
    rintro rfl
    exact hnot _ rfl

/-- The whole run. -/
structure Run (sep : Char) (fresh : Str → Nat → Nat → Str) (call : M → Str → Tree A → σ → Except PyErr (Tree A × σ))
    (modules : Tree M) (conn : List (Str × List Str)) (data : Tree A) (st : σ) (out outs' : Tree A) (st' : σ)
    (order : List Str) (ms : List (List Str)) (L : List (List Str × M × Tree Str)) (placed outPlaced : Tree Str)
    (outs : Tree A) : Prop where
  exec : execOrder sep modules conn = .ok order
  ord : Order sep modules conn order ms
  place : Conn.place (nsCfg sep) fresh modules conn = .ok (placed, outPlaced)
  paths : L.map Prod.fst = ms
  elems : ∀ x ∈ L, get modules x.1 = .ok (.leaf x.2.1) ∧ get placed x.1 = .ok x.2.2
  init : nsInit sep order data = .ok outs
  steps : Steps sep call L outs st outs' st'
  fin : assemble sep outs' outPlaced = .ok out

theorem zip_forall₂ {α β γ : Type} {p : α → β → Prop} {q : α → γ → Prop} : ∀ {l : List α} {bs : List β} {cs : List γ},
    List.Forall₂ p l bs → List.Forall₂ q l cs → ∀ x ∈ l.zip (bs.zip cs), p x.1 x.2.1 ∧ q x.1 x.2.2
  | _, _, _, .nil, .nil => by simp
  | _, _, _, .cons h1 hs1, .cons h2 hs2 => by
    intro x hx
    simp only [List.zip_cons_cons, List.mem_cons] at hx
    rcases hx with rfl | hx
    · exact ⟨h1, h2⟩
    · exact zip_forall₂ hs1 hs2 x hx

theorem forall₂_of_elems {α β γ : Type} {p : α → β → Prop} (f : γ → α) (g : γ → β) : ∀ {L : List γ}, (∀ x ∈ L, p (f x) (g x)) →
    List.Forall₂ p (L.map f) (L.map g)
  | [], _ => .nil
  | x :: L, h => .cons (h x (by simp)) (forall₂_of_elems f g fun y hy => h y (by simp [hy]))

theorem nsLoop_order {call : M → Str → Tree A → σ → Except PyErr (Tree A × σ)} {ms : List (List Str)} {mods : List M}
    {deps : List (Tree Str)} (l1 : mods.length = ms.length) (l2 : deps.length = ms.length) (outs : Tree A) (st : σ) :
    nsLoop sep call (("input".toList :: ms.map (joinWith sep) ++ ["output".toList]).zip
      ((Option.none :: mods.map some).zip (.none :: deps))) outs st =
    nsLoop sep call ((ms.zip (mods.zip deps)).map fun x => (joinWith sep x.1, some x.2.1, x.2.2)) outs st := by
  have hr : reserved "input".toList = true := by decide
  have hz : (ms.map (joinWith sep) ++ ["output".toList]).zip ((mods.map some).zip deps) =
      (ms.zip (mods.zip deps)).map fun x => (joinWith sep x.1, some x.2.1, x.2.2) := by
    have : (mods.map some).zip deps = (mods.map some).zip deps ++ [] := by simp
    rw [this, List.zip_append (by simp [l1, l2])]
    simp only [List.zip_nil_right, List.append_nil]
    rw [List.zip_map_left (l₁ := mods), List.zip_map]
    rfl
  rw [List.cons_append, List.zip_cons_cons, List.zip_cons_cons, ← hz]
  conv => lhs; rw [nsLoop.eq_def]
  simp only [hr, if_true]

theorem nsRun_iff (h : Names sep modules conn) {call : M → Str → Tree A → σ → Except PyErr (Tree A × σ)} {data out outs' : Tree A}
    {st st' : σ} : nsRun sep fresh call modules conn data st = .ok (out, outs', st') ↔
    ∃ order ms L placed outPlaced outs, Run sep fresh call modules conn data st out outs' st' order ms L placed outPlaced outs := by
  constructor
  · intro hr
    unfold nsRun at hr
    cases ho : execOrder sep modules conn with
    | error e => rw [ho] at hr; simp at hr
    | ok order =>
      rw [ho] at hr
      simp only at hr
      obtain ⟨ms, hms⟩ := order_main h ho
      have hfil := order_filter h hms
      rw [hfil] at hr
      cases hm : mapE (leafAt sep modules) (ms.map (joinWith sep)) with
      | error e => rw [hm] at hr; simp at hr
      | ok mods =>
        rw [hm] at hr
        simp only at hr
        unfold inputDeps at hr
        rw [ho] at hr
        simp only at hr
        cases hp : Conn.place (nsCfg sep) fresh modules conn with
        | error e => rw [hp] at hr; simp at hr
        | ok pl =>
          obtain ⟨placed, outPlaced⟩ := pl
          rw [hp] at hr
          simp only [hfil] at hr
          cases hd : mapE (fun p => Tree.get placed (splitOn sep p)) (ms.map (joinWith sep)) with
          | error e => rw [hd] at hr; simp at hr
          | ok deps =>
            rw [hd] at hr
            simp only at hr
            cases hi : nsInit sep order data with
            | error e => rw [hi] at hr; simp at hr
            | ok outs =>
              rw [hi] at hr
              simp only at hr
              rw [mapE_iff] at hm hd
              have l1 := hm.length_eq
              have l2 := hd.length_eq
              rw [List.length_map] at l1 l2
              conv at hr => lhs; rw [hms.eq]
              rw [nsLoop_order l1.symm l2.symm] at hr
              have hel : ∀ x ∈ ms.zip (mods.zip deps), get modules x.1 = .ok (.leaf x.2.1) ∧ get placed x.1 = .ok x.2.2 := by
                rw [List.forall₂_map_left_iff] at hm hd
                intro x hx
                have hxm : x.1 ∈ ms := (List.of_mem_zip hx).1
                obtain ⟨e1, e2⟩ := zip_forall₂ hm hd x hx
                have hc := (hms.comps _ hxm).1
                have hne := ((hms.mem _).1 hxm).1.1
                rw [leafAt_iff _ hc hne] at e1
                rw [split_join_comps hc hne] at e2
                exact ⟨e1, e2⟩
              have hcs : ∀ x ∈ ms.zip (mods.zip deps), Comps sep x.1 ∧ x.1 ≠ [] ∧ reserved (joinWith sep x.1) = false := by
                intro x hx
                have hxm : x.1 ∈ ms := (List.of_mem_zip hx).1
                have hmod := ((hms.mem _).1 hxm).1
                exact ⟨(hms.comps _ hxm).1, hmod.1, reserved_false h hmod (hms.comps _ hxm).1⟩
              split at hr
              · simp at hr
              · next outs1 st1 hl =>
                split at hr
                · simp at hr
                · next out1 hfin =>
                  simp only [Except.ok.injEq, Prod.mk.injEq] at hr
                  obtain ⟨rfl, rfl, rfl⟩ := hr
                  refine ⟨order, ms, ms.zip (mods.zip deps), placed, outPlaced, outs, ho, hms, hp, ?_, hel, hi,
                    (nsLoop_iff hcs).1 hl, hfin⟩
                  rw [List.map_fst_zip]
                  rw [List.length_zip]; omega
  · rintro ⟨order, ms, L, placed, outPlaced, outs, hr⟩
    have hfil := order_filter h hr.ord
    have hmem : ∀ x ∈ L, x.1 ∈ ms := fun x hx => by rw [← hr.paths]; exact List.mem_map_of_mem (f := Prod.fst) hx
    have hcs : ∀ x ∈ L, Comps sep x.1 ∧ x.1 ≠ [] ∧ reserved (joinWith sep x.1) = false := by
      intro x hx
      have hmod := ((hr.ord.mem _).1 (hmem x hx)).1
      exact ⟨(hr.ord.comps _ (hmem x hx)).1, hmod.1, reserved_false h hmod (hr.ord.comps _ (hmem x hx)).1⟩
    have hm : mapE (leafAt sep modules) (ms.map (joinWith sep)) = .ok (L.map fun x => x.2.1) := by
      rw [mapE_iff, ← hr.paths, List.map_map]
      refine forall₂_of_elems _ _ fun x hx => ?_
      simp only [Function.comp]
      rw [leafAt_iff _ (hcs x hx).1 (hcs x hx).2.1]
      exact (hr.elems x hx).1
    have hd : mapE (fun p => Tree.get placed (splitOn sep p)) (ms.map (joinWith sep)) = .ok (L.map fun x => x.2.2) := by
      rw [mapE_iff, ← hr.paths, List.map_map]
      refine forall₂_of_elems _ _ fun x hx => ?_
      simp only [Function.comp]
      rw [split_join_comps (hcs x hx).1 (hcs x hx).2.1]
      exact (hr.elems x hx).2
    have hz : ms.zip ((L.map fun x => x.2.1).zip (L.map fun x => x.2.2)) = L := by
      rw [← hr.paths, List.zip_map', List.zip_map']
      simp
    unfold nsRun inputDeps
    simp only [hr.exec, hfil, hm, hr.place, hd, hr.init]
    conv => lhs; rw [hr.ord.eq]
    rw [nsLoop_order (mods := L.map fun x => x.2.1) (deps := L.map fun x => x.2.2) (by rw [← hr.paths]; simp) (by rw [← hr.paths]; simp), hz, (nsLoop_iff hcs).2 hr.steps]
    simp only [hr.fin]

/-! ### Facts about steps -/

theorem Steps.split {call : M → Str → Tree A → σ → Except PyErr (Tree A × σ)} : ∀ {L1 L2 : List (List Str × M × Tree Str)}
    {outs outs' : Tree A} {st st' : σ}, Steps sep call (L1 ++ L2) outs st outs' st' →
    ∃ outs1 st1, Steps sep call L1 outs st outs1 st1 ∧ Steps sep call L2 outs1 st1 outs' st'
  | [], L2, outs, outs', st, st', h => ⟨outs, st, .nil _ _, h⟩
  | x :: L1, L2, outs, outs', st, st', h => by
    cases h with
    | cons h1 h2 h3 h4 =>
      obtain ⟨o, s, h5, h6⟩ := Steps.split h4
      exact ⟨o, s, .cons h1 h2 h3 h5, h6⟩

theorem get_set_div {β : Type} {t t' v : Tree β} {p q : List Str} (h : Tree.set t p v = .ok t') (hd : Diverge p q) (hq : Proper q) :
    get t' q = get t q := by
  obtain ⟨c, k1, r1, k2, r2, rfl, rfl, hk⟩ := hd
  exact get_set_diverge h hk hq

theorem Steps.frame {call : M → Str → Tree A → σ → Except PyErr (Tree A × σ)} {q : List Str} (hq : Proper q) :
    ∀ {L : List (List Str × M × Tree Str)} {outs outs' : Tree A} {st st' : σ}, Steps sep call L outs st outs' st' →
    (∀ x ∈ L, Diverge x.1 q) → get outs' q = get outs q := by
  intro L outs outs' st st' h
  induction h with
  | nil => intro _; rfl
  | cons h1 h2 h3 h4 ih =>
    intro hd
    rw [ih fun x hx => hd x (List.mem_cons_of_mem _ hx)]
    exact get_set_div h3 (hd _ List.mem_cons_self) hq

theorem diverge_extend {p q r : List Str} (h : Diverge p q) : Diverge p (q ++ r) := by
  obtain ⟨c, k1, r1, k2, r2, rfl, rfl, hk⟩ := h
  exact ⟨c, k1, r1, k2, r2 ++ r, rfl, by simp, hk⟩

end Verif.Forward

namespace Verif.Tree
open TreeSpec DataflowSpec

variable {A : Type}

mutual
theorem mapM_subst {g : Str → Except PyErr (Tree A)} {f : Str → Tree A} : ∀ (t : Tree Str), (∀ k ∈ leaves t, g k = .ok (f k)) →
    mapM g t = .ok (subst f t)
  | .leaf k, h => h k (by simp [leaves])
  | .none, _ => rfl
  | .list ts, h => by simp only [mapM, mapML_subst ts h, subst]
  | .tuple ts, h => by simp only [mapM, mapML_subst ts h, subst]
  | .dict kvs, h => by simp only [mapM, mapMD_subst kvs h, subst]
theorem mapML_subst {g : Str → Except PyErr (Tree A)} {f : Str → Tree A} : ∀ (ts : List (Tree Str)),
    (∀ k ∈ leavesL ts, g k = .ok (f k)) → mapML g ts = .ok (substL f ts)
  | [], _ => rfl
  | t :: ts, h => by
    simp only [mapML, mapM_subst t (fun k hk => h k (by simp [leavesL, hk])),
      mapML_subst ts (fun k hk => h k (by simp [leavesL, hk])), substL]
theorem mapMD_subst {g : Str → Except PyErr (Tree A)} {f : Str → Tree A} : ∀ (ts : List (Str × Tree Str)),
    (∀ k ∈ leavesD ts, g k = .ok (f k)) → mapMD g ts = .ok (substD f ts)
  | [], _ => rfl
  | (k', t) :: ts, h => by
    simp only [mapMD, mapM_subst t (fun k hk => h k (by simp [leavesD, hk])),
      mapMD_subst ts (fun k hk => h k (by simp [leavesD, hk])), substD]
end

mutual
theorem mapM_leaves {g : Str → Except PyErr (Tree A)} : ∀ {t : Tree Str} {u : Tree A}, mapM g t = .ok u →
    ∀ k ∈ leaves t, ∃ a, g k = .ok a
  | .leaf k, u, h => by
    intro k' hk; simp only [leaves, List.mem_singleton] at hk; subst hk; exact ⟨u, h⟩
  | .none, u, h => by simp [leaves]
  | .list ts, u, h => by
    simp only [mapM] at h
    split at h
    · next r hr => exact mapML_leaves hr
    · simp at h
  | .tuple ts, u, h => by
    simp only [mapM] at h
    split at h
    · next r hr => exact mapML_leaves hr
    · simp at h
  | .dict ts, u, h => by
    simp only [mapM] at h
    split at h
    · next r hr => exact mapMD_leaves hr
    · simp at h
theorem mapML_leaves {g : Str → Except PyErr (Tree A)} : ∀ {ts : List (Tree Str)} {u : List (Tree A)}, mapML g ts = .ok u →
    ∀ k ∈ leavesL ts, ∃ a, g k = .ok a
  | [], u, h => by simp [leavesL]
  | t :: ts, u, h => by
    simp only [mapML] at h
    split at h
    · simp at h
    · next v hv =>
      split at h
      · simp at h
      · next vs hvs =>
        intro k hk
        simp only [leavesL, List.mem_append] at hk
        rcases hk with hk | hk
        · exact mapM_leaves hv k hk
        · exact mapML_leaves hvs k hk
theorem mapMD_leaves {g : Str → Except PyErr (Tree A)} : ∀ {ts : List (Str × Tree Str)} {u : List (Str × Tree A)}, mapMD g ts = .ok u →
    ∀ k ∈ leavesD ts, ∃ a, g k = .ok a
  | [], u, h => by simp [leavesD]
  | (k', t) :: ts, u, h => by
    simp only [mapMD] at h
    split at h
    · simp at h
    · next v hv =>
      split at h
      · simp at h
      · next vs hvs =>
        intro k hk
        simp only [leavesD, List.mem_append] at hk
        rcases hk with hk | hk
        · exact mapM_leaves hv k hk
        · exact mapMD_leaves hvs k hk
end

theorem mapM_iff {g : Str → Except PyErr (Tree A)} {t : Tree Str} {u : Tree A} : mapM g t = .ok u ↔
    ∃ f, (∀ k ∈ leaves t, g k = .ok (f k)) ∧ u = subst f t := by
  constructor
  · intro h
    have hl := mapM_leaves h
    refine ⟨fun k => match g k with | .ok a => a | .error _ => .none, ?_, ?_⟩
    · intro k hk
      obtain ⟨a, ha⟩ := hl k hk
      simp [ha]
    · have := mapM_subst (g := g) (f := fun k => match g k with | .ok a => a | .error _ => .none) t (by
        intro k hk
        obtain ⟨a, ha⟩ := hl k hk
        simp [ha])
      rw [h] at this
      simpa using this
  · rintro ⟨f, h1, rfl⟩
    exact mapM_subst t h1

mutual
theorem subst_congr {f g : Str → Tree A} : ∀ (t : Tree Str), (∀ k ∈ leaves t, f k = g k) → subst f t = subst g t
  | .leaf k, h => h k (by simp [leaves])
  | .none, _ => rfl
  | .list ts, h => by simp only [subst, substL_congr ts h]
  | .tuple ts, h => by simp only [subst, substL_congr ts h]
  | .dict kvs, h => by simp only [subst, substD_congr kvs h]
theorem substL_congr {f g : Str → Tree A} : ∀ (ts : List (Tree Str)), (∀ k ∈ leavesL ts, f k = g k) → substL f ts = substL g ts
  | [], _ => rfl
  | t :: ts, h => by
    simp only [substL, subst_congr t (fun k hk => h k (by simp [leavesL, hk])),
      substL_congr ts (fun k hk => h k (by simp [leavesL, hk]))]
theorem substD_congr {f g : Str → Tree A} : ∀ (ts : List (Str × Tree Str)), (∀ k ∈ leavesD ts, f k = g k) → substD f ts = substD g ts
  | [], _ => rfl
  | (k', t) :: ts, h => by
    simp only [substD, subst_congr t (fun k hk => h k (by simp [leavesD, hk])),
      substD_congr ts (fun k hk => h k (by simp [leavesD, hk]))]
end

mutual
theorem at_of_leaves {α : Type} : ∀ (t : Tree α) (k : α), k ∈ leaves t → ∃ q, ForwardSpec.At t q k
  | .leaf b, k, h => by simp only [leaves, List.mem_singleton] at h; subst h; exact ⟨[], .leaf _⟩
  | .none, k, h => by simp [leaves] at h
  | .list ts, k, h => by
    obtain ⟨i, t, q, h1, h2⟩ := at_of_leavesL ts k h
    exact ⟨_, .list h1 h2⟩
  | .tuple ts, k, h => by
    obtain ⟨i, t, q, h1, h2⟩ := at_of_leavesL ts k h
    exact ⟨_, .tuple h1 h2⟩
  | .dict ts, k, h => by
    obtain ⟨i, t, q, h1, h2⟩ := at_of_leavesD ts k h
    exact ⟨_, .dict h1 h2⟩
theorem at_of_leavesL {α : Type} : ∀ (ts : List (Tree α)) (k : α), k ∈ leavesL ts →
    ∃ (i : Nat) (t : Tree α) (q : _), ts[i]? = some t ∧ ForwardSpec.At t q k
  | [], k, h => by simp [leavesL] at h
  | t :: ts, k, h => by
    simp only [leavesL, List.mem_append] at h
    rcases h with h | h
    · obtain ⟨q, hq⟩ := at_of_leaves t k h
      exact ⟨0, t, q, rfl, hq⟩
    · obtain ⟨i, u, q, h1, h2⟩ := at_of_leavesL ts k h
      exact ⟨i + 1, u, q, by simpa using h1, h2⟩
theorem at_of_leavesD {α : Type} : ∀ (ts : List (Str × Tree α)) (k : α), k ∈ leavesD ts →
    ∃ (i : Str) (t : Tree α) (q : _), (i, t) ∈ ts ∧ ForwardSpec.At t q k
  | [], k, h => by simp [leavesD] at h
  | (i, t) :: ts, k, h => by
    simp only [leavesD, List.mem_append] at h
    rcases h with h | h
    · obtain ⟨q, hq⟩ := at_of_leaves t k h
      exact ⟨i, t, q, by simp, hq⟩
    · obtain ⟨i, u, q, h1, h2⟩ := at_of_leavesD ts k h
      exact ⟨i, u, q, by simp [h1], h2⟩
end

end Verif.Tree
