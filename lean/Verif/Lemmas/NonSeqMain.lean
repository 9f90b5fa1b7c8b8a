import Verif.Lemmas.NonSeqRun
import Verif.Lemmas.SeqCompose

/-! Non-sequential models compute their dataflow equations. -/

namespace Verif.Forward
open TreeSpec ConnSpec PathSpec ForwardSpec DataflowSpec Conn Tree

variable {M P S K A σ : Type} {sep : Char} {modules : Tree M} {conn : List (Str × List Str)} {fresh : Str → Nat → Nat → Str}

/-- The value stored at a place. -/
def valAt (t : Tree A) (m : List Str) : Tree A := match get t m with
  | .ok v => v
  | .error _ => .none

theorem valAt_eq {t v : Tree A} {m : List Str} (h : get t m = .ok v) : valAt t m = v := by simp [valAt, h]

theorem diverge_input {m : List Str} (hm : IsModule (nsCfg sep) modules m) : Diverge m ["input".toList] := by
  cases m with
  | nil => exact absurd rfl hm.1
  | cons a l =>
    refine ⟨[], a, l, "input".toList, [], rfl, rfl, ?_⟩
    rintro (rfl | ⟨-, h, -⟩)
    · exact hm.2.1 rfl
    · revert h; decide

theorem diverge_output {m : List Str} (hm : IsModule (nsCfg sep) modules m) : Diverge m ["output".toList] := by
  cases m with
  | nil => exact absurd rfl hm.1
  | cons a l =>
    refine ⟨[], a, l, "output".toList, [], rfl, rfl, ?_⟩
    rintro (rfl | ⟨-, h, -⟩)
    · exact hm.2.2.1 rfl
    · revert h; decide

/-- Reading a source: from the tree of intermediate results, or from the outputs. -/
theorem reads_of_get {t : Tree A} {k : Str} {a ra : List Str} {v : Tree A} (hs : Source (nsCfg sep) modules k a ra)
    (h : get t (splitOn sep k) = .ok v) : Reads (nsCfg sep) modules (valAt t) k v := by
  refine ⟨a, ra, hs, ?_⟩
  have e : splitOn sep k = a ++ ra := hs.1
  rw [e, get_append _ _ _ hs.2.1] at h
  split at h
  · next n hn => rw [valAt_eq hn]; exact h
  · simp at h

/-- Filling from the tree of intermediate results. -/
theorem fills_of_assemble {outs1 outs' : Tree A} {req : Tree Str} {inp : Tree A} (h : assemble sep outs1 req = .ok inp)
    (hsrc : ∀ k ∈ leaves req, ∃ a ra, Source (nsCfg sep) modules k a ra ∧ get outs' (a ++ ra) = get outs1 (a ++ ra)) :
    Fills (Reads (nsCfg sep) modules (valAt outs')) req inp := by
  obtain ⟨f, h1, h2⟩ := mapM_iff.1 h
  refine ⟨f, fun k hk => ?_, h2⟩
  obtain ⟨a, ra, hs, e⟩ := hsrc k hk
  have e1 : splitOn sep k = a ++ ra := hs.1
  refine reads_of_get hs ?_
  rw [e1, e, ← e1]
  exact h1 k hk

theorem leaves_source (h : Names sep modules conn) {R : List (Str × List Str)} (hc : Concrete sep modules conn R)
    {m : List Str} {req : Tree Str} (hm : IsTarget sep modules m) (hh : Holds sep R m req) {k : Str} (hk : k ∈ leaves req) :
    ∃ a ra, Source (nsCfg sep) modules k a ra ∧ Feeds (nsCfg sep) modules conn a m := by
  obtain ⟨q, hq⟩ := at_of_leaves req k hk
  obtain ⟨v, r, h1, h2, -⟩ := hh.only q k hq
  obtain ⟨a, ra, h3, h4, -⟩ := edge_feeds h hc h1 h2 hm
  exact ⟨a, ra, h3, h4⟩

theorem pairwise_split {α : Type} {R : α → α → Prop} (hs : ∀ {a b}, R a b → R b a) {l1 l2 : List α} {x : α}
    (h : (l1 ++ x :: l2).Pairwise R) : (∀ y ∈ l1, R y x) ∧ (∀ y ∈ l2, R y x) ∧ (∀ y ∈ l1, ∀ z ∈ l2, R y z) := by
  rw [List.pairwise_append] at h
  obtain ⟨-, h2, h3⟩ := h
  rw [List.pairwise_cons] at h2
  exact ⟨fun y hy => h3 y hy x (by simp), fun y hy => hs (h2.1 y hy), fun y hy z hz => h3 y hy z (by simp [hz])⟩

/-- What every run satisfies. -/
theorem run_equations (h : Names sep modules conn) (hf : FreshOk sep fresh)
    {call : M → Str → Tree A → σ → Except PyErr (Tree A × σ)} {data out outs' outs : Tree A} {st st' : σ} {order : List Str}
    {ms : List (List Str)} {L : List (List Str × M × Tree Str)} {placed outPlaced : Tree Str}
    (hr : Run sep fresh call modules conn data st out outs' st' order ms L placed outPlaced outs) {R : List (Str × List Str)}
    (hR : concretizeConnections (nsCfg sep) fresh modules conn = .ok R) (hc : Concrete sep modules conn R) :
    valAt outs' ["input".toList] = data ∧
    (∀ L1 x L2, L = L1 ++ x :: L2 → ∃ outs1 st1 inp st2 outs2, Steps sep call L1 outs st outs1 st1 ∧
      Fills (Reads (nsCfg sep) modules (valAt outs')) x.2.2 inp ∧ assemble sep outs1 x.2.2 = .ok inp ∧
      call x.2.1 (joinWith sep x.1) inp st1 = .ok (valAt outs' x.1, st2) ∧ Holds sep R x.1 x.2.2 ∧
      Steps sep call L2 outs2 st2 outs' st') ∧
    Fills (Reads (nsCfg sep) modules (valAt outs')) outPlaced out ∧ Holds sep R ["output".toList] outPlaced := by
  obtain ⟨hh1, -, hh3⟩ := place_holds h hf hR hc hr.place
  have hmods : ∀ x ∈ L, Comps sep x.1 ∧ Canonical x.1 ∧ IsModule (nsCfg sep) modules x.1 := by
    intro x hx
    have hm : x.1 ∈ ms := by rw [← hr.paths]; exact List.mem_map_of_mem (f := Prod.fst) hx
    exact ⟨(hr.ord.comps _ hm).1, (hr.ord.comps _ hm).2, ((hr.ord.mem _).1 hm).1⟩
  have hin : get outs' ["input".toList] = .ok data := by
    have hp : Proper ["input".toList] := fun w hw => (comps_in h w hw).1
    rw [Steps.frame hp hr.steps fun x hx => diverge_input (hmods x hx).2.2]
    have := hr.init
    unfold nsInit at this
    split at this
    · simp at this
    · next t ht =>
      have e : splitOn sep "input".toList = ["input".toList] := splitOn_noSep _ _ h.inSep
      rw [e] at this
      exact get_set this
  refine ⟨valAt_eq hin, ?_, ?_, hh3⟩
  · rintro L1 ⟨m, b, req⟩ L2 e
    have hst := hr.steps
    rw [e] at hst
    obtain ⟨outs1, st1, hs1, hs2⟩ := Steps.split hst
    have hs2' := hs2
    cases hs2 with
    | cons ha hcall hset hrest =>
      rename_i inp v st2 outs2
      obtain ⟨hmc, hmcan, hmm⟩ := hmods (m, b, req) (by rw [e]; simp)
      have hms : ms = L1.map Prod.fst ++ m :: L2.map Prod.fst := by rw [← hr.paths, e]; simp
      have hdv := hr.ord.diverge
      rw [hms] at hdv
      obtain ⟨d1, d2, d3⟩ := pairwise_split diverge_symm hdv
      have hget : get outs' m = .ok v := by
        rw [Steps.frame (fun w hw => (hmc w hw).1) hrest fun x hx => d2 _ (List.mem_map_of_mem (f := Prod.fst) hx)]
        exact get_set hset
      have hreq := (hr.elems (m, b, req) (by rw [e]; simp)).2
      have hhold := hh1 m req hmm hmc hmcan hreq
      refine ⟨outs1, st1, inp, st2, outs2, hs1, ?_, ha, by rw [valAt_eq hget]; exact hcall, hhold, hrest⟩
      refine fills_of_assemble ha fun k hk => ?_
      obtain ⟨a, ra, hsrc, hfe⟩ := leaves_source h hc (.inr hmm) hhold hk
      refine ⟨a, ra, hsrc, Steps.frame hsrc.2.1 hs2' fun x hx => diverge_extend ?_⟩
      have hxL : x ∈ L := by
        rw [e]
        rcases List.mem_cons.1 hx with rfl | hx
        · simp
        · simp [hx]
      rcases hr.ord.before a m _ _ hms hfe with rfl | hpre
      · exact diverge_input (hmods x hxL).2.2
      · rcases List.mem_cons.1 hx with rfl | hx
        · exact diverge_symm (d1 a hpre)
        · exact diverge_symm (d3 a hpre _ (List.mem_map_of_mem (f := Prod.fst) hx))
  · refine fills_of_assemble hr.fin fun k hk => ?_
    obtain ⟨a, ra, hsrc, -⟩ := leaves_source h hc (.inl rfl) hh3 hk
    exact ⟨a, ra, hsrc, rfl⟩

/-! ### The forward pass -/

theorem callStep_iff (sig : Sig M P S K A) (params : Tree P) (training : Bool) (rng : K) (b : M) {m : List Str} (hc : Comps sep m)
    (hne : m ≠ []) (inp out : Tree A) (state state' : Tree S) :
    callStep sig sep params training rng b (joinWith sep m) inp state = .ok (out, state') ↔
    ∃ p s s', get params m = .ok (.leaf p) ∧ get state m = .ok (.leaf s) ∧ sig.call b p inp training s rng = .ok (out, s') ∧
      Tree.set state m (.leaf s') = .ok state' := by
  unfold callStep
  constructor
  · intro h
    split at h
    · simp at h
    · next p hp =>
      split at h
      · simp at h
      · next s hs =>
        split at h
        · simp at h
        · next out' s' hcall =>
          split at h
          · simp at h
          · next st hset =>
            simp only [Except.ok.injEq, Prod.mk.injEq] at h
            obtain ⟨rfl, rfl⟩ := h
            rw [split_join_comps hc hne] at hset
            exact ⟨p, s, s', (leafAt_iff _ hc hne _).1 hp, (leafAt_iff _ hc hne _).1 hs, hcall, hset⟩
  · rintro ⟨p, s, s', h1, h2, h3, h4⟩
    simp only [(leafAt_iff _ hc hne _).2 h1, (leafAt_iff _ hc hne _).2 h2, h3, split_join_comps hc hne, h4]

theorem steps_state {sig : Sig M P S K A} {params : Tree P} {training : Bool} {rng : K} {q : List Str} (hq : Proper q)
    {L : List (List Str × M × Tree Str)} {outs outs' : Tree A} {st st' : Tree S}
    (h : Steps sep (callStep sig sep params training rng) L outs st outs' st') (hL : ∀ x ∈ L, Comps sep x.1 ∧ x.1 ≠ [])
    (hd : ∀ x ∈ L, Diverge x.1 q) : get st' q = get st q := by
  induction h with
  | nil => rfl
  | cons h1 h2 h3 h4 ih =>
    rw [ih (fun x hx => hL x (List.mem_cons_of_mem _ hx)) (fun x hx => hd x (List.mem_cons_of_mem _ hx))]
    obtain ⟨p, s, s', -, -, -, hset⟩ := (callStep_iff sig params training rng _ (hL _ List.mem_cons_self).1
      (hL _ List.mem_cons_self).2 _ _ _ _).1 h2
    exact get_set_div hset (hd _ List.mem_cons_self) hq

/-- The layout of the inputs. -/
def reqOf (placed outPlaced : Tree Str) (m : List Str) : Tree Str :=
  if m = ["output".toList] then outPlaced else match get placed m with
    | .ok r => r
    | .error _ => .none

theorem nsCall_run {sig : Sig M P S K A} (h : Names sep modules conn) {params : Tree P} {data out : Tree A} {training : Bool}
    {state st' : Tree S} {rng : K} : nsCall sig sep fresh modules conn params data training state rng = .ok (out, st') ↔
    ∃ outs' order ms L placed outPlaced outs, Run sep fresh (callStep sig sep params training rng) modules conn data state out
      outs' st' order ms L placed outPlaced outs := by
  unfold nsCall
  constructor
  · intro hc
    split at hc
    · simp at hc
    · next o outs' st1 hrun =>
      simp only [Except.ok.injEq, Prod.mk.injEq] at hc
      obtain ⟨rfl, rfl⟩ := hc
      exact ⟨outs', (nsRun_iff h).1 hrun⟩
  · rintro ⟨outs', hr⟩
    rw [(nsRun_iff h).2 hr]

/-- The leaf at a place. -/
def leafOf (t : Tree S) (m : List Str) : Option S := match get t m with
  | .ok (.leaf s) => some s
  | _ => Option.none

theorem leafOf_eq {t : Tree S} {m : List Str} {s : S} (h : get t m = .ok (.leaf s)) : leafOf t m = some s := by simp [leafOf, h]

/-- The dataflow equations of a run. -/
theorem run_dataflow {sig : Sig M P S K A} (h : Names sep modules conn) (hf : FreshOk sep fresh) {params : Tree P}
    {data out outs' outs : Tree A} {training : Bool} {state st' : Tree S} {rng : K} {order : List Str}
    {ms : List (List Str)} {L : List (List Str × M × Tree Str)} {placed outPlaced : Tree Str}
    (hr : Run sep fresh (callStep sig sep params training rng) modules conn data state out outs' st' order ms L placed outPlaced outs) :
    ∃ R, concretizeConnections (nsCfg sep) fresh modules conn = .ok R ∧
      (∀ m, Scheduled (nsCfg sep) modules conn m → Holds sep R m (reqOf placed outPlaced m)) ∧
      Holds sep R ["output".toList] (reqOf placed outPlaced ["output".toList]) ∧
      Dataflow (nsCfg sep) modules params state (fun b p x s => sig.call b p x training s rng)
        (Scheduled (nsCfg sep) modules conn) (reqOf placed outPlaced) data (valAt outs') (leafOf st') out ∧
      Updates state st' (Scheduled (nsCfg sep) modules conn) (leafOf st') := by
  obtain ⟨R, hR, hc⟩ := concrete_ok h hf
  obtain ⟨hin, hstep, hout, hho⟩ := run_equations h hf hr hR hc
  have hL : ∀ x ∈ L, Comps sep x.1 ∧ x.1 ≠ [] := by
    intro x hx
    have hm : x.1 ∈ ms := by rw [← hr.paths]; exact List.mem_map_of_mem (f := Prod.fst) hx
    exact ⟨(hr.ord.comps _ hm).1, ((hr.ord.mem _).1 hm).1.1⟩
  have hfind : ∀ m, Scheduled (nsCfg sep) modules conn m → ∃ L1 x L2, L = L1 ++ x :: L2 ∧ x.1 = m ∧
      x.2.2 = reqOf placed outPlaced m := by
    intro m hm
    have := (hr.ord.mem m).2 hm
    rw [← hr.paths] at this
    obtain ⟨x, hx, rfl⟩ := List.mem_map.1 this
    obtain ⟨L1, L2, e⟩ := List.append_of_mem hx
    refine ⟨L1, x, L2, e, rfl, ?_⟩
    unfold reqOf
    rw [if_neg (by rintro e; exact hm.1.2.2.1 (by rw [e]; rfl)), (hr.elems x hx).2]
  have hget : ∀ m, Scheduled (nsCfg sep) modules conn m → ∃ b p s inp s', get modules m = .ok (.leaf b) ∧
      get params m = .ok (.leaf p) ∧ get state m = .ok (.leaf s) ∧
      Fills (Reads (nsCfg sep) modules (valAt outs')) (reqOf placed outPlaced m) inp ∧
      sig.call b p inp training s rng = .ok (valAt outs' m, s') ∧ get st' m = .ok (.leaf s') := by
    intro m hm
    obtain ⟨L1, x, L2, e, rfl, ereq⟩ := hfind m hm
    obtain ⟨outs1, st1, inp, st2, outs2, hs1, hfi, -, hca, -, hs2⟩ := hstep L1 x L2 e
    have hx : x ∈ L := by rw [e]; simp
    obtain ⟨p, s, s', h1, h2, h3, h4⟩ := (callStep_iff sig params training rng x.2.1 (hL x hx).1 (hL x hx).2 _ _ _ _).1 hca
    have hms : ms = L1.map Prod.fst ++ x.1 :: L2.map Prod.fst := by rw [← hr.paths, e]; simp
    have hdv := hr.ord.diverge
    rw [hms] at hdv
    obtain ⟨d1, d2, d3⟩ := pairwise_split diverge_symm hdv
    have hpx : Proper x.1 := fun w hw => ((hL x hx).1 w hw).1
    refine ⟨x.2.1, p, s, inp, s', (hr.elems x hx).1, h1, ?_, by rw [← ereq]; exact hfi, h3, ?_⟩
    · rw [← steps_state hpx hs1 (fun y hy => hL y (by rw [e]; simp [hy]))
        (fun y hy => d1 _ (List.mem_map_of_mem (f := Prod.fst) hy))]
      exact h2
    · rw [steps_state hpx hs2 (fun y hy => hL y (by rw [e]; simp [hy]))
        (fun y hy => d2 _ (List.mem_map_of_mem (f := Prod.fst) hy))]
      exact get_set h4
  refine ⟨R, hR, ?_, ?_, ⟨hin, ?_, ?_⟩, ⟨?_, ?_⟩⟩
  · intro m hm
    obtain ⟨L1, x, L2, e, rfl, ereq⟩ := hfind m hm
    obtain ⟨_, _, _, _, _, _, _, _, _, hh, _⟩ := hstep L1 x L2 e
    rw [← ereq]; exact hh
  · unfold reqOf; rw [if_pos rfl]; exact hho
  · intro m hm
    obtain ⟨b, p, s, inp, s', a1, a2, a3, a4, a5, a6⟩ := hget m hm
    exact ⟨b, p, s, inp, s', a1, a2, a3, a4, a5, leafOf_eq a6⟩
  · have : reqOf placed outPlaced [(nsCfg sep).outKey] = outPlaced := by unfold reqOf; exact if_pos rfl
    rw [this]; exact hout
  · intro m hm
    obtain ⟨b, p, s, inp, s', a1, a2, a3, a4, a5, a6⟩ := hget m hm
    exact ⟨s', leafOf_eq a6, a6⟩
  · intro q hq hd
    exact steps_state hq hr.steps hL fun x hx => hd _ ((hr.ord.mem _).1 (by
      rw [← hr.paths]; exact List.mem_map_of_mem (f := Prod.fst) hx))

/-- (A) A call that returns has solved the dataflow equations. -/
theorem nsCall_dataflow {sig : Sig M P S K A} (h : Names sep modules conn) (hf : FreshOk sep fresh) {params : Tree P}
    {data out : Tree A} {training : Bool} {state st' : Tree S} {rng : K}
    (hcall : nsCall sig sep fresh modules conn params data training state rng = .ok (out, st')) :
    ∃ R placed outPlaced val news, concretizeConnections (nsCfg sep) fresh modules conn = .ok R ∧
      place (nsCfg sep) fresh modules conn = .ok (placed, outPlaced) ∧
      (∀ m, Scheduled (nsCfg sep) modules conn m → Holds sep R m (reqOf placed outPlaced m)) ∧
      Holds sep R ["output".toList] (reqOf placed outPlaced ["output".toList]) ∧
      Dataflow (nsCfg sep) modules params state (fun b p x s => sig.call b p x training s rng)
        (Scheduled (nsCfg sep) modules conn) (reqOf placed outPlaced) data val news out ∧
      Updates state st' (Scheduled (nsCfg sep) modules conn) news := by
  obtain ⟨outs', order, ms, L, placed, outPlaced, outs, hr⟩ := (nsCall_run h).1 hcall
  obtain ⟨R, h1, h2, h3, h4, h5⟩ := run_dataflow h hf hr
  exact ⟨R, placed, outPlaced, _, _, h1, hr.place, h2, h3, h4, h5⟩

/-! ### Uniqueness -/

theorem reads_unique {val val' : List Str → Tree A} {k : Str} {v v' : Tree A} {a ra : List Str}
    (hs : Source (nsCfg sep) modules k a ra) (e : val a = val' a) (h : Reads (nsCfg sep) modules val k v)
    (h' : Reads (nsCfg sep) modules val' k v') : v = v' := by
  obtain ⟨m, r, h1, h2⟩ := h
  obtain ⟨m', r', h1', h2'⟩ := h'
  obtain ⟨rfl, rfl⟩ := source_unique h1 hs
  obtain ⟨rfl, rfl⟩ := source_unique h1' hs
  rw [e, h2'] at h2
  cases h2; rfl

theorem fills_unique {val val' : List Str → Tree A} {req : Tree Str} {x y : Tree A}
    (hs : ∀ k ∈ leaves req, ∃ a ra, Source (nsCfg sep) modules k a ra ∧ val a = val' a)
    (h : Fills (Reads (nsCfg sep) modules val) req x) (h' : Fills (Reads (nsCfg sep) modules val') req y) : x = y := by
  obtain ⟨f, h1, rfl⟩ := h
  obtain ⟨g, h2, rfl⟩ := h'
  refine subst_congr req fun k hk => ?_
  obtain ⟨a, ra, hsrc, e⟩ := hs k hk
  exact reads_unique hsrc e (h1 k hk) (h2 k hk)

/-- (B) The equations have at most one solution. -/
theorem dataflow_unique (h : Names sep modules conn) {order : List Str}
    (ho : execOrder sep modules conn = .ok order) {R : List (Str × List Str)} (hc : Concrete sep modules conn R)
    {req : List Str → Tree Str} (hreq : ∀ m, Scheduled (nsCfg sep) modules conn m → Holds sep R m (req m))
    (hreqo : Holds sep R ["output".toList] (req ["output".toList])) {params : Tree P} {state : Tree S}
    {news1 news2 : List Str → Option S} {call : M → P → Tree A → S → Except PyErr (Tree A × S)} {data : Tree A} {val1 val2 : List Str → Tree A} {out1 out2 : Tree A}
    (h1 : Dataflow (nsCfg sep) modules params state call (Scheduled (nsCfg sep) modules conn) req data val1 news1 out1)
    (h2 : Dataflow (nsCfg sep) modules params state call (Scheduled (nsCfg sep) modules conn) req data val2 news2 out2) :
    out1 = out2 ∧ (∀ m, Scheduled (nsCfg sep) modules conn m → val1 m = val2 m ∧ news1 m = news2 m) := by
  obtain ⟨ms, hms⟩ := order_main h ho
  have hin : val1 ["input".toList] = val2 ["input".toList] := h1.input.trans h2.input.symm
  have key : ∀ n : Nat, ∀ m ∈ ms.take n, val1 m = val2 m ∧ news1 m = news2 m := by
    intro n
    induction n with
    | zero => simp
    | succ n ih =>
      intro m hm
      rw [List.take_add_one] at hm
      rcases List.mem_append.1 hm with hm | hm
      · exact ih m hm
      · have hmn : ms[n]? = some m := by simpa using hm
        have hlt : n < ms.length := by
          rcases Nat.lt_or_ge n ms.length with h | h
          · exact h
          · rw [List.getElem?_eq_none h] at hmn; cases hmn
        have hmm : m ∈ ms := List.mem_of_getElem? hmn
        have hsch := (hms.mem m).1 hmm
        have hsp : ms = ms.take n ++ m :: ms.drop (n + 1) := by
          rw [List.getElem?_eq_getElem hlt] at hmn
          simp only [Option.some.injEq] at hmn
          rw [← hmn, ← List.drop_eq_getElem_cons hlt, List.take_append_drop]
        obtain ⟨b, p, s, inp, s', a1, a2, a3, a4, a5, a6⟩ := h1.step m hsch
        obtain ⟨b', p', s2, inp', s2', c1, c2, c3, c4, c5, c6⟩ := h2.step m hsch
        rw [a1] at c1; cases c1
        rw [a2] at c2; cases c2
        rw [a3] at c3; cases c3
        have hinp : inp = inp' := by
          refine fills_unique (fun k hk => ?_) a4 c4
          obtain ⟨a, ra, hsrc, hfe⟩ := leaves_source h hc (.inr hsch.1) (hreq m hsch) hk
          refine ⟨a, ra, hsrc, ?_⟩
          rcases hms.before a m _ _ hsp hfe with rfl | hp
          · exact hin
          · exact (ih a hp).1
        subst hinp
        rw [a5] at c5
        simp only [Except.ok.injEq, Prod.mk.injEq] at c5
        exact ⟨c5.1, by rw [a6, c6, c5.2]⟩
  have hall : ∀ m ∈ ms, val1 m = val2 m ∧ news1 m = news2 m := fun m hm => key ms.length m (by simpa using hm)
  refine ⟨?_, fun m hm => hall m ((hms.mem m).2 hm)⟩
  refine fills_unique (fun k hk => ?_) h1.output h2.output
  obtain ⟨a, ra, hsrc, hfe⟩ := leaves_source h hc (.inl rfl) hreqo hk
  refine ⟨a, ra, hsrc, ?_⟩
  rcases hms.last a hfe with rfl | hp
  · exact hin
  · exact (hall a hp).1

end Verif.Forward
