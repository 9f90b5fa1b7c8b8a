import Verif.Lemmas.NonSeqMain
import Verif.Lemmas.ExtendTuple

/-! Whenever the dataflow equations have a solution, the forward pass finds it. -/

namespace Verif.Forward
open TreeSpec ConnSpec PathSpec ForwardSpec DataflowSpec Conn Tree

variable {M P S K A σ : Type} {sep : Char} {modules : Tree M} {conn : List (Str × List Str)} {fresh : Str → Nat → Nat → Str}

theorem assemble_of_fills {outs : Tree A} {val : List Str → Tree A} {req : Tree Str} {inp : Tree A}
    (hs : ∀ k ∈ leaves req, ∃ a ra, Source (nsCfg sep) modules k a ra ∧ get outs a = .ok (val a))
    (h : Fills (Reads (nsCfg sep) modules val) req inp) : assemble sep outs req = .ok inp := by
  obtain ⟨f, h1, h2⟩ := h
  refine mapM_iff.2 ⟨f, fun k hk => ?_, h2⟩
  obtain ⟨a, ra, hsrc, e⟩ := hs k hk
  obtain ⟨a', ra', hsrc', e'⟩ := h1 k hk
  obtain ⟨rfl, rfl⟩ := source_unique hsrc' hsrc
  have e1 : splitOn sep k = a' ++ ra' := hsrc.1
  show get outs (splitOn sep k) = _
  rw [e1, get_append _ _ _ hsrc.2.1, e]
  exact e'

theorem steps_complete {sig : Sig M P S K A} (h : Names sep modules conn) {R : List (Str × List Str)}
    (hc : Concrete sep modules conn R) {order : List Str} {ms : List (List Str)} (ho : Order sep modules conn order ms)
    {req : List Str → Tree Str} (hreq : ∀ m, Scheduled (nsCfg sep) modules conn m → Holds sep R m (req m))
    {params : Tree P} {state : Tree S} {news : List Str → Option S} {training : Bool} {rng : K} {data out : Tree A} {val : List Str → Tree A}
    (hd : Dataflow (nsCfg sep) modules params state (fun b p x s => sig.call b p x training s rng)
        (Scheduled (nsCfg sep) modules conn) req data val news out) :
    ∀ (rest pre : List (List Str)) (outs : Tree A) (st : Tree S), ms = pre ++ rest →
      (∀ a, a = ["input".toList] ∨ a ∈ pre → get outs a = .ok (val a)) → (∀ m ∈ rest, Settable outs m) →
      (∀ m ∈ rest, get st m = get state m ∧ Settable st m) →
      ∃ L outs' st2, L.map Prod.fst = rest ∧ (∀ x ∈ L, get modules x.1 = .ok (.leaf x.2.1) ∧ x.2.2 = req x.1) ∧
        Steps sep (callStep sig sep params training rng) L outs st outs' st2 ∧
        (∀ a, a = ["input".toList] ∨ a ∈ ms → get outs' a = .ok (val a)) := by
  intro rest
  induction rest with
  | nil =>
    intro pre outs st e h1 _ _
    refine ⟨[], outs, st, rfl, by simp, .nil _ _, ?_⟩
    simp only [List.append_nil] at e
    rw [e]; exact h1
  | cons m rest ih =>
    intro pre outs st e h1 h2 h3
    have hm : m ∈ ms := by rw [e]; simp
    have hsch := (ho.mem m).1 hm
    have hmc := (ho.comps m hm).1
    have hmp : Proper m := fun w hw => (hmc w hw).1
    have hmne : m ≠ [] := hsch.1.1
    have hdv := ho.diverge
    rw [e] at hdv
    obtain ⟨d1, d2, -⟩ := pairwise_split diverge_symm hdv
    obtain ⟨b, p, s, inp, s', a1, a2, a3, a4, a5, a6⟩ := hd.step m hsch
    have ha : assemble sep outs (req m) = .ok inp := by
      refine assemble_of_fills (fun k hk => ?_) a4
      obtain ⟨a, ra, hsrc, hfe⟩ := leaves_source h hc (.inr hsch.1) (hreq m hsch) hk
      exact ⟨a, ra, hsrc, h1 a (ho.before a m _ _ e hfe)⟩
    obtain ⟨st1, hst1⟩ := set_ok (.leaf s') m st hmp (h3 m (by simp)).2
    have hcall : callStep sig sep params training rng b (joinWith sep m) inp st = .ok (val m, st1) :=
      (callStep_iff sig params training rng b hmc hmne _ _ _ _).2
        ⟨p, s, s', a2, by rw [(h3 m (by simp)).1, a3], a5, hst1⟩
    obtain ⟨outs1, houts1⟩ := set_ok (val m) m outs hmp (h2 m (by simp))
    obtain ⟨L, outs', st2, e1, e2, e3, e4⟩ := ih (pre ++ [m]) outs1 st1 (by rw [e]; simp) (by
      intro a ha
      by_cases ham : a = m
      · subst ham; exact get_set houts1
      · have hda : Diverge m a ∧ Proper a := by
          rcases ha with rfl | ha
          · exact ⟨diverge_input hsch.1, fun w hw => (comps_in h w hw).1⟩
          · rcases List.mem_append.1 ha with ha | ha
            · refine ⟨diverge_symm (d1 a ha), fun w hw => ((ho.comps a ?_).1 w hw).1⟩
              rw [e]; simp [ha]
            · simp only [List.mem_singleton] at ha
              exact absurd ha ham
        rw [get_set_div houts1 hda.1 hda.2]
        refine h1 a ?_
        rcases ha with rfl | ha
        · exact .inl rfl
        · rcases List.mem_append.1 ha with ha | ha
          · exact .inr ha
          · simp only [List.mem_singleton] at ha
            exact absurd ha ham) (by
      intro m' hm'
      exact settable_set houts1 (diverge_symm (d2 m' hm')) (h2 m' (by simp [hm']))) (by
      intro m' hm'
      have hp' : Proper m' := fun w hw => ((ho.comps m' (by rw [e]; simp [hm'])).1 w hw).1
      refine ⟨?_, settable_set hst1 (diverge_symm (d2 m' hm')) (h3 m' (by simp [hm'])).2⟩
      rw [get_set_div hst1 (diverge_symm (d2 m' hm')) hp']
      exact (h3 m' (by simp [hm'])).1)
    refine ⟨(m, b, req m) :: L, outs', st2, by simp [e1], ?_, .cons ha hcall houts1 e3, e4⟩
    intro x hx
    rcases List.mem_cons.1 hx with rfl | hx
    · exact ⟨a1, rfl⟩
    · exact e2 x hx

theorem order_split (h : Names sep modules conn) {order : List Str} {ms : List (List Str)} (ho : Order sep modules conn order ms) :
    order.map (splitOn sep) = ["input".toList] :: (ms ++ [["output".toList]]) := by
  rw [ho.eq]
  have e1 : splitOn sep "input".toList = ["input".toList] := splitOn_noSep _ _ h.inSep
  have e2 : splitOn sep "output".toList = ["output".toList] := splitOn_noSep _ _ h.outSep
  simp only [List.cons_append, List.map_cons, List.map_append, List.map_map, List.map_nil, e1, e2, List.cons.injEq,
    true_and]
  congr 1
  rw [List.map_congr_left (g := id), List.map_id]
  intro m hm
  exact split_join_comps (ho.comps m hm).1 ((ho.mem m).1 hm).1.1

theorem order_diverge (h : Names sep modules conn) {order : List Str} {ms : List (List Str)} (ho : Order sep modules conn order ms) :
    (["input".toList] :: (ms ++ [["output".toList]])).Pairwise Diverge := by
  rw [List.pairwise_cons, List.pairwise_append]
  refine ⟨?_, ho.diverge, List.pairwise_singleton _ _, ?_⟩
  · intro m hm
    rcases List.mem_append.1 hm with hm | hm
    · exact diverge_symm (diverge_input ((ho.mem m).1 hm).1)
    · simp only [List.mem_singleton] at hm
      subst hm
      refine ⟨[], _, [], _, [], rfl, rfl, ?_⟩
      rintro (h | ⟨h, -, -⟩)
      · revert h; decide
      · revert h; decide
  · intro m hm m' hm'
    simp only [List.mem_singleton] at hm'
    subst hm'
    exact diverge_output ((ho.mem m).1 hm).1

theorem uniform_single (k : Str) (p : List Str) : Uniform [k] p ∧ Uniform p [k] := by
  constructor
  · intro c k₁ r₁ k₂ r₂ hc e1 _
    cases c with
    | nil => exact absurd rfl hc
    | cons x c => simp at e1
  · intro c k₁ r₁ k₂ r₂ hc _ e1
    cases c with
    | nil => exact absurd rfl hc
    | cons x c => simp at e1

theorem ofNat_init (h : Names sep modules conn) {order : List Str} {ms : List (List Str)} (ho : Order sep modules conn order ms)
    (hu : ∀ m ∈ ms, ∀ m' ∈ ms, Uniform m m') {B : Type} :
    ∃ t : Tree B, extend (fun _ _ => false) .none (order.map fun s => (splitOn sep s, .none)) = .ok t ∧
      (∀ p ∈ ["input".toList] :: (ms ++ [["output".toList]]), Settable t p) := by
  have e : (order.map fun s => (splitOn sep s, (Tree.none : Tree B))) =
      (["input".toList] :: (ms ++ [["output".toList]])).map fun p => (p, Tree.none) := by
    rw [← order_split h ho, List.map_map]; rfl
  rw [e]
  have hpr : ∀ p ∈ ["input".toList] :: (ms ++ [["output".toList]]), p ≠ [] ∧ Proper p := by
    intro p hp
    rcases List.mem_cons.1 hp with rfl | hp
    · exact ⟨by simp, fun w hw => (comps_in h w hw).1⟩
    · rcases List.mem_append.1 hp with hp | hp
      · exact ⟨((ho.mem p).1 hp).1.1, fun w hw => ((ho.comps p hp).1 w hw).1⟩
      · simp only [List.mem_singleton] at hp
        subst hp
        exact ⟨by simp, fun w hw => (comps_out h w hw).1⟩
  have huni : ∀ p ∈ ["input".toList] :: (ms ++ [["output".toList]]), ∀ q ∈ ["input".toList] :: (ms ++ [["output".toList]]),
      Uniform p q := by
    intro p hp q hq
    rcases List.mem_cons.1 hp with rfl | hp
    · exact (uniform_single _ _).1
    · rcases List.mem_cons.1 hq with rfl | hq
      · exact (uniform_single _ _).2
      · rcases List.mem_append.1 hp with hp | hp
        · rcases List.mem_append.1 hq with hq | hq
          · exact hu p hp q hq
          · simp only [List.mem_singleton] at hq
            subst hq; exact (uniform_single _ _).2
        · simp only [List.mem_singleton] at hp
          subst hp; exact (uniform_single _ _).1
  have hdv := order_diverge h ho
  obtain ⟨t, ht⟩ := extend_none_ok (fun _ _ => false)
    ((["input".toList] :: (ms ++ [["output".toList]])).map fun p => (p, (Tree.none : Tree B))) (by
      rw [List.pairwise_map]
      refine List.Pairwise.imp_of_mem (fun {a b} ha hb hab => ⟨hab, huni a ha b hb⟩) hdv) (by
      intro pf hpf
      obtain ⟨p, hp, rfl⟩ := List.mem_map.1 hpf
      exact hpr p hp)
  refine ⟨t, ht, fun p hp => ?_⟩
  have hnt : hasTuple t = false := extend_none_noTuple ht (by
    intro pf hpf
    obtain ⟨p, hp, rfl⟩ := List.mem_map.1 hpf
    rfl)
  obtain ⟨v, hv⟩ : ∃ v, get t p = .ok v := by
    exact extend_none_get ht (by
      intro pf hpf
      obtain ⟨p, hp, rfl⟩ := List.mem_map.1 hpf
      rfl) (by
      intro pf hpf
      obtain ⟨p, hp, rfl⟩ := List.mem_map.1 hpf
      exact hpr p hp) (by rw [List.pairwise_map]; exact hdv) (p, .none) (List.mem_map.2 ⟨p, hp, rfl⟩)
  exact settable_of_get (hpr p hp).1 (hpr p hp).2 hnt hv

theorem fed_of_scheduled {m : List Str} (h : Scheduled (nsCfg sep) modules conn m) :
    ∃ a, Feeds (nsCfg sep) modules conn a m := by
  rcases Relation.ReflTransGen.cases_tail h.2.1 with e | ⟨a, -, ha⟩
  · exact absurd (by rw [e]; rfl) h.1.2.1
  · exact ⟨a, ha⟩

/-- (C) Whenever the equations have a solution the call returns it. -/
theorem nsCall_complete {sig : Sig M P S K A} (h : Names sep modules conn) (hf : FreshOk sep fresh) {order : List Str}
    (ho : execOrder sep modules conn = .ok order) {placed outPlaced : Tree Str}
    (hp : place (nsCfg sep) fresh modules conn = .ok (placed, outPlaced))
    (hu : ∀ m m', Scheduled (nsCfg sep) modules conn m → Scheduled (nsCfg sep) modules conn m' → Uniform m m')
    {params : Tree P} {state : Tree S} {news : List Str → Option S} (hst : hasTuple state = false) {training : Bool} {rng : K}
    {data out : Tree A} {val : List Str → Tree A}
    (hd : Dataflow (nsCfg sep) modules params state (fun b p x s => sig.call b p x training s rng)
        (Scheduled (nsCfg sep) modules conn) (reqOf placed outPlaced) data val news out) :
    ∃ st2, nsCall sig sep fresh modules conn params data training state rng = .ok (out, st2) ∧
      Updates state st2 (Scheduled (nsCfg sep) modules conn) news := by
  obtain ⟨R, hR, hc⟩ := concrete_ok h hf
  obtain ⟨ms, hms⟩ := order_main h ho
  obtain ⟨hh1, hh2, hh3⟩ := place_holds h hf hR hc hp
  have hplaced : ∀ m, Scheduled (nsCfg sep) modules conn m → get placed m = .ok (reqOf placed outPlaced m) := by
    intro m hm
    unfold reqOf
    rw [if_neg (by rintro e; exact hm.1.2.2.1 (by rw [e]; rfl))]
    obtain ⟨a, ha⟩ := fed_of_scheduled hm
    obtain ⟨req, hreq⟩ := hh2 a m ha hm.1
    rw [hreq]
  have hreq : ∀ m, Scheduled (nsCfg sep) modules conn m → Holds sep R m (reqOf placed outPlaced m) := by
    intro m hm
    have hmm := (hms.mem m).2 hm
    exact hh1 m _ hm.1 (hms.comps m hmm).1 (hms.comps m hmm).2 (hplaced m hm)
  have hreqo : reqOf placed outPlaced ["output".toList] = outPlaced := by unfold reqOf; exact if_pos rfl
  obtain ⟨t, ht, hset⟩ := ofNat_init (B := A) h hms (fun m hm m' hm' => hu m m' ((hms.mem m).1 hm) ((hms.mem m').1 hm'))
  have ein : splitOn sep "input".toList = ["input".toList] := splitOn_noSep _ _ h.inSep
  obtain ⟨outs, houts⟩ := set_ok data ["input".toList] t (fun w hw => (comps_in h w hw).1) (hset _ (by simp))
  have hinit : nsInit sep order data = .ok outs := by
    unfold nsInit; rw [ht]; simp only [ein]; exact houts
  obtain ⟨L, outs', st2, e1, e2, e3, e4⟩ := steps_complete h hc hms hreq hd ms [] outs state rfl (by
      intro a ha
      rcases ha with rfl | ha
      · have := hd.input
        rw [get_set houts]; exact congrArg _ this.symm
      · simp at ha) (by
      intro m hm
      exact settable_set houts (diverge_symm (diverge_input ((hms.mem m).1 hm).1)) (hset m (by simp [hm]))) (by
      intro m hm
      obtain ⟨b, p, s, inp, s', a1, a2, a3, -⟩ := hd.step m ((hms.mem m).1 hm)
      exact ⟨rfl, settable_of_get ((hms.mem m).1 hm).1.1 (fun w hw => ((hms.comps m hm).1 w hw).1) hst a3⟩)
  have hfin : assemble sep outs' outPlaced = .ok out := by
    have ho := hd.output
    rw [show reqOf placed outPlaced [(nsCfg sep).outKey] = outPlaced from hreqo] at ho
    refine assemble_of_fills (fun k hk => ?_) ho
    obtain ⟨a, ra, hsrc, hfe⟩ := leaves_source h hc (.inl rfl) hh3 hk
    exact ⟨a, ra, hsrc, e4 a (hms.last a hfe)⟩
  have hrun : Run sep fresh (callStep sig sep params training rng) modules conn data state out outs' st2 order ms L placed
      outPlaced outs := by
    refine ⟨ho, hms, hp, e1, ?_, hinit, e3, hfin⟩
    intro x hx
    have hm : x.1 ∈ ms := by rw [← e1]; exact List.mem_map_of_mem (f := Prod.fst) hx
    refine ⟨(e2 x hx).1, ?_⟩
    rw [(e2 x hx).2]
    exact hplaced _ ((hms.mem _).1 hm)
  have hcall := (nsCall_run h).2 ⟨outs', order, ms, L, placed, outPlaced, outs, hrun⟩
  obtain ⟨R', placed', outPlaced', val', news', g1, g2, -, -, g5, g6⟩ := nsCall_dataflow h hf hcall
  rw [hp] at g2
  cases g2
  have hu' := dataflow_unique h ho hc hreq (by rw [hreqo]; exact hh3) g5 hd
  exact ⟨st2, hcall, fun m hm => by rw [← (hu'.2 m hm).2]; exact g6.new m hm, g6.frame⟩

end Verif.Forward
