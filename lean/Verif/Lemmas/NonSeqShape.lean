import Verif.Lemmas.NonSeqComplete
import Verif.Lemmas.JaxTree

/-! Shape inference of non-sequential models follows the forward pass. -/

namespace Verif.Tree

variable {α β : Type}

/-- `map f` on the first component of a result. -/
def mapFst (f : α → β) (r : Except PyErr (Tree α × List (List Str))) : Except PyErr (Tree β × List (List Str)) :=
  r.map fun x => (map f x.1, x.2)

theorem isNone_map (f : α → β) (t : Tree α) : isNone (map f t) = isNone t := by cases t <;> rfl

theorem freshNode_map (f : α → β) (k : Str) : map f (freshNode k) = freshNode k := by
  unfold freshNode; split <;> rfl

theorem padTo_map (f : α → β) (ts : List (Tree α)) (i : Nat) : padTo (ts.map (map f)) i = (padTo ts i).map (map f) := by
  simp [padTo, map]

theorem getD_map (f : α → β) (ts : List (Tree α)) (i : Nat) : (ts.map (map f)).getD i .none = map f (ts.getD i .none) := by
  simp only [List.getD, List.getElem?_map]
  cases ts[i]? <;> rfl

theorem extendOne_map (f : α → β) (fill : Tree α) (ks : List Str) : ∀ (t : Tree α) (pre : List Str),
    extendOne (fun _ _ => false) (map f fill) (map f t) pre ks = mapFst f (extendOne (fun _ _ => false) fill t pre ks) := by
  induction ks with
  | nil => intro t pre; rfl
  | cons k ks ih =>
    intro t pre
    have hl : ∀ (ts : List (Tree α)) (w : List (List Str)), (∀ c : Tree α, ∀ pre, 
        extendOne (fun _ _ => false) (map f fill) (map f c) pre ks = mapFst f (extendOne (fun _ _ => false) fill c pre ks)) →
        (if !isDigit k then (.error .keyError : Except PyErr (Tree β × List (List Str)))
      else
        let i := toInt k
        let ts' := padTo (ts.map (map f)) i
        let cur := ts'.getD i .none
        if isNone cur then
          let new := if ks = [] then map f fill else freshNode (ks.headD [])
          if ks = [] then .ok (.list (ts'.set i new), w)
          else match extendOne (fun _ _ => false) (map f fill) new (pre ++ [k]) ks with
            | .ok (c, rec) => .ok (.list (ts'.set i c), w ++ rec)
            | .error e => .error e
        else if ks = [] then
          if !false && !isNone (map f fill) then .error .valueError
          else .ok (.list ts', w)
        else match extendOne (fun _ _ => false) (map f fill) cur (pre ++ [k]) ks with
          | .ok (c, rec) => .ok (.list (ts'.set i c), w ++ rec)
          | .error e => .error e) = mapFst f (if !isDigit k then (.error .keyError : Except PyErr (Tree α × List (List Str)))
      else
        let i := toInt k
        let ts' := padTo ts i
        let cur := ts'.getD i .none
        if isNone cur then
          let new := if ks = [] then fill else freshNode (ks.headD [])
          if ks = [] then .ok (.list (ts'.set i new), w)
          else match extendOne (fun _ _ => false) fill new (pre ++ [k]) ks with
            | .ok (c, rec) => .ok (.list (ts'.set i c), w ++ rec)
            | .error e => .error e
        else if ks = [] then
          if !false && !isNone fill then .error .valueError
          else .ok (.list ts', w)
        else match extendOne (fun _ _ => false) fill cur (pre ++ [k]) ks with
          | .ok (c, rec) => .ok (.list (ts'.set i c), w ++ rec)
          | .error e => .error e) := by
      intro ts w ih
      split
      · rfl
      · simp only [padTo_map, getD_map, isNone_map]
        split
        · split
          · simp [mapFst, Except.map, map, mapL_eq, List.map_set]
          · rw [← freshNode_map f, ih]
            cases extendOne (fun _ _ => false) fill (freshNode (ks.headD [])) (pre ++ [k]) ks with
            | error e => rfl
            | ok c => simp [mapFst, Except.map, map, mapL_eq, List.map_set]
        · split
          · split
            · rfl
            · simp [mapFst, Except.map, map, mapL_eq]
          · rw [ih]
            cases extendOne (fun _ _ => false) fill ((padTo ts (toInt k)).getD (toInt k) .none) (pre ++ [k]) ks with
            | error e => rfl
            | ok c => simp [mapFst, Except.map, map, mapL_eq, List.map_set]
    cases t with
    | leaf b => simp [extendOne, map, mapFst, Except.map]
    | none => simp [extendOne, map, mapFst, Except.map]
    | list ts =>
      have := hl ts [] ih
      simp only [map, mapL_eq]
      rw [extendOne.eq_def, extendOne.eq_def]
      simp only [ne_eq, not_true_eq_false, false_and, if_false]
      exact this
    | tuple ts =>
      have := hl ts [pre] ih
      simp only [map, mapL_eq]
      rw [extendOne.eq_def, extendOne.eq_def]
      simp only
      split
      · rfl
      · exact this
    | dict kvs =>
      simp only [map]
      rw [extendOne.eq_def, extendOne.eq_def]
      simp only [ne_eq, not_true_eq_false, false_and, if_false]
      rw [lookup_mapD]
      cases hk : kvs.lookup k with
      | none =>
        simp only [Option.map_none]
        split
        · simp [mapFst, Except.map, map, dictSet_map]
        · rw [← freshNode_map f, ih]
          cases extendOne (fun _ _ => false) fill (freshNode (ks.headD [])) (pre ++ [k]) ks with
          | error e => rfl
          | ok c => simp [mapFst, Except.map, map, dictSet_map]
      | some c =>
        simp only [Option.map_some, isNone_map]
        split
        · split
          · rfl
          · simp [mapFst, Except.map, map]
        · rw [ih]
          cases extendOne (fun _ _ => false) fill c (pre ++ [k]) ks with
          | error e => rfl
          | ok c => simp [mapFst, Except.map, map, dictSet_map]

theorem extendAll_map (f : α → β) : ∀ (pfs : List (List Str × Tree α)) (t : Tree α),
    extendAll (fun _ _ => false) (map f t) (pfs.map fun x => (x.1, map f x.2)) = mapFst f (extendAll (fun _ _ => false) t pfs)
  | [], t => rfl
  | (p, fill) :: rest, t => by
    simp only [List.map_cons, extendAll, extendOne_map]
    cases extendOne (fun _ _ => false) fill t [] p with
    | error e => rfl
    | ok x =>
      simp only [mapFst, Except.map]
      have := extendAll_map f rest x.1
      rw [this]
      cases extendAll (fun _ _ => false) x.1 rest with
      | error e => rfl
      | ok y => rfl

theorem restoreTuples_map (f : α → β) : ∀ (ps : List (List Str)) (t : Tree α),
    restoreTuples (map f t) ps = (restoreTuples t ps).map (map f)
  | [], t => rfl
  | p :: ps, t => by
    simp only [restoreTuples, get_map]
    cases get t p with
    | error e => rfl
    | ok x =>
      cases x with
      | list ts =>
        simp only [Except.map, map]
        have := set_map f (.tuple ts) t p
        simp only [map] at this
        rw [this]
        cases set t p (.tuple ts) with
        | error e => rfl
        | ok y => exact restoreTuples_map f ps y
      | _ => rfl

theorem extend_none_map (f : α → β) (pfs : List (List Str × Tree α)) :
    extend (fun _ _ => false) .none (pfs.map fun x => (x.1, map f x.2)) = (extend (fun _ _ => false) .none pfs).map (map f) := by
  unfold extend
  simp only [List.map_map, Function.comp_def]
  have key : ∀ b : Bool, (match (if b then .list [] else .dict [] : Tree β) with
      | .tuple ts => (match extendAll (fun _ _ => false) (.list ts) (pfs.map fun x => (x.1, map f x.2)) with
        | .error e => .error e
        | .ok (t, rec) =>
          match restoreTuples t rec with
          | .error e => .error e
          | .ok (.list ts') => .ok (.tuple ts')
          | .ok t' => .ok t' : Except PyErr (Tree β))
      | b => (match extendAll (fun _ _ => false) b (pfs.map fun x => (x.1, map f x.2)) with
        | .error e => .error e
        | .ok (t, rec) => restoreTuples t rec)) =
      (match (if b then .list [] else .dict [] : Tree α) with
      | .tuple ts => (match extendAll (fun _ _ => false) (.list ts) pfs with
        | .error e => .error e
        | .ok (t, rec) =>
          match restoreTuples t rec with
          | .error e => .error e
          | .ok (.list ts') => .ok (.tuple ts')
          | .ok t' => .ok t' : Except PyErr (Tree α))
      | b => (match extendAll (fun _ _ => false) b pfs with
        | .error e => .error e
        | .ok (t, rec) => restoreTuples t rec)).map (map f) := by
    intro b
    cases b
    · have := extendAll_map f pfs (.dict [])
      simp only [map, mapD] at this
      simp only [Bool.false_eq_true, if_false]
      rw [this]
      cases extendAll (fun _ _ => false) (.dict []) pfs with
      | error e => rfl
      | ok x => exact restoreTuples_map f x.2 x.1
    · have := extendAll_map f pfs (.list [])
      simp only [map, mapL] at this
      simp only [if_true]
      rw [this]
      cases extendAll (fun _ _ => false) (.list []) pfs with
      | error e => rfl
      | ok x => exact restoreTuples_map f x.2 x.1
  exact key _

end Verif.Tree

namespace Verif.Forward
open TreeSpec ConnSpec PathSpec ForwardSpec DataflowSpec Conn Tree

variable {M P S K A σ : Type} {sep : Char} {modules : Tree M} {conn : List (Str × List Str)} {fresh : Str → Nat → Nat → Str}

/-! ### The structure of the module tree is all that matters for the connections -/

/-- The tree without its leaves. -/
def skel {α : Type} (t : Tree α) : Tree Unit := map (fun _ => ()) t

theorem getPath_map {α β : Type} (f : α → β) (p : List Str) : ∀ t : Tree α,
    getPath (fun _ => false) true (map f t) p = (getPath (fun _ => false) true t p).map fun x => (map f x.1, x.2) := by
  induction p with
  | nil => intro t; rfl
  | cons k ks ih =>
    intro t
    rw [getPath.eq_def, getPath.eq_def]
    simp only
    by_cases h : k = [] ∧ ks = []
    · simp [h, Except.map]
    · simp only [h, if_false, Bool.false_eq_true]
      cases t with
      | leaf b => rfl
      | none => rfl
      | list ts =>
        simp only [map, mapL_eq, List.getElem?_map]
        split
        · rfl
        · cases ts[toInt k]? with
          | none => rfl
          | some c => exact ih c
      | tuple ts =>
        simp only [map, mapL_eq, List.getElem?_map]
        split
        · rfl
        · cases ts[toInt k]? with
          | none => rfl
          | some c => exact ih c
      | dict kvs =>
        simp only [map, lookup_mapD]
        cases kvs.lookup k with
        | none => rfl
        | some c => exact ih c

theorem remainder_map {α β : Type} (cfg : Cfg) (f : α → β) (t : Tree α) : remainder cfg (map f t) = remainder cfg t := by
  funext s
  unfold remainder
  rw [getPath_map]
  cases getPath (fun _ => false) true t (splitOn cfg.sep s) with
  | error e => rfl
  | ok x => rfl

theorem partition_congr {α β : Type} {cfg : Cfg} {t : Tree α} {t' : Tree β} (h : remainder cfg t = remainder cfg t')
    (conn : List (Str × List Str)) : partition cfg t conn = partition cfg t' conn := by
  have h1 : partKey cfg t = partKey cfg t' := by funext k; unfold partKey; rw [h]
  have h2 : partVal cfg t = partVal cfg t' := by funext k; unfold partVal; rw [h]
  unfold partition
  congr 1
  generalize ([] : List (Str × List Str)) = acc
  induction conn generalizing acc with
  | nil => rfl
  | cons kv rest ih =>
    obtain ⟨k, vs⟩ := kv
    simp only [partLoop, h1, h2, ih]

theorem remainder_skel {t t' : Tree M} (h : skel t = skel t') (cfg : Cfg) : remainder cfg t = remainder cfg t' := by
  rw [← remainder_map cfg (fun _ => ()) t, ← remainder_map cfg (fun _ => ()) t']
  exact congrArg _ h

theorem execOrder_skel {t t' : Tree M} (h : skel t = skel t') : execOrder sep t conn = execOrder sep t' conn := by
  unfold execOrder outerConnections
  rw [partition_congr (remainder_skel h _)]

theorem concretize_skel {t t' : Tree M} (h : skel t = skel t') (cfg : Cfg) :
    concretizeConnections cfg fresh t conn = concretizeConnections cfg fresh t' conn := by
  unfold concretizeConnections
  rw [partition_congr (remainder_skel h _)]

theorem place_skel {t t' : Tree M} (h : skel t = skel t') (cfg : Cfg) :
    place cfg fresh t conn = place cfg fresh t' conn := by
  unfold place
  rw [concretize_skel h]

theorem get_skel {t : Tree M} {m : List Str} : (∃ b, get t m = .ok (.leaf b)) ↔ get (skel t) m = .ok (.leaf ()) := by
  unfold skel
  rw [get_map]
  constructor
  · rintro ⟨b, h⟩; rw [h]; rfl
  · intro h
    cases hg : get t m with
    | error e => rw [hg] at h; simp [Except.map] at h
    | ok c =>
      rw [hg] at h
      cases c with
      | leaf b => exact ⟨b, rfl⟩
      | _ => simp [Except.map, map] at h

theorem isModule_skel {t t' : Tree M} (h : skel t = skel t') (cfg : Cfg) : IsModule cfg t = IsModule cfg t' := by
  funext m
  unfold IsModule
  rw [get_skel, get_skel, h]

theorem source_skel {t t' : Tree M} (h : skel t = skel t') (cfg : Cfg) : Source cfg t = Source cfg t' := by
  funext s m r
  unfold Source
  rw [isModule_skel h]

theorem target_skel {t t' : Tree M} (h : skel t = skel t') (cfg : Cfg) : Target cfg t = Target cfg t' := by
  funext s m r
  unfold Target
  rw [isModule_skel h]

theorem names_skel {t t' : Tree M} (h : skel t = skel t') (hn : Names sep t conn) : Names sep t' conn := by
  refine ⟨hn.digit, hn.inSep, hn.outSep, ⟨hn.wf.keys, ?_, ?_⟩, hn.canonSrc, hn.canonTgt, hn.cleanSrc, hn.cleanTgt⟩
  · rw [← source_skel h]; exact hn.wf.source
  · rw [← target_skel h]; exact hn.wf.target

theorem scheduled_skel {t t' : Tree M} (h : skel t = skel t') (cfg : Cfg) : Scheduled cfg t conn = Scheduled cfg t' conn := by
  have hf : Feeds cfg t conn = Feeds cfg t' conn := by
    funext a b
    unfold Feeds
    rw [source_skel h, target_skel h]
  funext m
  unfold Scheduled
  rw [isModule_skel h, hf]

theorem skel_set {t t' : Tree M} {m : List Str} {b b' : M} (h : get t m = .ok (.leaf b))
    (hs : Tree.set t m (.leaf b') = .ok t') : skel t' = skel t := by
  have h1 := set_map (fun _ : M => ()) (.leaf b') t m
  rw [hs] at h1
  exact set_self (get_skel.1 ⟨b, h⟩) h1

/-! ### The simulation -/

theorem shapeStep_iff (sig : Sig M P S K A) (b : M) {m : List Str} (hc : Comps sep m) (hne : m ≠ []) (inp out ins ins' : Tree Shape) :
    shapeStep sig sep b (joinWith sep m) inp ins = .ok (out, ins') ↔
    Tree.set ins m inp = .ok ins' ∧ sig.outShape b inp = .ok out := by
  unfold shapeStep
  rw [split_join_comps hc hne]
  constructor
  · intro h
    split at h
    · simp at h
    · next i hi =>
      split at h
      · simp at h
      · next o ho =>
        simp only [Except.ok.injEq, Prod.mk.injEq] at h
        obtain ⟨rfl, rfl⟩ := h
        exact ⟨hi, ho⟩
  · rintro ⟨h1, h2⟩
    simp only [h1, h2]

theorem assemble_map {B : Type} (f : A → B) (outs : Tree A) (req : Tree Str) :
    assemble sep (map f outs) req = (assemble sep outs req).map (map f) := by
  unfold assemble
  rw [← mapM_map]
  congr 1
  funext p
  exact get_map f outs _

theorem steps_ins {sig : Sig M P S K A} {q : List Str} (hq : Proper q)
    {L : List (List Str × M × Tree Str)} {outs outs' : Tree Shape} {st st' : Tree Shape}
    (h : Steps sep (shapeStep sig sep) L outs st outs' st') (hL : ∀ x ∈ L, Comps sep x.1 ∧ x.1 ≠ [])
    (hd : ∀ x ∈ L, Diverge x.1 q) : get st' q = get st q := by
  induction h with
  | nil => rfl
  | cons h1 h2 h3 h4 ih =>
    rw [ih (fun x hx => hL x (List.mem_cons_of_mem _ hx)) (fun x hx => hd x (List.mem_cons_of_mem _ hx))]
    have hset := ((shapeStep_iff sig _ (hL _ List.mem_cons_self).1 (hL _ List.mem_cons_self).2 _ _ _ _).1 h2).1
    exact get_set_div hset (hd _ List.mem_cons_self) hq

/-- The forward pass can be followed by shape inference. -/
theorem sim_exists {sig : Sig M P S K A} {shp : A → Shape} (hdec : Declares sig shp) {params : Tree P} {training : Bool} {rng : K}
    {L : List (List Str × M × Tree Str)} {outs outs' : Tree A} {st st' : Tree S}
    (h : Steps sep (callStep sig sep params training rng) L outs st outs' st') :
    ∀ ins : Tree Shape, (∀ x ∈ L, Comps sep x.1 ∧ x.1 ≠ []) → ((L.map Prod.fst).Pairwise Diverge) →
    (∀ x ∈ L, Settable ins x.1) → ∃ ins', Steps sep (shapeStep sig sep) L (map shp outs) ins (map shp outs') ins' := by
  induction h with
  | nil => intro ins _ _ _; exact ⟨ins, .nil _ _⟩
  | @cons m b req L outs st inp out st1 outs1 outs' st' h1 h2 h3 h4 ih =>
    intro ins hL hd hs
    obtain ⟨hc, hne⟩ := hL _ List.mem_cons_self
    simp only at hc hne
    obtain ⟨ins1, hi⟩ := set_ok (map shp inp) m ins (fun w hw => (hc w hw).1) (hs _ List.mem_cons_self)
    obtain ⟨p, s, s', -, -, hcall, -⟩ := (callStep_iff sig params training rng b hc hne _ _ _ _).1 h2
    simp only [List.map_cons, List.pairwise_cons] at hd
    obtain ⟨ins', hr⟩ := ih ins1 (fun x hx => hL x (List.mem_cons_of_mem _ hx)) hd.2 (by
      intro x hx
      exact settable_set hi (hd.1 _ (List.mem_map_of_mem (f := Prod.fst) hx)) (hs x (List.mem_cons_of_mem _ hx)))
    refine ⟨ins', .cons (inp := map shp inp) (out := map shp out) (st1 := ins1) (outs1 := map shp outs1) ?_ ?_ ?_ hr⟩
    · rw [assemble_map, h1]; rfl
    · exact (shapeStep_iff sig b hc hne _ _ _ _).2 ⟨hi, hdec _ _ _ _ _ _ _ _ hcall⟩
    · rw [set_map, h3]; rfl

/-- Shape inference with the original modules and the forward pass with the compiled ones run in parallel; every module has
been compiled for the shape of what it gets. -/
theorem sim_compiled {sig : Sig M P S K A} {shp : A → Shape} (hdec : Declares sig shp)
    (hkeep : ∀ m k s m', sig.compile m k s = .ok m' → sig.outShape m' s = sig.outShape m s)
    {params : Tree P} {training : Bool} {rng : K} {L' : List (List Str × M × Tree Str)} {outs outs' : Tree A} {st st' : Tree S}
    (h : Steps sep (callStep sig sep params training rng) L' outs st outs' st') :
    ∀ (L : List (List Str × M × Tree Str)) (ins ins' outsS outsS' : Tree Shape),
      Steps sep (shapeStep sig sep) L outsS ins outsS' ins' → outsS = map shp outs →
      (∀ x ∈ L', Comps sep x.1 ∧ x.1 ≠ []) → ((L'.map Prod.fst).Pairwise Diverge) →
      List.Forall₂ (fun x y => x.1 = y.1 ∧ x.2.2 = y.2.2 ∧ ∃ k s, get ins' x.1 = .ok s ∧ sig.compile x.2.1 k s = .ok y.2.1) L L' →
      outsS' = map shp outs' ∧
      ∀ L1 x L2, L' = L1 ++ x :: L2 → ∀ outs1 st1, Steps sep (callStep sig sep params training rng) L1 outs st outs1 st1 →
        ∀ inp, assemble sep outs1 x.2.2 = .ok inp → get ins' x.1 = .ok (map shp inp) := by
  induction h with
  | nil outs st =>
    intro L ins ins' outsS outsS' h e _ _ hf
    cases hf
    cases h
    exact ⟨e, by intro L1 x L2 e; simp at e⟩
  | @cons m b req L' outs st inp out st1 outs1 outs' st' h1 h2 h3 h4 ih =>
    intro L ins ins' outsS outsS' h e hL hd hf
    subst e
    cases hf with
    | @cons x0 _ L0 _ hx hrest =>
    obtain ⟨m0, b0, req0⟩ := x0
    obtain ⟨e1, e2, k, s, hs, hcomp⟩ := hx
    simp only at e1 e2 hs hcomp
    subst e1 e2
    cases h with
    | @cons _ _ _ _ _ _ inpS outS ins1 outsS1 _ _ g1 g2 g3 g4 =>
    obtain ⟨hc, hne⟩ := hL _ List.mem_cons_self
    simp only at hc hne
    rw [assemble_map, h1] at g1
    simp only [Except.map, Except.ok.injEq] at g1
    subst g1
    obtain ⟨hi, ho⟩ := (shapeStep_iff sig b0 hc hne _ _ _ _).1 g2
    simp only [List.map_cons, List.pairwise_cons] at hd
    have hp : Proper m0 := fun w hw => (hc w hw).1
    have hpaths : L0.map Prod.fst = L'.map Prod.fst := by
      clear g4 ih h4 hd hL
      induction hrest with
      | nil => rfl
      | cons a _ ih => simp [a.1, ih]
    have hL0 : ∀ x ∈ L0, x.1 ∈ L'.map Prod.fst := by
      intro x hx; rw [← hpaths]; exact List.mem_map_of_mem (f := Prod.fst) hx
    have hinp : get ins' m0 = .ok (map shp inp) := by
      rw [steps_ins hp g4 (by
        intro x hx
        obtain ⟨y, hy, e⟩ := List.mem_map.1 (hL0 x hx)
        rw [← e]; exact hL y (List.mem_cons_of_mem _ hy)) (fun x hx => diverge_symm (hd.1 _ (hL0 x hx)))]
      exact get_set hi
    rw [hinp] at hs
    simp only [Except.ok.injEq] at hs
    subst hs
    obtain ⟨p, s, s', a1, a2, hcall, a3⟩ := (callStep_iff sig params training rng b hc hne _ _ _ _).1 h2
    have hout := hdec _ _ _ _ _ _ _ _ hcall
    rw [hkeep _ _ _ _ hcomp, ho] at hout
    simp only [Except.ok.injEq] at hout
    subst hout
    have hset := set_map shp out outs m0
    rw [h3, g3] at hset
    simp only [Except.map, Except.ok.injEq] at hset
    subst hset
    obtain ⟨r1, r2⟩ := ih L0 ins1 ins' _ outsS' g4 rfl (fun x hx => hL x (List.mem_cons_of_mem _ hx)) hd.2 hrest
    refine ⟨r1, ?_⟩
    intro L1 x L2 e outs2 st2 hst inp2 ha
    cases L1 with
    | nil =>
      simp only [List.nil_append, List.cons.injEq] at e
      obtain ⟨rfl, rfl⟩ := e
      cases hst
      rw [h1] at ha
      cases ha
      exact hinp
    | cons y L1 =>
      simp only [List.cons_append, List.cons.injEq] at e
      obtain ⟨rfl, rfl⟩ := e
      cases hst with
      | cons f1 f2 f3 f4 =>
        rw [h1] at f1; cases f1
        rw [h2] at f2
        simp only [Except.ok.injEq, Prod.mk.injEq] at f2
        obtain ⟨rfl, rfl⟩ := f2
        rw [h3] at f3; cases f3
        exact r2 L1 x L2 rfl outs2 st2 f4 inp2 ha

/-! ### Compilation -/

theorem compileLoop_ok {sig : Sig M P S K A} {ins : Tree Shape} : ∀ {l : List (List Str)} {k : K} {t t' : Tree M},
    (∀ m ∈ l, Comps sep m ∧ m ≠ [] ∧ reserved (joinWith sep m) = false) → l.Pairwise Diverge →
    nsCompileLoop sig sep ins (l.map (joinWith sep) ++ ["output".toList]) k t = .ok t' →
    skel t' = skel t ∧ (∀ q, Proper q → (∀ m ∈ l, Diverge m q) → get t' q = get t q) ∧
    ∀ m ∈ l, ∃ b b' k s, get t m = .ok (.leaf b) ∧ get ins m = .ok s ∧ sig.compile b k s = .ok b' ∧ get t' m = .ok (.leaf b')
  | [], k, t, t', _, _, h => by
    have hr : reserved "output".toList = true := by decide
    rw [List.map_nil, List.nil_append, nsCompileLoop.eq_def] at h
    simp only [hr, if_true, nsCompileLoop, Except.ok.injEq] at h
    subst h
    exact ⟨rfl, fun _ _ _ => rfl, by simp⟩
  | m :: l, k, t, t', hl, hd, h => by
    obtain ⟨hc, hne, hr⟩ := hl m (by simp)
    rw [List.map_cons, List.cons_append, nsCompileLoop.eq_def] at h
    simp only [hr, Bool.false_eq_true, if_false, split_join_comps hc hne] at h
    split at h
    · simp at h
    · next b hb =>
      rw [leafAt_iff _ hc hne] at hb
      split at h
      · simp at h
      · next s hs =>
        split at h
        · simp at h
        · next b' hcomp =>
          split at h
          · simp at h
          · next t1 hset =>
            rw [List.pairwise_cons] at hd
            obtain ⟨r1, r2, r3⟩ := compileLoop_ok (fun x hx => hl x (by simp [hx])) hd.2 h
            have hp : ∀ x ∈ m :: l, Proper x := fun x hx w hw => ((hl x hx).1 w hw).1
            refine ⟨r1.trans (skel_set hb hset), ?_, ?_⟩
            · intro q hq hdq
              rw [r2 q hq fun x hx => hdq x (by simp [hx])]
              exact get_set_div hset (hdq m (by simp)) hq
            · intro x hx
              rcases List.mem_cons.1 hx with rfl | hx
              · refine ⟨b, b', _, s, hb, hs, hcomp, ?_⟩
                rw [r2 x (hp x (by simp)) fun y hy => diverge_symm (hd.1 y hy)]
                exact get_set hset
              · obtain ⟨c, c', k', s', g1, g2, g3, g4⟩ := r3 x hx
                refine ⟨c, c', k', s', ?_, g2, g3, g4⟩
                rw [← g1]
                exact (get_set_div hset (hd.1 x hx) (hp x (by simp [hx]))).symm

theorem order_reserved (h : Names sep modules conn) {order : List Str} {ms : List (List Str)} (ho : Order sep modules conn order ms) :
    ∀ m ∈ ms, Comps sep m ∧ m ≠ [] ∧ reserved (joinWith sep m) = false := by
  intro m hm
  have := (ho.mem m).1 hm
  exact ⟨(ho.comps m hm).1, this.1.1, reserved_false h this.1 (ho.comps m hm).1⟩

theorem order_unique (h : Names sep modules conn) {order : List Str} {ms ms' : List (List Str)}
    (h1 : Order sep modules conn order ms) (h2 : Order sep modules conn order ms') : ms = ms' := by
  have e1 := order_split h h1
  rw [order_split h h2] at e1
  simp only [List.cons.injEq, true_and, List.append_cancel_right_eq] at e1
  exact e1.symm

theorem nsInit_shape {order : List Str} {data : Tree A} {outs : Tree A} (shp : A → Shape) (h : nsInit sep order data = .ok outs) :
    nsInit sep order (map shp data) = .ok (map shp outs) ∧
    ∃ t : Tree Shape, extend (fun _ _ => false) .none (order.map fun s => (splitOn sep s, (.none : Tree Shape))) = .ok t := by
  unfold nsInit at h
  have he := extend_none_map shp (order.map fun s => (splitOn sep s, (.none : Tree A)))
  rw [List.map_map] at he
  simp only [Function.comp_def, map] at he
  split at h
  · simp at h
  · next t ht =>
    rw [ht] at he
    refine ⟨?_, _, he⟩
    unfold nsInit
    rw [he]
    simp only [Except.map]
    rw [set_map, h]
    rfl

theorem init_settable (h : Names sep modules conn) {order : List Str} {ms : List (List Str)} (ho : Order sep modules conn order ms)
    {B : Type} {t : Tree B} (ht : extend (fun _ _ => false) .none (order.map fun s => (splitOn sep s, (.none : Tree B))) = .ok t) :
    ∀ m ∈ ms, Settable t m := by
  have e : (order.map fun s => (splitOn sep s, (Tree.none : Tree B))) =
      (["input".toList] :: (ms ++ [["output".toList]])).map fun p => (p, Tree.none) := by
    rw [← order_split h ho, List.map_map]; rfl
  rw [e] at ht
  have hpr : ∀ p ∈ ["input".toList] :: (ms ++ [["output".toList]]), p ≠ [] ∧ Proper p := by
    intro p hp
    rcases List.mem_cons.1 hp with rfl | hp
    · exact ⟨by simp, fun w hw => (comps_in h w hw).1⟩
    · rcases List.mem_append.1 hp with hp | hp
      · exact ⟨((ho.mem p).1 hp).1.1, fun w hw => ((ho.comps p hp).1 w hw).1⟩
      · simp only [List.mem_singleton] at hp
        subst hp
        exact ⟨by simp, fun w hw => (comps_out h w hw).1⟩
  have hnt : hasTuple t = false := extend_none_noTuple ht (by
    intro pf hpf
    obtain ⟨p, hp, rfl⟩ := List.mem_map.1 hpf
    rfl)
  intro p hp
  have hp' : p ∈ ["input".toList] :: (ms ++ [["output".toList]]) := by simp [hp]
  obtain ⟨v, hv⟩ : ∃ v, get t p = .ok v := by
    exact extend_none_get ht (by
      intro pf hpf
      obtain ⟨p, hp, rfl⟩ := List.mem_map.1 hpf
      rfl) (by
      intro pf hpf
      obtain ⟨p, hp, rfl⟩ := List.mem_map.1 hpf
      exact hpr p hp) (by rw [List.pairwise_map]; exact order_diverge h ho) (p, .none) (List.mem_map.2 ⟨p, hp', rfl⟩)
  exact settable_of_get (hpr p hp').1 (hpr p hp').2 hnt hv

theorem nsShapes_iff {sig : Sig M P S K A} {s r outs ins : Tree Shape} :
    nsShapes sig sep fresh modules conn s = .ok (r, outs, ins) ↔ ∃ order t, execOrder sep modules conn = .ok order ∧
      extend (fun _ _ => false) .none (order.map fun s => (splitOn sep s, (.none : Tree Shape))) = .ok t ∧
      nsRun sep fresh (shapeStep sig sep) modules conn s t = .ok (r, outs, ins) := by
  unfold nsShapes
  constructor
  · intro h
    split at h
    · simp at h
    · next order ho =>
      split at h
      · simp at h
      · next t ht => exact ⟨order, t, ho, ht, h⟩
  · rintro ⟨order, t, h1, h2, h3⟩
    simp only [h1, h2, h3]

/-- The declared shape of a non-sequential model is the shape of what it computes. -/
theorem nsShapes_of_call {sig : Sig M P S K A} {shp : A → Shape} (hdec : Declares sig shp) (h : Names sep modules conn)
    {params : Tree P} {data out : Tree A} {training : Bool} {state st' : Tree S} {rng : K}
    (hcall : nsCall sig sep fresh modules conn params data training state rng = .ok (out, st')) :
    ∃ outs ins, nsShapes sig sep fresh modules conn (map shp data) = .ok (map shp out, outs, ins) := by
  obtain ⟨outs', order, ms, L, placed, outPlaced, outs, hr⟩ := (nsCall_run h).1 hcall
  obtain ⟨hin, t, ht⟩ := nsInit_shape shp hr.init
  have hLm : ∀ x ∈ L, x.1 ∈ ms := by
    intro x hx; rw [← hr.paths]; exact List.mem_map_of_mem (f := Prod.fst) hx
  obtain ⟨ins', hs⟩ := sim_exists hdec hr.steps t (fun x hx => by
      have := order_reserved h hr.ord x.1 (hLm x hx)
      exact ⟨this.1, this.2.1⟩) (by rw [hr.paths]; exact hr.ord.diverge)
    (fun x hx => init_settable h hr.ord ht _ (hLm x hx))
  refine ⟨map shp outs', ins', nsShapes_iff.2 ⟨order, t, hr.exec, ht, (nsRun_iff h).2
    ⟨order, ms, L, placed, outPlaced, map shp outs, hr.exec, hr.ord, hr.place, hr.paths, hr.elems, hin, hs, ?_⟩⟩⟩
  rw [assemble_map, hr.fin]; rfl

/-- Compilation gives every module the shape of the data it will see. -/
theorem nsCompile_call {sig : Sig M P S K A} {shp : A → Shape} (hdec : Declares sig shp)
    (hkeep : ∀ m k s m', sig.compile m k s = .ok m' → sig.outShape m' s = sig.outShape m s)
    (h : Names sep modules conn) (hf : FreshOk sep fresh) {modules' : Tree M} {key : K} {order : List Str} {r : Tree Shape}
    {params : Tree P} {data out : Tree A} {training : Bool} {state st' : Tree S} {rng : K}
    (hcomp : nsCompile sig sep fresh modules conn key (map shp data) = .ok (modules', order, r))
    (hcall : nsCall sig sep fresh modules' conn params data training state rng = .ok (out, st')) :
    r = map shp out ∧ skel modules' = skel modules ∧
    (∀ q, Proper q → (∀ m, Scheduled (nsCfg sep) modules conn m → Diverge m q) → get modules' q = get modules q) ∧
    ∃ R req val news, concretizeConnections (nsCfg sep) fresh modules conn = .ok R ∧
      (∀ m, Scheduled (nsCfg sep) modules conn m → Holds sep R m (req m)) ∧
      Holds sep R ["output".toList] (req ["output".toList]) ∧
      Dataflow (nsCfg sep) modules' params state (fun b p x s => sig.call b p x training s rng)
        (Scheduled (nsCfg sep) modules conn) req data val news out ∧
      ∀ m, Scheduled (nsCfg sep) modules conn m → ∃ b b' k inp, get modules m = .ok (.leaf b) ∧
        get modules' m = .ok (.leaf b') ∧ Fills (Reads (nsCfg sep) modules' val) (req m) inp ∧
        sig.compile b k (map shp inp) = .ok b' := by
  unfold nsCompile at hcomp
  cases ho : execOrder sep modules conn with
  | error e => rw [ho] at hcomp; simp at hcomp
  | ok order0 =>
  rw [ho] at hcomp
  simp only at hcomp
  split at hcomp
  · simp at hcomp
  · next r0 outsS ins hsh =>
    split at hcomp
    · simp at hcomp
    · next r1 hck =>
      split at hcomp
      · simp at hcomp
      · next ms' hloop =>
        simp only [Except.ok.injEq, Prod.mk.injEq] at hcomp
        obtain ⟨rfl, rfl, rfl⟩ := hcomp
        obtain rfl := checkShape_ok hck
        obtain ⟨order1, t, ho1, ht, hrun⟩ := nsShapes_iff.1 hsh
        rw [ho] at ho1
        cases ho1
        obtain ⟨order2, ms, LS, placed, outPlaced, outsS0, hS⟩ := (nsRun_iff h).1 hrun
        have hSe := hS.exec
        rw [ho] at hSe
        cases hSe
        have hres := order_reserved h hS.ord
        rw [hS.ord.eq] at hloop
        have hri : reserved "input".toList = true := by decide
        rw [List.cons_append, nsCompileLoop.eq_def] at hloop
        simp only [hri, if_true] at hloop
        obtain ⟨c1, c2, c3⟩ := compileLoop_ok hres hS.ord.diverge hloop
        have hn' := names_skel c1.symm h
        obtain ⟨outs', order', ms2, L', placed', outPlaced', outs, hr⟩ := (nsCall_run hn').1 hcall
        have hre := hr.exec
        rw [execOrder_skel c1, ho] at hre
        cases hre
        have hsc : Scheduled (nsCfg sep) ms' conn = Scheduled (nsCfg sep) modules conn := scheduled_skel c1 _
        have hms : ms2 = ms := by
          have e1 := order_split hn' hr.ord
          rw [order_split h hS.ord] at e1
          simp only [List.cons.injEq, true_and, List.append_cancel_right_eq] at e1
          exact e1.symm
        subst hms
        have hpl := hr.place
        rw [place_skel c1, hS.place] at hpl
        cases hpl
        have hL'm : ∀ x ∈ L', x.1 ∈ ms2 := by
          intro x hx; rw [← hr.paths]; exact List.mem_map_of_mem (f := Prod.fst) hx
        have hforall : List.Forall₂ (fun x y => x.1 = y.1 ∧ x.2.2 = y.2.2 ∧ ∃ k s, get ins x.1 = .ok s ∧
            sig.compile x.2.1 k s = .ok y.2.1) LS L' := by
          have hp := hS.paths
          rw [← hr.paths] at hp
          have e1 := hS.elems
          have e2 := hr.elems
          clear hr hS
          induction LS generalizing L' with
          | nil => cases L' with
            | nil => exact .nil
            | cons y L' => simp at hp
          | cons x LS ih => cases L' with
            | nil => simp at hp
            | cons y L' =>
              simp only [List.map_cons, List.cons.injEq] at hp
              refine .cons ⟨hp.1, ?_, ?_⟩ (ih L' (fun z hz => hL'm z (by simp [hz])) hp.2
                (fun z hz => e1 z (by simp [hz])) (fun z hz => e2 z (by simp [hz])))
              · have a := (e1 x (by simp)).2
                have b := (e2 y (by simp)).2
                rw [hp.1, b] at a
                simpa using a.symm
              · obtain ⟨b, b', k, s, g1, g2, g3, g4⟩ := c3 y.1 (hL'm y (by simp))
                have a := (e1 x (by simp)).1
                have b := (e2 y (by simp)).1
                rw [hp.1, g1] at a
                rw [g4] at b
                simp only [Except.ok.injEq, Tree.leaf.injEq] at a b
                exact ⟨k, s, by rw [hp.1]; exact g2, by rw [← a, ← b]; exact g3⟩
        have hin := (nsInit_shape shp hr.init).1
        rw [hS.init] at hin
        cases hin
        obtain ⟨s1, s2⟩ := sim_compiled hdec hkeep hr.steps LS t ins _ _ hS.steps rfl (fun x hx => by
          have := hres x.1 (hL'm x hx)
          exact ⟨this.1, this.2.1⟩) (by rw [hr.paths]; exact hr.ord.diverge) hforall
        refine ⟨?_, c1, ?_, ?_⟩
        · have := hS.fin
          rw [s1, assemble_map, hr.fin] at this
          simp only [Except.map, Except.ok.injEq] at this
          exact this.symm
        · intro q hq hd
          exact c2 q hq fun m hm => hd m ((hS.ord.mem m).1 hm)
        · obtain ⟨R, hR, hc⟩ := concrete_ok hn' hf
          obtain ⟨q1, q2, q3, q4⟩ := run_equations hn' hf hr hR hc
          obtain ⟨R', w1, w3, w4, w5, -⟩ := run_dataflow hn' hf hr
          rw [hsc] at w3 w5
          refine ⟨R', reqOf placed outPlaced, _, _, ?_, w3, w4, w5, ?_⟩
          · rw [← concretize_skel c1]; exact w1
          · intro m hm
            have hmm := (hS.ord.mem m).2 hm
            obtain ⟨b, b', k, s, g1, g2, g3, g4⟩ := c3 m hmm
            have : m ∈ L'.map Prod.fst := by rw [hr.paths]; exact hmm
            obtain ⟨x, hx, rfl⟩ := List.mem_map.1 this
            obtain ⟨L1, L2, e⟩ := List.append_of_mem hx
            obtain ⟨outs1, st1, inp, st2, outs2, u1, u2, u3, u4, u5, u6⟩ := q2 L1 x L2 e
            have hget := s2 L1 x L2 e outs1 st1 u1 inp u3
            rw [g2] at hget
            cases hget
            refine ⟨b, b', k, inp, g1, g4, ?_, g3⟩
            have : reqOf placed outPlaced x.1 = x.2.2 := by
              unfold reqOf
              rw [if_neg (by rintro e; exact hm.1.2.2.1 (by rw [e]; rfl)), (hr.elems x hx).2]
            rw [this]; exact u2

end Verif.Forward
