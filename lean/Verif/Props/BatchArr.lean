import Verif.Lemmas.BatchArr
import Verif.Props.Samplewise

/-!
# C15 on trees of arrays: predictions do not depend on the batch size
-/

namespace Verif.Props
open Tree Forward Samplewise DataflowSpec ForwardSpec BatchArr

variable {M P S K V : Type}

/-- **C15** on trees of arrays: for a function that computes sample by sample and leaves the state alone, and data with `n > 0` samples in every leaf, automatic batching with any limit
and in either mode returns a tree of the same structure with arrays of the same shapes and entries as one call of the compiled function, and the same state; if that call raises, so does
the batched one, with the same exception. In the mode without recompilation no sample may be a number; in the other mode no array returned may be empty. -/
theorem C15_arrays [Inhabited V] (avoid : Bool) (f : Tree (NArr V) → S → Except PyErr (Tree (NArr V) × S)) (D : Tree (NArr V) → Prop) (s : S) (d : Tree (NArr V)) (n : Nat)
    (max : Option Nat) (hf : StatefulOn D fun x => f x s) (hs : ∀ r, f d.norm s = .ok r → r.2 = s) (hD : D d.norm) (hn : 0 < n) (hmax : max ≠ some 0)
    (hd : ∀ x ∈ d.jaxLeaves, ∃ t, x.shape = n :: t) (hne : d.jaxLeaves ≠ []) (hkd : KeysOk d) (hko : ∀ r, f d.norm s = .ok r → KeysOk r.1)
    (hsc : avoid = true → ∀ x ∈ d.jaxLeaves, x.shape.length ≠ 1)
    (h0 : avoid = false → ∀ r, f d.norm s = .ok r → ∀ x ∈ r.1.jaxLeaves, x.size ≠ 0) :
    Agree (fun r r' => Related (Picked id n n) r.1 r'.1 ∧ r.2 = r'.2) (jit f d s) (autobatch avoid f max d s) := by
  have hnn : d.norm.norm = d.norm := norm_norm hkd
  have hj : ∀ r, jit f d s = .ok r → ∃ o, f d.norm s = .ok (o, r.2) ∧ r.1 = o.norm := by
    intro r hr
    unfold jit at hr
    split at hr
    · cases hr
    · next o e => cases hr; exact ⟨o.1, e, rfl⟩
  refine autobatch_pieces (n := n) ⟨fun a l b hl hal hb => ?_, fun r hr => ?_⟩ hkd hd hne hn (fun r hr => ?_) hmax hsc (fun ha r hr x hx => ?_)
  · have h1 := hf (fun i => i + a) n l ⟨hn, hl, fun i hi => by omega⟩ d.norm b.norm hD (by have := norm_related hb; rwa [hnn] at this)
    unfold jit
    rcases agree_cases h1 with ⟨e, e1, e2⟩ | ⟨x, y, e1, e2, hq1, hq2⟩
    · simp only [e1, e2]; rfl
    · simp only [e1, e2]
      exact ⟨norm_related hq1, hq2⟩
  · obtain ⟨o, h1, _⟩ := hj r hr
    exact hs (o, r.2) h1
  · obtain ⟨o, h1, h2⟩ := hj r hr
    rw [h2]
    exact ⟨keysOk_norm' (hko _ h1), sorted_norm o (hko _ h1)⟩
  · obtain ⟨o, h1, h2⟩ := hj r hr
    rw [h2] at hx
    exact h0 ha _ h1 x hx

/-! ### Models of modules without state -/

theorem seqLoop_state {A : Type} {sig : Sig M P S K A} {training : Bool} (h : ∀ m p x s k y s', sig.call m p x training s k = .ok (y, s') → s' = s) :
    ∀ {st : List (Stage M P S K)} {x y : Tree A} {ss ss' : List S}, seqLoop sig training st x ss = .ok (y, ss') → ss' = ss ++ st.map (·.state)
  | [], x, y, ss, ss', e => by cases e; simp
  | st :: rest, x, y, ss, ss', e => by
    rw [seqLoop] at e
    split at e
    · cases e
    · next y' s' e' =>
      rw [seqLoop_state h e, h _ _ _ _ _ _ _ e']
      simp

theorem stages_states : ∀ {ms : List M} {ps : List P} {ss : List S} {ks : List K}, ps.length = ms.length → ss.length = ms.length → ks.length = ms.length →
    (stages ms ps ss ks).map (·.state) = ss
  | [], _, [], _, _, _, _ => by simp [stages]
  | m :: ms, p :: ps, s :: ss, k :: ks, h1, h2, h3 => by
    rw [stages, List.map_cons, stages_states (by simpa using h1) (by simpa using h2) (by simpa using h3)]

/-- A sequential model of modules that leave their states alone leaves its state alone. -/
theorem seqCall_state {A : Type} {sig : Sig M P S K A} (hsplit : ∀ k n, (sig.splitN k n).length = n) {modules : Tree M} {params : Tree P} {d out : Tree A} {training : Bool}
    {state st : Tree S} {rng : K} (h : ∀ m p x s k y s', sig.call m p x training s k = .ok (y, s') → s' = s) (hst : state.norm = state)
    (e : seqCall sig modules params d training state rng = .ok (out, st)) : st = state := by
  unfold seqCall at e
  split at e
  · cases e
  · next hstr =>
    simp only [Bool.or_eq_true, Bool.not_eq_true', not_or, Bool.not_eq_false] at hstr
    have hp := (sameStruct_iff _ _).1 hstr.1
    have hq := (sameStruct_iff _ _).1 hstr.2
    have hlen : ∀ {X Y : Type} {t : Tree X} {u : Tree Y}, map (fun _ => ()) t = map (fun _ => ()) u → (flat u).length = (flat t).length := by
      intro X Y t u h
      have := congrArg (fun t => (flat t).length) h
      simpa [flat_map'] using this.symm
    simp only at e
    split at e
    · cases e
    · next o ss hl =>
      split at e
      · cases e
      · next st' hu =>
        cases e
        have e1 := seqLoop_state h hl
        have e2 := stages_states (ms := modules.jaxLeaves) (ps := params.jaxLeaves) (ss := state.jaxLeaves) (ks := sig.splitN rng modules.jaxLeaves.length) (hlen hp) (hlen hq) (hsplit _ _)
        rw [List.nil_append, e2] at e1
        subst e1
        have := unflat_flat modules.norm state.norm [] hstr.2
        unfold unflatten at hu
        rw [List.append_nil] at this
        rw [show state.jaxLeaves = flat state.norm from rfl, this] at hu
        cases hu
        exact hst

theorem nsLoop_state {A : Type} {sig : Sig M P S K A} {sep : Char} {params : Tree P} {training : Bool} {rng : K}
    (h : ∀ m p x s k y s', sig.call m p x training s k = .ok (y, s') → s' = s) : ∀ {L : List (Str × Option M × Tree Str)} {outs outs' : Tree A} {st st' : Tree S},
    nsLoop sep (callStep sig sep params training rng) L outs st = .ok (outs', st') → st' = st
  | [], outs, outs', st, st', e => by cases e; rfl
  | (path, m, req) :: rest, outs, outs', st, st', e => by
    unfold nsLoop at e
    split at e
    · exact nsLoop_state h e
    · split at e
      · cases e
      · split at e
        · cases e
        · split at e
          · cases e
          · next out st'' hc =>
            split at e
            · cases e
            · rw [nsLoop_state h e]
              unfold callStep at hc
              split at hc
              · cases hc
              · split at hc
                · cases hc
                · next s hs =>
                  split at hc
                  · cases hc
                  · next o s' hcall =>
                    split at hc
                    · cases hc
                    · next state' hset =>
                      cases hc
                      rw [h _ _ _ _ _ _ _ hcall] at hset
                      refine set_self ?_ hset
                      unfold leafAt at hs
                      split at hs
                      · cases hs
                      · next hg => cases hs; exact hg
                      · cases hs

/-- A model with connections of modules that leave their states alone leaves its state alone. -/
theorem nsCall_state {A : Type} {sig : Sig M P S K A} {sep : Char} {fresh : Str → Nat → Nat → Str} {modules : Tree M} {conn : List (Str × List Str)} {params : Tree P}
    {d out : Tree A} {training : Bool} {state st : Tree S} {rng : K} (h : ∀ m p x s k y s', sig.call m p x training s k = .ok (y, s') → s' = s)
    (e : nsCall sig sep fresh modules conn params d training state rng = .ok (out, st)) : st = state := by
  unfold nsCall at e
  split at e
  · cases e
  · next o outs st' hr =>
    cases e
    unfold nsRun at hr
    repeat' (split at hr; · cases hr)
    cases hr
    exact nsLoop_state h (by assumption)

theorem layer_state [Semiring V] (layer : M → Layer V) (m : M) (p : Tree (NArr V)) (x : Tree (NArr V)) (training : Bool) (s : S) (k : K) (y : Tree (NArr V)) (s' : S)
    (h : (layerSig (S := S) (K := K) layer).call m p x training s k = .ok (y, s')) : s' = s := by
  simp only [layerSig] at h
  split at h
  · cases h
  · cases h; rfl

/-- What a user has to know about the data and the result to limit the batch size: all leaves hold the same positive number of samples, dictionaries have no key twice, and the exceptions
for samples that are numbers and for empty results. -/
structure Batchable {X : Type} (avoid : Bool) (max : Option Nat) (n : Nat) (d : Tree (NArr V)) (whole : Except PyErr (Tree (NArr V) × X)) : Prop where
  samples : 0 < n
  limit : max ≠ some 0
  uniform : ∀ x ∈ d.jaxLeaves, ∃ t, x.shape = n :: t
  nonempty : d.jaxLeaves ≠ []
  keys : KeysOk d
  keysOut : ∀ r, whole = .ok r → KeysOk r.1
  scalar : avoid = true → ∀ x ∈ d.jaxLeaves, x.shape.length ≠ 1
  empty : avoid = false → ∀ r, whole = .ok r → ∀ x ∈ r.1.jaxLeaves, x.size ≠ 0

/-- **C15** for models of library modules: a model built from elementwise activations, `Reshape`, `Flatten`, `Constant`, `AffineTensor`, `TreeKey` and `TreeFlatten`, sequential or with any
connections, with any parameters, predicts the same with every limit of the batch size and in both modes. Nothing is assumed about the modules. -/
theorem C15_library [Semiring V] [Inhabited V] (layer : M → Layer V) (modules : Tree M) (params : Tree (Tree (NArr V))) (training : Bool) (state : Tree S) (rng : K) (avoid : Bool)
    (max : Option Nat) (n : Nat) (d : Tree (NArr V)) :
    (state.norm = state → Batchable avoid max n d (seqCall (layerSig layer) modules params d.norm training state rng) →
      Agree (fun r r' => Related (Picked id n n) r.1 r'.1 ∧ r.2 = r'.2) (jit (fun x s => seqCall (layerSig layer) modules params x training s rng) d state)
        (autobatch avoid (fun x s => seqCall (layerSig layer) modules params x training s rng) max d state)) ∧
    ∀ (sep : Char) (fresh : Str → Nat → Nat → Str) (conn : List (Str × List Str)), Names sep modules conn →
      Batchable avoid max n d (nsCall (layerSig layer) sep fresh modules conn params d.norm training state rng) →
      Agree (fun r r' => Related (Picked id n n) r.1 r'.1 ∧ r.2 = r'.2) (jit (fun x s => nsCall (layerSig layer) sep fresh modules conn params x training s rng) d state)
        (autobatch avoid (fun x s => nsCall (layerSig layer) sep fresh modules conn params x training s rng) max d state) := by
  refine ⟨fun hst h => ?_, fun sep fresh conn hn h => ?_⟩
  · exact C15_arrays avoid _ (fun _ => True) state d n max (C93_library layer modules params training state rng).1
      (fun r hr => seqCall_state (fun k n => List.length_replicate) (fun m p x s k y s' => layer_state layer m p x training s k y s') hst (out := r.1) hr)
      trivial h.samples h.limit h.uniform h.nonempty h.keys h.keysOut h.scalar h.empty
  · exact C15_arrays avoid _ (fun _ => True) state d n max ((C93_library layer modules params training state rng).2 sep fresh conn hn)
      (fun r hr => nsCall_state (fun m p x s k y s' => layer_state layer m p x training s k y s') (out := r.1) hr)
      trivial h.samples h.limit h.uniform h.nonempty h.keys h.keysOut h.scalar h.empty

/-- The diamond of C93 on three samples with at most two per batch: the hypotheses hold in both modes, and so does the conclusion. -/
example : ∀ avoid, Batchable avoid (some 2) 3 (.leaf threeSamples) (nsCall (K := Unit) (layerSig diaLayer) '.' uFresh diaModules diaConn diaTensors (.leaf threeSamples) true diaUnit ()) := by
  have e : ∃ r, nsCall (K := Unit) (layerSig diaLayer) '.' uFresh diaModules diaConn diaTensors (.leaf threeSamples) true diaUnit () = .ok r ∧
      ∃ a b, r.1 = .list [.leaf a, .leaf b] ∧ a.shape = [3, 1] ∧ b.shape = [3, 2] := by
    have h : shown (nsCall (K := Unit) (layerSig diaLayer) '.' uFresh diaModules diaConn diaTensors (.leaf threeSamples) true diaUnit ()) =
        .ok (.list [.leaf ([3, 1], [2, 32, 62]), .leaf ([3, 2], [15, 15, 15, 15, 20, 21])]) := by decide +kernel
    cases hr : nsCall (K := Unit) (layerSig diaLayer) '.' uFresh diaModules diaConn diaTensors (.leaf threeSamples) true diaUnit () with
    | error e => rw [hr] at h; cases h
    | ok r =>
      rw [hr] at h
      simp only [shown, Except.map, Except.ok.injEq] at h
      refine ⟨r, rfl, ?_⟩
      cases hr1 : r.1 with
      | list ts =>
        rw [hr1] at h
        match ts, h with
        | t :: ts, h =>
          cases t with
          | leaf a =>
            match ts, h with
            | t :: ts, h =>
              cases t with
              | leaf b =>
                cases ts with
                | nil =>
                  simp only [Tree.map, mapL, Tree.list.injEq, List.cons.injEq, Tree.leaf.injEq, Prod.mk.injEq] at h
                  exact ⟨a, b, rfl, h.1.1, h.2.1.1⟩
                | cons t ts => simp [Tree.map, mapL] at h
              | _ => simp [Tree.map, mapL] at h
            | [], h => simp [Tree.map, mapL] at h
          | _ => simp [Tree.map, mapL] at h
        | [], h => simp [Tree.map, mapL] at h
      | _ => rw [hr1] at h; simp [Tree.map] at h
  obtain ⟨r, e1, a, b, e2, e3, e4⟩ := e
  intro avoid
  refine ⟨by decide, by decide, ?_, by decide, trivial, ?_, ?_, ?_⟩
  · intro x hx
    simp only [jaxLeaves, Tree.norm, flat, List.mem_singleton] at hx
    subst hx
    exact ⟨[2], rfl⟩
  · intro r' hr'
    rw [e1] at hr'
    cases hr'
    rw [e2]
    exact ⟨trivial, trivial, trivial⟩
  · intro _ x hx
    simp only [jaxLeaves, Tree.norm, flat, List.mem_singleton] at hx
    subst hx
    decide
  · intro _ r' hr' x hx
    rw [e1] at hr'
    cases hr'
    rw [e2] at hx
    simp only [jaxLeaves, Tree.norm, normL, flat, flatL, List.append_nil, List.mem_append, List.mem_singleton] at hx
    rcases hx with rfl | rfl <;> simp [NArr.size, e3, e4]

example : ∀ avoid, shown (autobatch avoid (fun x s => nsCall (K := Unit) (layerSig diaLayer) '.' uFresh diaModules diaConn diaTensors x true s ()) (some 2) (.leaf threeSamples) diaUnit) =
    .ok (.list [.leaf ([3, 1], [2, 32, 62]), .leaf ([3, 2], [15, 15, 15, 15, 20, 21])]) := by decide +kernel

/-- **C15, defect**: in the mode without recompilation, if there is a remainder and the samples of some leaf are numbers, no call succeeds, whatever the function. -/
theorem C15_scalar_samples_refuted [Inhabited V] (f : Tree (NArr V) → S → Except PyErr (Tree (NArr V) × S)) (s : S) (d : Tree (NArr V)) (n m : Nat)
    (hd : ∀ x ∈ d.jaxLeaves, ∃ t, x.shape = n :: t) (hkd : KeysOk d) (hm : 0 < m) (hr : 0 < n % m) (hnm : m < n) (hsc : ∃ x ∈ d.jaxLeaves, x.shape.length = 1)
    (r : Tree (NArr V) × S) : autobatch true f (some m) d s ≠ .ok r := by
  obtain ⟨x, hx, hx1⟩ := hsc
  have hne : d.jaxLeaves ≠ [] := by intro e; rw [e] at hx; cases hx
  obtain ⟨parts, _, ⟨h0, _⟩ | ⟨_, X, hsp, hX⟩⟩ := split_uniform hd hne hm
  · omega
  intro e
  unfold autobatch at e
  rw [numSamples_uniform hd hne] at e
  simp only [hsp] at e
  rw [if_neg (by omega)] at e
  split at e
  · cases e
  · split at e
    · cases e
    · split at e
      · cases e
      · next hrem =>
        have hne' : ∀ b, singles 0 X ≠ .ok b := by
          intro b hb
          obtain ⟨z, hz1, hz2⟩ := hX
          have hn : X.norm = X := norm_of_sorted X (by
            have := sorted_norm d hkd
            rw [hz1, sorted_map] at this
            rw [hz2, sorted_map]; exact this)
          unfold singles at hb
          rw [hn, hz2, mapM_comp] at hb
          rw [jaxLeaves, hz1, flat_map'] at hx
          obtain ⟨p, hp, rfl⟩ := List.mem_map.1 hx
          obtain ⟨w, hw⟩ := mapM_ok_mem _ hb p hp
          obtain ⟨t, g1, g2, _⟩ := p.2
          rw [g1] at hx1
          obtain rfl : t = [] := by simpa using hx1
          simp only [single, g2] at hw
          cases hw
        simp only [runRemainder, if_true] at hrem
        obtain ⟨r', hr'⟩ : ∃ r', n % m = r' + 1 := ⟨n % m - 1, by omega⟩
        rw [hr', List.range_succ_eq_map, List.mapM_cons] at hrem
        cases hs : singles 0 X with
        | ok b => exact hne' b hs
        | error e' => rw [hs] at hrem; cases hrem

/-- Three numbers as samples. -/
def threeNumbers : NArr Int := ⟨[3], fun i => i.getD 0 0⟩

example : shown (autobatch true (fun x s => .ok (x, s)) (some 2) (.leaf threeNumbers) diaUnit) = .error .indexError ∧
    shown (autobatch false (fun x s => .ok (x, s)) (some 2) (.leaf threeNumbers) diaUnit) = .ok (.leaf ([3], [0, 1, 2])) := by decide +kernel

/-- **C15, defect**: in the mode with recompilation a result without entries raises as soon as there is more than one batch: the sizes of the axes cannot be inferred. -/
theorem C15_empty_result_refuted : shown (autobatch false (fun x s => .ok (x, s)) (some 2) (.leaf ⟨[3, 0], fun _ => 0⟩) diaUnit) = .error .typeError ∧
    shown (autobatch true (fun x s => .ok (x, s)) (some 2) (.leaf ⟨[3, 0], fun _ => 0⟩) diaUnit) = .ok (.leaf ([3, 0], [])) ∧
    shown (jit (fun x s => .ok (x, s)) (.leaf ⟨[3, 0], fun _ => 0⟩) diaUnit) = .ok (.leaf ([3, 0], [])) := by decide +kernel

/-- A result that is one number for the whole batch is not computed sample by sample: the batched call returns one number per batch, without an error if there is no remainder. -/
example : shown (autobatch false (fun x s => .ok (Tree.map (fun y : NArr Int => ⟨[], fun _ => y.entries.sum⟩) x, s)) (some 1) (.leaf threeNumbers) diaUnit) = .ok (.leaf ([3], [0, 1, 2])) ∧
    shown (jit (fun x s => .ok (Tree.map (fun y : NArr Int => ⟨[], fun _ => y.entries.sum⟩) x, s)) (.leaf threeNumbers) diaUnit) = .ok (.leaf ([], [3])) := by decide +kernel

end Verif.Props
