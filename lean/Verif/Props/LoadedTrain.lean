import Verif.Lemmas.LoadedTrain
import Verif.Lemmas.LoadedHeld

/-! # Properties of training loaded models -/

namespace Verif.Props
open Tree Ser ModelSer ModelSpec SerSpec Loaded Forward LoadedSpec
open Nested (ValAt)
open ForwardSpec (KeysOk)

variable {σ D A X : Type}

theorem agree_of_view (ops : Ops σ D) (w r : Str) (fresh : Str → Nat → Nat → Str) (sig : Sig σ PyVal PyVal Nat X) (env : Env X) (n : Nat) {a b : Mdl (Obj σ A n) A} (ha : Proper n a) (hb : Proper n b)
    (h : restored (restoredAt id n) a = restored (restoredAt id n) b) : Agree ops w r fresh sig env n a b := by
  have f := faithful_at (A := A) ops (fun _ => true) w r n
  refine ⟨?_, ?_, ?_, ?_, fun data dtype rng => ?_⟩
  · rw [← getParams_view ha.keys fun m hm => f.params m (ha.deep m hm), ← getParams_view hb.keys fun m hm => f.params m (hb.deep m hm), h]
  · rw [← getState_view ha.keys (fun m hm => f.ready m (ha.deep m hm)) fun m hm => f.state m (ha.deep m hm),
      ← getState_view hb.keys (fun m hm => f.ready m (hb.deep m hm)) fun m hm => f.state m (hb.deep m hm), h]
  · have h1 : typedKey a.rng = typedKey b.rng := congrArg Mdl.rng h
    rw [← keyData_typed, h1, keyData_typed]
  · rw [← opt_view (c := restoredAt id n) ha.opt, ← opt_view (c := restoredAt id n) hb.opt, h]
  · rw [← call_view ops w r fresh sig env n a ha.keys ha.deep, ← call_view ops w r fresh sig env n b hb.keys hb.deep, h]

theorem train_view_same (ops : Ops σ D) (tr : σ → Bool) (w r : Str) (fresh : Str → Nat → Nat → Str) (sig : Sig σ PyVal PyVal Nat X) (fits : Tree Int → Tree X → Bool) (n : Nat) {a b : Mdl (Obj σ A n) A} (ha : Proper n a)
    (hb : Proper n b) (h : restored (restoredAt id n) a = restored (restoredAt id n) b) (j : Job X A n) :
    (train ops tr w r fresh sig fits n j a).map (restored (restoredAt id n)) = (train ops tr w r fresh sig fits n j b).map (restored (restoredAt id n)) := by
  rw [← train_view ops tr w r fresh sig fits n j a ha, ← train_view ops tr w r fresh sig fits n j b hb, h]

/-- **C110** A model of the library's modules that is saved and loaded in between its trainings, any number of times and anywhere, goes the same way as the model that is not: at every point both have the same
parameters, state, random key and optimiser states and answer all calls alike; every further training, resumed or not, fails for both with the same exception, or succeeds for both. The training function is arbitrary, but
it returns optimiser states with the structure of the flags (see `C110_lawful`). -/
theorem C110_checkpoints (w r : Str) (fresh : Str → Nat → Nat → Str) (sig : Sig (Lib × MObj Attr) PyVal PyVal Nat X) (env : Env X) (n : Nat) (M a b : Mdl (Obj (Lib × MObj Attr) A n) A) (hM : Proper n M)
    (h : Course (train (libOps w r) (fun m => m.2.trainable) w r fresh sig env.fits n) (libOps w r) w r M a b) :
    Agree (libOps w r) w r fresh sig env n a b ∧
    ∀ j : Job X A n, (∃ e, train (libOps w r) (fun m => m.2.trainable) w r fresh sig env.fits n j a = .error e ∧ train (libOps w r) (fun m => m.2.trainable) w r fresh sig env.fits n j b = .error e) ∨
      ∃ a' b', train (libOps w r) (fun m => m.2.trainable) w r fresh sig env.fits n j a = .ok a' ∧ train (libOps w r) (fun m => m.2.trainable) w r fresh sig env.fits n j b = .ok b' := by
  have inv : Proper n a ∧ Proper n b ∧ restored (restoredAt id n) a = restored (restoredAt id n) b := by
    induction h with
    | start => exact ⟨hM, hM, rfl⟩
    | train j _ hj h1 h2 ih =>
      obtain ⟨pa, pb, hv⟩ := ih
      refine ⟨train_proper _ _ w r fresh sig env.fits n j hj pa h1, train_proper _ _ w r fresh sig env.fits n j hj pb h2, ?_⟩
      have h3 := train_view_same (libOps w r) (fun m => m.2.trainable) w r fresh sig env.fits n pa pb hv j
      rw [h1, h2] at h3
      exact Except.ok.inj h3
    | store _ hs h1 h2 h3 h4 ih =>
      rename_i a b b' M₀ d strict _
      obtain ⟨pa, pb, hv⟩ := ih
      obtain ⟨s, hs'⟩ := hs.shape
      obtain ⟨d', M₀', g1, g2, g3⟩ := C39_file _ w r (restoredAt id n) b hs.writable (fun m hm => C39_library_nested w r n m (hs.modules m hm)) s hs' hs.noTuple
      rw [g1] at h1
      cases h1
      rw [g2] at h2
      cases h2
      rw [g3 strict h3] at h4
      cases h4
      refine ⟨pa, proper_view pb, hv.trans ?_⟩
      exact (restored_idem pb.keys fun m hm => (faithful_at (libOps w r) (fun _ => true) w r n).idem m (pb.deep m hm)).symm
  obtain ⟨pa, pb, hv⟩ := inv
  refine ⟨agree_of_view _ w r fresh sig env n pa pb hv, fun j => ?_⟩
  rcases Loaded.Except.map_eq (train_view_same (libOps w r) (fun m => m.2.trainable) w r fresh sig env.fits n pa pb hv j) with h | ⟨a', b', h1, h2, -⟩
  · exact Or.inl h
  · exact Or.inr ⟨a', b', h1, h2⟩

/-- **C110** A training function that puts the optimiser states together with the structure of the flags, as `training.train` does (`ModelTrain.core`), is one of those that `C110_checkpoints` speaks of. -/
theorem C110_lawful {n : Nat} (j : Job X A n) (h : ∀ a t, j.run a = .ok t → ∃ l, unflatten a.flags l = .ok t.opt) : Lawful j := by
  intro a t ht
  obtain ⟨l, hl⟩ := h a t ht
  have h1 := (unflatten_inv hl).1
  have h2 : map (fun _ => ()) t.opt.norm = (map (fun _ => ()) t.opt).norm := (Tree.norm_map _ _).symm
  rw [h2, h1, Tree.norm_map, norm_idem]

theorem live_iff (tr : σ → Bool) : ∀ (n : Nat) (m : Obj σ A n), trainableAt tr n m = true ↔ LiveAt tr n m
  | 0, m => Iff.rfl
  | _ + 1, .inl m => Iff.rfl
  | n + 1, .inr M => by
    show (jaxLeaves M.modules).any (trainableAt tr n) = true ↔ ∃ m ∈ M.modules.flat, LiveAt tr n m
    rw [List.any_eq_true]
    exact ⟨fun ⟨m, h1, h2⟩ => ⟨m, mem_flat_norm.1 h1, (live_iff tr n m).1 h2⟩, fun ⟨m, h1, h2⟩ => ⟨m, mem_flat_norm.2 h1, (live_iff tr n m).2 h2⟩⟩

/-- **C110** A training of a model of the library's modules that succeeds was on data of the shape of the model; it is given the parameters, the state, the key and the optimiser states that the model holds, with the flags of its modules; afterwards the model holds
the parameters, the key and the optimiser states that training returned, and is otherwise the same. -/
theorem C110_trained (w r : Str) (fresh : Str → Nat → Nat → Str) (sig : Sig (Lib × MObj Attr) PyVal PyVal Nat X) (fits : Tree Int → Tree X → Bool) (n : Nat) (M M' : Mdl (Obj (Lib × MObj Attr) A n) A)
    (hM : Proper n M) (j : Job X A n) (h : train (libOps w r) (fun m => m.2.trainable) w r fresh sig fits n j M = .ok M') :
    ∃ a t, GivenBy (libOps w r) (fun m => m.2.trainable) w r fresh sig n M a ∧ a.resume = j.resume ∧ fits M.inShape j.data = true ∧ j.run a = .ok t ∧
      M'.opt = some t.opt ∧ keyData M'.rng = .ok t.rng ∧ M'.kind = M.kind ∧ M'.name = M.name ∧ M'.inShape = M.inShape ∧ M'.outShape = M.outShape ∧
      (KeysOk t.params → map (fun _ => ()) t.params.norm = map (fun _ => ()) (ModelSer.getParams (opsAt (libOps w r) w r n) M).norm →
        (ModelSer.getParams (opsAt (libOps w r) w r n) M').norm = t.params.norm) := by
  have fm := faithful_at (A := A) (libOps w r) (fun m => m.2.trainable) w r n
  have hl := holds_at (A := A) (holds_lib w r) w r n
  unfold train at h
  split at h
  · cases h
  rename_i hfit
  cases ha : trainArgs (libOps w r) (fun m => m.2.trainable) w r fresh sig n j.resume M with
  | error e => rw [ha] at h; cases h
  | ok a =>
    rw [ha] at h
    simp only at h
    cases ht : j.run a with
    | error e => rw [ht] at h; cases h
    | ok t =>
      rw [ht] at h
      simp only at h
      refine ⟨a, t, ?_⟩
      have hflags : flagsOf (opsAt (libOps w r) w r n) (trainableAt (fun m => m.2.trainable) n) M =
          .ok (Tree.bind (fun m => map (fun _ => trainableAt (fun m => m.2.trainable) n m && decide ((jaxLeaves ((opsAt (libOps w r) w r n).getParams m)).length > 0))
            ((opsAt (libOps w r) w r n).getParams m)) M.modules.norm) := by
        unfold flagsOf ModelTrain.broadcast ModelSer.getParams
        rw [Tree.norm_map, norm_norm hM.keys, zipPre_bind _ _ _ (keysOk_norm' hM.keys)]
        simp only [Except.map, Tree.bind_map]
      unfold trainArgs at ha
      rw [hflags] at ha
      simp only at ha
      cases hs : ModelSer.getState (opsAt (libOps w r) w r n) M with
      | error e => rw [hs] at ha; cases ha
      | ok st =>
        rw [hs] at ha
        simp only at ha
        cases hkd : keyData M.rng with
        | error e => rw [hkd] at ha; cases ha
        | ok key =>
          rw [hkd] at ha
          simp only [Except.ok.injEq] at ha
          have hg : GivenBy (libOps w r) (fun m => m.2.trainable) w r fresh sig n M a := by
            subst ha
            refine ⟨rfl, hs, hkd, rfl, rfl, fun p m hp => ⟨_, sub_bind _ (at_norm.2 hp), by rw [map_map], fun b hb => ?_⟩⟩
            rw [Props.flat_map] at hb
            obtain ⟨x, hx, rfl⟩ := List.mem_map.1 hb
            have hlen : (jaxLeaves ((opsAt (libOps w r) w r n).getParams m)).length > 0 := List.length_pos_of_mem (mem_flat_norm.2 hx)
            rw [← live_iff]
            simp [hlen]
          refine ⟨hg, by rw [← ha], by simpa using hfit, ht, ?_⟩
          unfold store at h
          cases h1 : ModelSer.setParams (opsAt (libOps w r) w r n) M t.params with
          | error e => rw [h1] at h; cases h
          | ok M₁ =>
            rw [h1] at h
            simp only at h
            cases h2 : ModelSer.setState (opsAt (libOps w r) w r n) M₁ t.state with
            | error e => rw [h2] at h; cases h
            | ok M₂ =>
              rw [h2] at h
              simp only [Except.ok.injEq] at h
              have q1 : ∃ t₁, M₁ = { M with modules := t₁ } ∧ KeysOk t₁ ∧ ∀ m ∈ t₁.flat, KeysAt n m := by
                have h1' := h1
                unfold ModelSer.setParams at h1'
                cases hj : jaxMap (onModule (opsAt (libOps w r) w r n).setParams) M.modules [t.params] with
                | error e => rw [hj] at h1'; cases h1'
                | ok t₁ =>
                  rw [hj] at h1'
                  cases h1'
                  obtain ⟨k1, -, k2, -⟩ := Loaded.setAll_keep fm.keepP hM.keys hM.deep hj
                  exact ⟨t₁, rfl, k1, k2⟩
              obtain ⟨t₁, rfl, k1, k2⟩ := q1
              have q2 : ∃ t₂, M₂ = { M with modules := t₂ } := by
                have h2' := h2
                unfold ModelSer.setState at h2'
                split at h2'
                · cases h2'; exact ⟨t₁, rfl⟩
                · cases hj : jaxMap (onModule (opsAt (libOps w r) w r n).setState) t₁ [t.state] with
                  | error e => rw [hj] at h2'; cases h2'
                  | ok t₂ => rw [hj] at h2'; cases h2'; exact ⟨t₂, rfl⟩
              have hp2 := holds_setS hl _ ⟨k1, k2⟩ h2
              obtain ⟨t₂, rfl⟩ := q2
              subst h
              refine ⟨rfl, by cases hr : M.rng <;> rfl, rfl, rfl, rfl, rfl, fun hk hstr => ?_⟩
              have hp1 := holds_setP hl M ⟨hM.keys, hM.deep⟩ hk hstr h1
              rw [← hp1, ← hp2]
              rfl

/-! ### The graph model of C108, trained, saved and resumed -/

/-- Training that counts: every call adds one to the random key and makes optimiser states; to resume, it needs those of the last call, and it adds their counters to the key. -/
def countingJob (resume : Bool) : Job Int Nat 1 where
  data := .leaf 3
  resume := resume
  run a := match resume, a.opt with
    | true, Option.none => .error .valueError
    | true, some o => .ok ⟨a.params, a.state, a.rng + 1 + ((jaxLeaves o).map fun s => s.epoch.toNat).sum, map (fun _ => ⟨0, some 0, some 0, 2⟩) a.flags.norm⟩
    | false, _ => .ok ⟨a.params, a.state, a.rng + 1, map (fun b => ⟨0, some 0, some 0, if b then 20 else 10⟩) a.flags.norm⟩

theorem countingJob_lawful (resume : Bool) : Lawful (countingJob resume) := by
  intro a t ht
  unfold countingJob at ht
  simp only at ht
  split at ht
  · cases ht
  · cases ht
    show map _ (map _ a.flags.norm).norm = _
    rw [Tree.norm_map, norm_idem, map_map]
  · cases ht
    show map _ (map _ a.flags.norm).norm = _
    rw [Tree.norm_map, norm_idem, map_map]

theorem exCalled_proper : Proper 1 exCalled := by
  refine ⟨⟨by decide, ⟨trivial, trivial, trivial⟩⟩, fun m hm => ?_, List.cons_ne_nil _ _, fun t ht => by cases ht⟩
  simp only [exCalled, exOuter, flat, flatD, List.append_nil, List.mem_append, List.mem_singleton] at hm
  rcases hm with hm | hm
  · cases List.mem_singleton.1 hm
    refine ⟨?_, fun _ _ => trivial⟩
    simp [exInner, KeysOk, ForwardSpec.KeysOkL]
  · cases List.mem_singleton.1 hm
    trivial

/-- Training twice, the second time resumed: the key is `9 + 1 + 1 + 20`, since there is one trainable parameter. -/
example : (match train (libOps [] []) (fun m => m.2.trainable) [] [] (fun _ _ _ => []) toySig toyEnv.fits 1 (countingJob false) exCalled with
    | .error e => Except.error e
    | .ok a => (train (libOps [] []) (fun m => m.2.trainable) [] [] (fun _ _ _ => []) toySig toyEnv.fits 1 (countingJob true) a).map Mdl.rng) = .ok (.typed 31) := by decide +kernel

/-- Training that puts other numbers into the arrays. -/
def otherJob : Job Int Nat 1 := { countingJob false with run := fun a => .ok ⟨map (fun x => match x with | .arr y => .arr { y with data := 8 } | y => y) a.params, a.state, a.rng + 1,
  map (fun _ => ⟨0, some 0, some 0, 1⟩) a.flags.norm⟩ }

/-- The parameters of the example after this training: all of the hypotheses of `C110_trained` are met. -/
example : ∃ M', train (libOps [] []) (fun m => m.2.trainable) [] [] (fun _ _ _ => []) toySig toyEnv.fits 1 otherJob exCalled = .ok M' ∧ Proper 1 exCalled ∧
    ∃ p : PyVal, p = .dict [("act".toList, .tuple []), ("m".toList, .list [vArr ⟨[3, 4, 4], false, true, 8⟩, .tuple []])] ∧ KeysOk p ∧
      map (fun _ => ()) p.norm = map (fun _ => ()) (ModelSer.getParams (opsAt (libOps [] []) [] [] 1) exCalled).norm ∧
      (ModelSer.getParams (opsAt (libOps [] []) [] [] 1) M').norm = p.norm := by
  refine ⟨_, rfl, exCalled_proper, _, rfl, ?_, by decide +kernel, by decide +kernel⟩
  exact ⟨by decide, ⟨trivial, ⟨trivial, trivial, trivial⟩, trivial⟩⟩

/-- Resuming what was never trained. -/
example : (train (libOps [] []) (fun m => m.2.trainable) [] [] (fun _ _ _ => []) toySig toyEnv.fits 1 (countingJob true) exCalled).map Mdl.rng = .error .valueError := by decide +kernel

/-- A course with a file in it: saved, loaded, trained. -/
example (w r : Str) : ∃ a b, Course (train (libOps w r) (fun m => m.2.trainable) w r (fun _ _ _ => []) toySig toyEnv.fits 1) (libOps w r) w r exCalled a b ∧ a.rng = .typed 10 ∧ b.rng = .typed 10 := by
  have hS := exCalled_storable w r
  obtain ⟨d, M₀, k1, k2, k3⟩ := C39_file (opsAt (libOps w r) w r 1) w r (restoredAt id 1) exCalled hS.writable (fun m hm => C39_library_nested w r 1 m (hS.modules m hm)) [] (.dict _) (.dict _)
  have hb := Course.store (train := train (libOps w r) (fun m => m.2.trainable) w r (fun _ _ _ => []) toySig toyEnv.fits 1) .start hS k1 k2 (strict := false) (fun h => by cases h) (k3 false fun h => by cases h)
  have hr : (train (libOps w r) (fun m => m.2.trainable) w r (fun _ _ _ => []) toySig toyEnv.fits 1 (countingJob false) exCalled).map Mdl.rng = .ok (.typed 10) := rfl
  rcases (C110_checkpoints w r _ toySig toyEnv 1 exCalled _ _ exCalled_proper hb).2 (countingJob false) with ⟨e, h1, -⟩ | ⟨a', b', h1, h2⟩
  · rw [h1] at hr; cases hr
  · have hc := Course.train (countingJob false) hb (countingJob_lawful false) h1 h2
    refine ⟨a', b', hc, ?_, ?_⟩
    · rw [h1] at hr; exact Except.ok.inj hr
    · have hr' : (train (libOps w r) (fun m => m.2.trainable) w r (fun _ _ _ => []) toySig toyEnv.fits 1 (countingJob false) (restored (restoredAt id 1) exCalled)).map Mdl.rng = .ok (.typed 10) := rfl
      rw [h2] at hr'; exact Except.ok.inj hr'

end Verif.Props
