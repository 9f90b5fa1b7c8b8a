import Verif.Lemmas.ModelTrain
import Verif.Lemmas.TreeDec

/-!
# C85: training a model changes what it should

`Trainable tr n x h` says that some object of the module `x` (an object or a model, of any depth) is not frozen. `m` is the state of the model when `train` is called, `m₁` after it was made ready, `m'`
after the call.
-/

namespace Verif.Props
open Tree ForwardSpec Params ParamsSpec Train TrainSpec ModelTrain ModelTrainSpec

variable {X A K α F : Type}

/-- **C85** The flags that decide which parameters are trained: an array is trained exactly if the module of the model (at the outermost level) that contains it has an object that is not frozen. -/
theorem C85_flags (o : Ops X A) (n : Nat) (t : Tree (Node n)) (h : Nat → X) (hk : KeysOk t) :
    ∃ fl, flagTree o n t h = .ok fl ∧ map (fun _ => ()) fl = map (fun _ => ()) (params o n t h) ∧
      ∀ s b, At fl s b ↔ ∃ q x s' a, s = q ++ s' ∧ At t q x ∧ At (getAll o.getP n x h) s' a ∧ (b = true ↔ Trainable o.trainable n x h) := by
  refine ⟨flags o n t h, flagTree_run hk, flags_struct, fun s b => ?_⟩
  have htr : ∀ x s' a, At (getAll o.getP n x h) s' a → (isTrainable o n h x = true ↔ Trainable o.trainable n x h) := fun x s' a ha => by
    have : 0 < (jaxLeaves (getAll o.getP n x h)).length := List.length_pos_of_mem (mem_flat_norm.2 (mem_flat_at.2 ⟨s', ha⟩))
    unfold isTrainable
    rw [Bool.and_eq_true, nodeTrainable_iff]
    simp [this]
  unfold flags
  rw [at_bind]
  constructor
  · rintro ⟨q, x, s', rfl, hq, hb⟩
    obtain ⟨a, ha, rfl⟩ := at_map.1 hb
    exact ⟨q, x, s', a, rfl, at_norm.1 hq, ha, htr x s' a ha⟩
  · rintro ⟨q, x, s', a, rfl, hq, ha, hb⟩
    refine ⟨q, x, s', rfl, at_norm.2 hq, at_map.2 ⟨a, ha, ?_⟩⟩
    rw [← htr x s' a ha] at hb
    cases b <;> simp_all

theorem setAll_keep {β : Type} {w : What} {set : X → Tree A → X × Option PyErr} (g : X → β) (hg : ∀ x v, g (set x v).1 = g x) :
    ∀ (n : Nat) (x : Node n) (p : Tree A) (h : Nat → X) (r : Nat), g ((setAll w set n x p h).1 r) = g (h r)
  | 0, r', p, h, r => by
    show g (Function.update h r' _ r) = _
    by_cases e : r = r'
    · subst e; rw [Function.update_self, hg]
    · rw [Function.update_of_ne e]
  | _ + 1, .inl r', p, h, r => by
    show g (Function.update h r' _ r) = _
    by_cases e : r = r'
    · subst e; rw [Function.update_self, hg]
    · rw [Function.update_of_ne e]
  | n + 1, .inr t, p, h, r => by
    have heach : ∀ (l : List (Node n × Tree A)) (h : Nat → X), g ((setEach (setAll w set n) l h).1 r) = g (h r) := by
      intro l
      induction l with
      | nil => intro h; rfl
      | cons x l ih =>
        intro h
        obtain ⟨y, p⟩ := x
        unfold setEach
        have := setAll_keep g hg (w := w) n y p h r
        cases he : setAll w set n y p h with
        | mk h' e =>
          rw [he] at this
          cases e with
          | none => simp only; rw [ih h']; exact this
          | some e => exact this
    rw [setAll_model]
    split
    · rfl
    split
    · rfl
    · rename_i z hz
      have := heach (flat z) h
      cases he : setEach (setAll w set n) (flat z) h with
      | mk h' e =>
        rw [he] at this
        cases e <;> exact this

theorem train_inv {o : Ops X A} {n : Nat} {t : Tree (Node n)} {j : Job X A K α F} {resume : Bool} {m m' : MState X A K} (h : train o n t j resume m = (m', Option.none)) :
    ∃ m₁ p s k a h₁ h₂, j.prepare m = (m₁, Option.none) ∧ core o n t j resume m₁ = .ok (p, s, k, a) ∧ setAll .params o.setP (n + 1) (.inr t) p m₁.store = (h₁, Option.none) ∧
      setAll .state o.setS (n + 1) (.inr t) s h₁ = (h₂, Option.none) ∧ m' = ⟨h₂, k, some a⟩ := by
  unfold train at h
  split at h
  · cases h
  rename_i m₁ hm
  split at h
  · cases h
  rename_i p s k a hc
  split at h
  · cases h
  rename_i h₁ hp
  split at h
  · cases h
  rename_i h₂ hs
  cases h
  exact ⟨m₁, p, s, k, a, h₁, h₂, hm, hc, hp, hs, rfl⟩

theorem tree_ext {β : Type} {a b : Tree β} (hs : map (fun _ => ()) a = map (fun _ => ()) b) (hf : flat a = flat b) : a = b := by
  obtain ⟨z, h1, h2⟩ := exists_zip a b hs
  have hz := flat_zip h1 h2
  rw [hf] at hz
  rw [← h1, ← h2]
  refine map_congr fun x hx => ?_
  have hself : (flat b).zip (flat b) = (flat b).map fun x => (x, x) := by
    have := List.zip_map' (f := id) (g := id) (l := flat b)
    simpa using this
  rw [hz, hself] at hx
  obtain ⟨y, _, rfl⟩ := List.mem_map.1 hx
  rfl

/-- Setting parameters of the shape of the flags: what is read afterwards. -/
theorem params_after {o : Ops X A} (hl : Lawful o) {n : Nat} {t : Tree (Node n)} {h h₁ h₂ : Nat → X} (hs : Sound o n t h) {p s : Tree A} (hp : KeysOk p)
    (hps : map (fun _ => ()) (norm p) = map (fun _ => ()) (norm (params o n t h)))
    (h1 : setAll .params o.setP (n + 1) (.inr t) p h = (h₁, Option.none)) (h2 : setAll .state o.setS (n + 1) (.inr t) s h₁ = (h₂, Option.none)) :
    norm (params o n t h₂) = norm p := by
  have e1 := C84_set_get o.getP o.setP (n + 1) (.inr t) p h h₁ hs.keys hp hs.refs h1 fun r v hg =>
    hl.setP _ _ (gets_struct hs.keys hs.params hp hps hg) (((C84_success .params o.setP (n + 1) (.inr t) p h hs.keys hp hs.refs).1 (by rw [h1])).2 r v hg)
  rw [← e1]
  have hr : ∀ r, o.getP (h₂ r) = o.getP (h₁ r) := fun r => by
    have := setAll_keep (w := .state) o.getP hl.keepP (n + 1) (.inr t) s h₁ r
    rwa [h2] at this
  have : ∀ (n : Nat) (x : Node n), getAll o.getP n x h₂ = getAll o.getP n x h₁ := by
    intro n
    induction n with
    | zero => intro x; exact hr x
    | succ n ih =>
      intro x
      cases x with
      | inl r => exact hr r
      | inr t =>
        show Tree.bind _ _ = Tree.bind _ _
        exact bind_congr _ fun x _ => ih x
  exact congrArg norm (this (n + 1) (.inr t))

theorem start_params {o : Ops X A} {n : Nat} {t : Tree (Node n)} {j : Job X A K α F} {resume : Bool} {m : MState X A K} (hi : ∀ x, (j.init x).params = x)
    (hc : resume = true → Consistent o n t m) {fl : Tree Bool} {adam : List (OptState A)} (h : start j resume m.opt (params o n t m.store) fl = .ok adam) :
    adam.map (·.params) = jaxLeaves (params o n t m.store) := by
  unfold start at h
  split at h
  · rename_i a ha
    split at h
    · cases h
      have := congrArg flat (hc rfl a ha)
      rwa [flat_map'] at this
    · cases h
  · cases h
  · cases h
    rw [List.map_map]
    conv_rhs => rw [← List.map_id (jaxLeaves _)]
    exact List.map_congr_left fun x _ => hi x

theorem start_length {o : Ops X A} {n : Nat} {t : Tree (Node n)} {j : Job X A K α F} {resume : Bool} {m : MState X A K} {adam : List (OptState A)}
    (h : start j resume m.opt (params o n t m.store) (flags o n t m.store) = .ok adam) : (jaxLeaves (flags o n t m.store)).length = adam.length := by
  unfold start at h
  split at h
  · split at h
    · rename_i hs
      cases h
      exact Forward.jaxLeaves_length hs
    · cases h
  · cases h
  · cases h
    rw [List.length_map, flags_length]

/-- The parameters that were put together, and those read after the call. -/
theorem train_params {o : Ops X A} (hl : Lawful o) {n : Nat} {t : Tree (Node n)} {j : Job X A K α F} {resume : Bool} {m m₁ m' : MState X A K} (hm : j.prepare m = (m₁, Option.none))
    (hs : Sound o n t m₁.store) (h : train o n t j resume m = (m', Option.none)) :
    ∃ adam r p a h₁, start j resume m₁.opt (params o n t m₁.store) (flags o n t m₁.store) = .ok adam ∧
      run (mkCfg j (flags o n t m₁.store) (jaxLeaves (flags o n t m₁.store))) j.batchRng adam (getAll o.getS (n + 1) (.inr t) m₁.store) m₁.rng = .ok r ∧
      unflatten (flags o n t m₁.store) (r.best.inner.adam.map (·.params)) = .ok p ∧ unflatten (flags o n t m₁.store) r.best.inner.adam = .ok a ∧
      KeysOk p ∧ setAll .params o.setP (n + 1) (.inr t) p m₁.store = (h₁, Option.none) ∧ setAll .state o.setS (n + 1) (.inr t) r.best.inner.mstate h₁ = (m'.store, Option.none) ∧
      norm (params o n t m'.store) = p ∧ norm a = a ∧ map (·.params) a = p ∧ m'.rng = r.best.inner.mrng ∧ m'.opt = some a := by
  obtain ⟨m₁', p, s, k, a, h₁, h₂, hm', hc, hp, hst, rfl⟩ := train_inv h
  rw [hm] at hm'
  cases hm'
  obtain ⟨adam, r, h1, h2, h3, h4, rfl, rfl⟩ := core_inv hs.keys.1 hc
  have hkp : KeysOk (params o n t m₁.store) := keysOk_getAll (n + 1) (.inr t) hs.keys hs.params
  have hkf : KeysOk (flags o n t m₁.store) := by
    refine (keysOk_map (fun _ => ()) _).1 ?_
    rw [flags_struct]
    exact (keysOk_map _ _).2 hkp
  obtain ⟨p1, p2⟩ := unflatten_inv h3
  obtain ⟨a1, a2⟩ := unflatten_inv h4
  have hk : KeysOk p := (keysOk_map (fun _ => ()) _).1 (by rw [p1]; exact (keysOk_map _ _).2 (keysOk_norm' hkf))
  have sp : norm p = p := norm_of_sorted _ ((sorted_map (fun _ => ()) p).1 (by rw [p1]; exact (sorted_map _ _).2 (sorted_norm _ hkf)))
  have sa : norm a = a := norm_of_sorted _ ((sorted_map (fun _ => ()) a).1 (by rw [a1]; exact (sorted_map _ _).2 (sorted_norm _ hkf)))
  refine ⟨adam, r, p, a, h₁, h1, h2, h3, h4, hk, hp, hst, ?_, sa, ?_, rfl, rfl⟩
  · rw [params_after hl hs hk (by rw [sp, p1, flags_norm]) hp hst, sp]
  · refine tree_ext ?_ ?_
    · rw [map_map, p1, a1]
    · rw [flat_map', a2, p2]

/-- **C85** Frozen modules: the parameters of an object do not change if the module of the model that contains it has frozen objects only, for any data, number of epochs and optimiser, unless the callback
writes them. With `resume` this needs that the stored optimiser state belongs to the parameters. -/
theorem C85_frozen (o : Ops X A) (hl : Lawful o) (n : Nat) (t : Tree (Node n)) (j : Job X A K α F) (resume : Bool) (m m₁ m' : MState X A K) (hm : j.prepare m = (m₁, Option.none))
    (hs : Sound o n t m₁.store) (hi : ∀ x, (j.init x).params = x) (hc : resume = true → Consistent o n t m₁) (fl : Tree Bool) (hfl : flagTree o n t m₁.store = .ok fl)
    (hcb : CallbackKeeps j.cfg (jaxLeaves fl)) (h : train o n t j resume m = (m', Option.none)) (q : List ForwardSpec.Step) (x : Node n) (hq : At t q x)
    (hx : ¬Trainable o.trainable n x m₁.store) (r : Nat) (hr : r ∈ refs n x) : norm (o.getP (m'.store r)) = norm (o.getP (m₁.store r)) := by
  rw [flagTree_run hs.keys.1] at hfl
  cases hfl
  obtain ⟨adam, run, p, a, h₁, h1, h2, h3, h4, hkp, hset, hsets, -⟩ := train_params hl hm hs h
  obtain ⟨p1, p2⟩ := unflatten_inv h3
  have hfr := C28_frozen _ _ _ _ _ _ (start_length h1) h2
  have hadam := start_params hi hc h1
  have hko : ∀ r ∈ refs n x, KeysOk (o.getP (m₁.store r)) := fun r hr => hs.params r (List.mem_flatMap.2 ⟨x, mem_flat_at.2 ⟨q, hq⟩, hr⟩)
  obtain ⟨e1, -, e3⟩ := C84_effect .params o.setP (n + 1) (.inr t) p m₁.store h₁ hs.keys hkp hs.refs hset
  obtain ⟨v, hv⟩ := e3 rfl r (List.mem_flatMap.2 ⟨x, mem_flat_at.2 ⟨q, hq⟩, hr⟩)
  have hval : norm v = norm (o.getP (m₁.store r)) := by
    obtain ⟨-, q', x', u, hq', hu, hg⟩ := hv
    have hxx : x' = x := by
      by_contra hne
      have hnd := List.nodup_flatMap.1 (show ((flat t).flatMap (refs n)).Nodup from hs.refs)
      haveI : Std.Symm (Function.onFun List.Disjoint (refs n)) := ⟨fun a b hd => List.Disjoint.symm hd⟩
      exact (hnd.2.forall (mem_flat_at.2 ⟨q', hq'⟩) (mem_flat_at.2 ⟨q, hq⟩) hne) (gets_mem n x' hg) hr
    subst hxx
    have hb : isTrainable o n m₁.store x' = false := by
      unfold isTrainable
      rw [Bool.and_eq_false_iff]
      left
      rw [Bool.eq_false_iff, ne_eq, nodeTrainable_iff]
      exact hx
    have hkx : ∀ y ∈ flat (norm t), KeysOk (getAll o.getP n y m₁.store) := fun y hy => by
      obtain ⟨q, hq⟩ := mem_flat_at.1 (mem_flat_norm.1 hy)
      exact keysOk_getAll n y (hs.keys.2 q y hq) fun r hm => hs.params r (List.mem_flatMap.2 ⟨y, mem_flat_norm.1 hy, hm⟩)
    have hblock := block (b := isTrainable o n m₁.store) (f := fun y => getAll o.getP n y m₁.store) (keysOk_norm' hs.keys.1) hkx (p := p) (by rw [p1]; exact flags_norm) (fun i hi => by
      obtain ⟨f1, -⟩ := hfr i hi (fun k e ps => hcb k e ps i hi)
      rw [p2, List.getElem?_map, f1, ← List.getElem?_map, hadam]
      rfl) (at_norm.2 hq') hb hu
    refine gets_norm n x' (hs.keys.2 q' x' hq') hko (keysOk_sub hkp hu) ?_ hg
    rw [hblock, norm_norm (hkx x' (mem_flat_norm.2 (mem_flat_at.2 ⟨q', hq'⟩)))]
  have hget : o.getP (m'.store r) = o.getP (h₁ r) := by
    have := setAll_keep (w := .state) o.getP hl.keepP (n + 1) (.inr t) run.best.inner.mstate h₁ r
    rwa [hsets] at this
  rw [hget, e1 r v hv]
  have hps : map (fun _ => ()) (norm v) = map (fun _ => ()) (norm (o.getP (m₁.store r))) := by rw [hval]
  rw [hl.setP _ _ hps (((C84_success .params o.setP (n + 1) (.inr t) p m₁.store hs.keys hkp hs.refs).1 (by rw [hset])).2 r v hv), hval]

/-- **C85** What a model holds after training: parameters at the same places, the stored optimiser states belong to them, objects that are not modules of the model are as they were, nothing was frozen or
unfrozen, and the state of the modules is that of the returned parameters. The mean loss on the validation data of the parameters, state and key after training is not larger than before. -/
theorem C85_returns (o : Ops X A) (hl : Lawful o) (n : Nat) (t : Tree (Node n)) (j : Job X A K α F) (ho : FloatOrder j.cfg.lt j.cfg.le) (resume : Bool) (m m₁ m' : MState X A K)
    (hm : j.prepare m = (m₁, Option.none)) (hs : Sound o n t m₁.store) (hi : ∀ x, (j.init x).params = x) (hc : resume = true → Consistent o n t m₁) (h : train o n t j resume m = (m', Option.none)) :
    map (fun _ => ()) (norm (params o n t m'.store)) = map (fun _ => ()) (norm (params o n t m₁.store)) ∧
    (m'.opt.isSome ∧ Consistent o n t m') ∧ (∀ r ∉ refs (n + 1) (.inr t), m'.store r = m₁.store r) ∧ (∀ r, o.trainable (m'.store r) = o.trainable (m₁.store r)) ∧
    ∃ st, (KeysOk st → ∀ r v, Gets .state (n + 1) (.inr t) st r v → ∃ x, m'.store r = (o.setS x v).1 ∧ (o.setS x v).2 = Option.none) ∧
      ∃ N bs₀ bs₁ key₀ key₁ e, Batch.numSamples j.cfg.val.X = .ok N ∧
        batches (j.cfg.val.shuffle j.cfg.perm j.cfg.splitN key₀) j.cfg.valBatchSize = .ok bs₀ ∧ batches (j.cfg.val.shuffle j.cfg.perm j.cfg.splitN key₁) j.cfg.valBatchSize = .ok bs₁ ∧
        j.cfg.lt (meanLoss j (norm (params o n t m₁.store)) (getAll o.getS (n + 1) (.inr t) m₁.store) (j.cfg.split m₁.rng).1 0 bs₀ (N / j.cfg.valBatchSize + if N % j.cfg.valBatchSize > 0 then 1 else 0))
          (meanLoss j (norm (params o n t m'.store)) st m'.rng e bs₁ (N / j.cfg.valBatchSize + if N % j.cfg.valBatchSize > 0 then 1 else 0)) = false := by
  obtain ⟨adam, r, p, a, h₁, h1, h2, h3, h4, hkp, hset, hsets, hpar, hsa, hap, hrng, hopt⟩ := train_params hl hm hs h
  obtain ⟨p1, p2⟩ := unflatten_inv h3
  refine ⟨by rw [hpar, p1]; exact flags_norm, ⟨by rw [hopt]; rfl, ?_⟩, ?_, ?_, r.best.inner.mstate, ?_, ?_⟩
  · intro a' ha'
    rw [hopt] at ha'
    cases ha'
    rw [hsa, hap, hpar]
  · intro x hx
    have e1 := setAll_frame (w := .params) (set := o.setP) (n + 1) (.inr t) p m₁.store x hx
    have e2 := setAll_frame (w := .state) (set := o.setS) (n + 1) (.inr t) r.best.inner.mstate h₁ x hx
    rw [hset] at e1
    rw [hsets] at e2
    exact e2.trans e1
  · intro x
    have e1 := setAll_keep (w := .params) (set := o.setP) o.trainable (fun x v => (hl.keepT x v).1) (n + 1) (.inr t) p m₁.store x
    have e2 := setAll_keep (w := .state) (set := o.setS) o.trainable (fun x v => (hl.keepT x v).2) (n + 1) (.inr t) r.best.inner.mstate h₁ x
    rw [hset] at e1
    rw [hsets] at e2
    exact e2.trans e1
  · intro hks x v hg
    obtain ⟨e1, -, -⟩ := C84_effect .state o.setS (n + 1) (.inr t) _ h₁ m'.store hs.keys hks hs.refs hsets
    exact ⟨h₁ x, e1 x v hg, (((C84_success .state o.setS (n + 1) (.inr t) _ h₁ hs.keys hks hs.refs).1 (by rw [hsets])).2 x v hg)⟩
  · obtain ⟨s, l, hinit, -, hbest, ⟨key, hkey⟩, -⟩ := C29_best_returned (mkCfg j (flags o n t m₁.store) (jaxLeaves (flags o n t m₁.store))) ho _ _ _ _ _ h2
    obtain ⟨-, hin, -, -, -, hv⟩ := initial_inv hinit
    obtain ⟨i, -, hb, -, -⟩ := hbest
    have hb := hb _ (List.mem_cons_self)
    simp only at hb
    unfold batchedValLoss at hkey hv
    simp only [Bind.bind, Except.bind, pure, Except.pure] at hkey hv
    cases hN : Batch.numSamples j.cfg.val.X with
    | error e =>
      exfalso
      split at hkey
      · cases hkey
      · rw [show (mkCfg j (flags o n t m₁.store) (jaxLeaves (flags o n t m₁.store))).val.X = j.cfg.val.X from rfl, hN] at hkey
        cases hkey
    | ok N =>
      rw [show (mkCfg j (flags o n t m₁.store) (jaxLeaves (flags o n t m₁.store))).val.X = j.cfg.val.X from rfl, hN] at hkey hv
      split at hkey
      · cases hkey
      rename_i bs₁ hbs₁
      split at hv
      · cases hv
      rename_i bs₀ hbs₀
      refine ⟨N, bs₀, bs₁, _, _, r.best.epoch, rfl, hbs₀, hbs₁, ?_⟩
      have e1 := Except.ok.inj hkey
      have e0 := Except.ok.inj hv
      rw [← e1, ← e0, hin] at hb
      have r1 : rebuild (flags o n t m₁.store) (r.best.inner.adam.map (·.params)) = norm (params o n t m'.store) := by
        unfold rebuild
        rw [h3, hpar]
      have r0 : rebuild (flags o n t m₁.store) (adam.map (·.params)) = norm (params o n t m₁.store) := by
        unfold rebuild
        obtain ⟨p0, hp0⟩ := unflatten_ok (t := flags o n t m₁.store) (xs := adam.map (·.params)) (by rw [List.length_map, start_length h1])
        rw [hp0]
        obtain ⟨q1, q2⟩ := unflatten_inv hp0
        refine tree_ext (by rw [q1, flags_norm]) ?_
        rw [q2, start_params hi hc h1]
        rfl
      simp only [mkCfg, r1, r0] at hb
      rw [hrng]
      exact hb

theorem getAll_struct {o : Ops X A} {h h' : Nat → X} (hp : ∀ r, map (fun _ => ()) (o.getP (h r)) = map (fun _ => ()) (o.getP (h' r))) :
    ∀ (n : Nat) (x : Node n), map (fun _ => ()) (getAll o.getP n x h) = map (fun _ => ()) (getAll o.getP n x h')
  | 0, r => hp r
  | _ + 1, .inl r => hp r
  | n + 1, .inr t => by
    show map _ (Tree.bind _ _) = map _ (Tree.bind _ _)
    rw [map_bind, map_bind]
    exact bind_congr _ fun x _ => getAll_struct hp n x

theorem nodeTrainable_congr {tr : X → Bool} {h h' : Nat → X} (ht : ∀ r, tr (h r) = tr (h' r)) : ∀ (n : Nat) (x : Node n), nodeTrainable tr n x h = nodeTrainable tr n x h'
  | 0, r => ht r
  | _ + 1, .inl r => ht r
  | n + 1, .inr t => by
    show (jaxLeaves t).any _ = (jaxLeaves t).any _
    exact congrArg (jaxLeaves t).any (funext fun x => nodeTrainable_congr ht n x)

/-- `core` as a function of what it reads. -/
def coreOf (j : Job X A K α F) (fl : Tree Bool) (none same : Bool) (st : Except PyErr (List (OptState A))) (s : Tree A) (k : K) : Except PyErr (Tree A × Tree A × K × Tree (OptState A)) := do
  if none then throw .valueError
  match j.checks with
    | some e => throw e
    | Option.none => pure ()
  if !same then throw .valueError
  let adam ← st
  let r ← run (mkCfg j fl (jaxLeaves fl)) j.batchRng adam s k
  let p ← unflatten fl (r.best.inner.adam.map (·.params))
  let a ← unflatten fl r.best.inner.adam
  return (p, r.best.inner.mstate, r.best.inner.mrng, a)

theorem core_eq {o : Ops X A} {n : Nat} {t : Tree (Node n)} {j : Job X A K α F} {resume : Bool} {m : MState X A K} (hk : KeysOk t) : core o n t j resume m =
    coreOf j (flags o n t m.store) (resume && m.opt.isNone) (sameStruct (params o n t m.store).norm (flags o n t m.store).norm)
      (start j resume m.opt (params o n t m.store) (flags o n t m.store)) (getAll o.getS (n + 1) (.inr t) m.store) m.rng := by
  unfold core
  rw [flagTree_run hk]
  rfl

/-- **C85** Resuming without stored optimiser states is refused, before anything is trained. -/
theorem C85_resume_first (o : Ops X A) (n : Nat) (t : Tree (Node n)) (j : Job X A K α F) (m m₁ : MState X A K) (hk : KeysOk t) (hm : j.prepare m = (m₁, Option.none))
    (hopt : m₁.opt = Option.none) : train o n t j true m = (m₁, some .valueError) := by
  unfold train
  rw [hm]
  simp only
  unfold core
  rw [flagTree_run hk, hopt]
  rfl

/-- **C85** Resuming does not look at the values of the parameters: whatever values the parameters have, the outcome and the parameters afterwards are the same. -/
theorem C85_resume_ignores (o : Ops X A) (hl : Lawful o) (n : Nat) (t : Tree (Node n)) (j : Job X A K α F) (m₁ m₂ : MState X A K) (hk : KeysOk t) (hopt : m₁.opt = m₂.opt) (hrng : m₁.rng = m₂.rng)
    (hst : ∀ r, o.getS (m₁.store r) = o.getS (m₂.store r)) (htr : ∀ r, o.trainable (m₁.store r) = o.trainable (m₂.store r))
    (hp : ∀ r, map (fun _ => ()) (o.getP (m₁.store r)) = map (fun _ => ()) (o.getP (m₂.store r))) : core o n t j true m₁ = core o n t j true m₂ ∧
      (j.prepare m₁ = (m₁, Option.none) → j.prepare m₂ = (m₂, Option.none) → Sound o n t m₁.store → Sound o n t m₂.store → ∀ m₁' m₂', train o n t j true m₁ = (m₁', Option.none) →
        train o n t j true m₂ = (m₂', Option.none) → norm (params o n t m₁'.store) = norm (params o n t m₂'.store)) := by
  have hfl : flags o n t m₁.store = flags o n t m₂.store := by
    refine bind_congr _ fun x _ => ?_
    have h1 := getAll_struct hp n x
    have h3 := congrArg norm h1
    rw [Tree.norm_map, Tree.norm_map] at h3
    have h2 : isTrainable o n m₁.store x = isTrainable o n m₂.store x := by
      unfold isTrainable
      rw [nodeTrainable_congr htr n x, Forward.jaxLeaves_length ((sameStruct_iff _ _).2 h3)]
    have := congrArg (map fun _ => isTrainable o n m₁.store x) h1
    rw [map_map, map_map] at this
    rw [← h2]
    exact this
  have hgs : ∀ (n : Nat) (x : Node n), getAll o.getS n x m₁.store = getAll o.getS n x m₂.store := by
    intro n
    induction n with
    | zero => intro x; exact hst x
    | succ n ih =>
      intro x
      cases x with
      | inl r => exact hst r
      | inr t => exact bind_congr _ fun x _ => ih x
  have hcore : core o n t j true m₁ = core o n t j true m₂ := by
    have hss : sameStruct (params o n t m₁.store).norm (flags o n t m₂.store).norm = sameStruct (params o n t m₂.store).norm (flags o n t m₂.store).norm := by
      rw [(sameStruct_iff _ _).2 (by rw [← hfl]; exact flags_norm.symm), (sameStruct_iff _ _).2 flags_norm.symm]
    have hstart : start j true m₁.opt (params o n t m₁.store) (flags o n t m₂.store) = start j true m₂.opt (params o n t m₂.store) (flags o n t m₂.store) := by
      rw [hopt]
      cases m₂.opt <;> rfl
    have hg := hgs (n + 1) (.inr t)
    rw [core_eq hk, core_eq hk, hfl, hss, hstart, hopt, hrng]
    exact congrArg (fun s => coreOf j _ _ _ _ s _) hg
  refine ⟨hcore, fun e₁ e₂ s₁ s₂ m₁' m₂' h₁ h₂ => ?_⟩
  obtain ⟨_, p, s, k, a, g₁, g₂, i1, i2, i3, i4, rfl⟩ := train_inv h₁
  obtain ⟨_, p', s', k', a', g₁', g₂', i1', i2', i3', i4', rfl⟩ := train_inv h₂
  rw [e₁] at i1
  cases i1
  rw [e₂] at i1'
  cases i1'
  rw [hcore, i2'] at i2
  cases i2
  obtain ⟨-, r, -, -, hu, -⟩ := core_inv hk i2'
  obtain ⟨p1, -⟩ := unflatten_inv hu
  have hkp : KeysOk p := by
    refine (keysOk_map (fun _ => ()) _).1 ?_
    rw [p1, flags_norm]
    exact (keysOk_map _ _).2 (keysOk_norm' (keysOk_getAll (n + 1) (.inr t) s₂.keys s₂.params))
  have hkf : KeysOk (flags o n t m₂.store) := by
    refine (keysOk_map (fun _ => ()) _).1 ?_
    rw [flags_struct]
    exact (keysOk_map _ _).2 (keysOk_getAll (n + 1) (.inr t) s₂.keys s₂.params)
  have sp : norm p = p := norm_of_sorted _ ((sorted_map (fun _ => ()) p).1 (by rw [p1]; exact (sorted_map _ _).2 (sorted_norm _ hkf)))
  rw [params_after hl s₁ hkp (by rw [sp, p1, ← hfl, flags_norm]) i3 i4, params_after hl s₂ hkp (by rw [sp, p1, flags_norm]) i3' i4']

/-! ## Freezing a model -/

theorem setTrainable_spec (setT : X → Bool → X) (v : Bool) (tr : X → Bool) (hset : ∀ x, tr (setT x v) = v) : ∀ (n : Nat) (x : Node n) (h : Nat → X) (r : Nat),
    (r ∈ refs n x → tr (setTrainable setT v n x h r) = v) ∧ (r ∉ refs n x → setTrainable setT v n x h r = h r) ∧ (tr (h r) = v → tr (setTrainable setT v n x h r) = v)
  | 0, r', h, r => by
    show (r ∈ [r'] → tr (Function.update h r' _ r) = v) ∧ (r ∉ [r'] → Function.update h r' _ r = h r) ∧ (_ → tr (Function.update h r' _ r) = v)
    by_cases e : r = r'
    · subst e
      rw [Function.update_self]
      exact ⟨fun _ => hset _, fun hr => absurd (List.mem_singleton.2 rfl) hr, fun _ => hset _⟩
    · rw [Function.update_of_ne e]
      exact ⟨fun hr => absurd (List.mem_singleton.1 hr) e, fun _ => rfl, id⟩
  | _ + 1, .inl r', h, r => by
    show (r ∈ [r'] → tr (Function.update h r' _ r) = v) ∧ (r ∉ [r'] → Function.update h r' _ r = h r) ∧ (_ → tr (Function.update h r' _ r) = v)
    by_cases e : r = r'
    · subst e
      rw [Function.update_self]
      exact ⟨fun _ => hset _, fun hr => absurd (List.mem_singleton.2 rfl) hr, fun _ => hset _⟩
    · rw [Function.update_of_ne e]
      exact ⟨fun hr => absurd (List.mem_singleton.1 hr) e, fun _ => rfl, id⟩
  | n + 1, .inr t, h, r => by
    have key : ∀ (l : List (Node n)) (h : Nat → X), (r ∈ l.flatMap (refs n) → tr (l.foldl (fun h o => setTrainable setT v n o h) h r) = v) ∧
        (r ∉ l.flatMap (refs n) → l.foldl (fun h o => setTrainable setT v n o h) h r = h r) ∧ (tr (h r) = v → tr (l.foldl (fun h o => setTrainable setT v n o h) h r) = v) := by
      intro l
      induction l with
      | nil => intro h; simp
      | cons x l ih =>
        intro h
        obtain ⟨a1, a2, a3⟩ := setTrainable_spec setT v tr hset n x h r
        obtain ⟨b1, b2, b3⟩ := ih (setTrainable setT v n x h)
        rw [List.foldl_cons, List.flatMap_cons, List.mem_append]
        refine ⟨?_, ?_, fun hr => b3 (a3 hr)⟩
        · rintro (hr | hr)
          · exact b3 (a1 hr)
          · exact b1 hr
        · intro hr
          rw [not_or] at hr
          rw [b2 hr.2, a2 hr.1]
    have hmem : r ∈ refs (n + 1) (.inr t) ↔ r ∈ (jaxLeaves t).flatMap (refs n) := by
      show r ∈ (flat t).flatMap (refs n) ↔ _
      simp only [List.mem_flatMap, jaxLeaves, mem_flat_norm]
    obtain ⟨k1, k2, k3⟩ := key (jaxLeaves t) h
    exact ⟨fun hr => k1 (hmem.1 hr), fun hr => k2 fun hr' => hr (hmem.2 hr'), k3⟩

/-- **C85** Assigning `trainable` to a model (of any depth, with shared objects too) assigns it to all its objects and to no others, and the model then reads it back if it has an object. -/
theorem C85_freeze (setT : X → Bool → X) (v : Bool) (tr : X → Bool) (hset : ∀ x, tr (setT x v) = v) (n : Nat) (x : Node n) (h : Nat → X) :
    (∀ r ∈ refs n x, tr (setTrainable setT v n x h r) = v) ∧ (∀ r ∉ refs n x, setTrainable setT v n x h r = h r) ∧
      (refs n x ≠ [] → nodeTrainable tr n x (setTrainable setT v n x h) = v) := by
  refine ⟨fun r hr => (setTrainable_spec setT v tr hset n x h r).1 hr, fun r hr => (setTrainable_spec setT v tr hset n x h r).2.1 hr, fun hne => ?_⟩
  rw [Bool.eq_iff_iff, nodeTrainable_iff]
  unfold Trainable
  constructor
  · rintro ⟨r, hr, ht⟩
    rwa [(setTrainable_spec setT v tr hset n x h r).1 hr] at ht
  · intro hv
    obtain ⟨r, hr⟩ := List.exists_mem_of_ne_nil _ hne
    exact ⟨r, hr, by rw [(setTrainable_spec setT v tr hset n x h r).1 hr, hv]⟩

/-- **C85** A model whose modules were all frozen by such an assignment at the outermost level keeps all its parameters when trained. (A model without trainable parameters: the gradients are taken with respect
to no parameter. Whether jax accepts this is not modelled.) -/
theorem C85_freeze_all (o : Ops X A) (hl : Lawful o) (setT : X → Bool → X) (hset : ∀ x, o.trainable (setT x false) = false) (n : Nat) (t : Tree (Node n)) (j : Job X A K α F) (m m' : MState X A K)
    (hprep : j.prepare m = (m, Option.none)) (hm : ∃ h, m.store = setTrainable setT false (n + 1) (.inr t) h) (hs : Sound o n t m.store) (hi : ∀ x, (j.init x).params = x)
    (hcb : ∀ k e (ps : List A), (j.cfg.callback k e ps).2 = ps) (h : train o n t j false m = (m', Option.none)) :
    ∀ r ∈ refs (n + 1) (.inr t), norm (o.getP (m'.store r)) = norm (o.getP (m.store r)) := by
  intro r hr
  obtain ⟨x, hx, hrx⟩ := List.mem_flatMap.1 (show r ∈ (flat t).flatMap (refs n) from hr)
  obtain ⟨q, hq⟩ := mem_flat_at.1 hx
  refine C85_frozen o hl n t j false m m m' hprep hs hi (fun h => by cases h) _ (flagTree_run hs.keys.1) (fun k e ps i _ => by rw [hcb]) h q x hq ?_ r hrx
  rintro ⟨r', hr', ht⟩
  obtain ⟨h0, hm⟩ := hm
  rw [hm, (setTrainable_spec setT false o.trainable hset (n + 1) (.inr t) h0 r').1 (List.mem_flatMap.2 ⟨x, hx, hr'⟩)] at ht
  cases ht

/-! ## Concrete runs -/

theorem pair_of {β ε : Type} {a : β × Option ε} (h : a.2 = Option.none) : a = (a.1, Option.none) := by
  rw [← h]

/-- Objects with parameters, and whether they are trainable. The state is not used. -/
def simpleOps : Ops (Tree Int × Bool) Int := ⟨fun x => x.1, fun x v => ((v, x.2), Option.none), fun _ => .none, fun x _ => (x, Option.none), fun x => x.2⟩

theorem simple_lawful : Lawful simpleOps := ⟨fun _ _ _ _ => rfl, fun _ _ => rfl, fun _ _ => ⟨rfl, rfl⟩⟩

/-- The loss is the sum of the squared distances of the parameters to 5, and the gradients are the signs of the distances. The first parameters are frozen. -/
def simpleJob (frozen epochs : Nat) : Job (Tree Int × Bool) Int Nat Nat (Option Int) where
  prepare m := (m, Option.none)
  checks := Option.none
  cfg := { perm := demoCfg.perm, splitN := demoCfg.splitN, split := demoCfg.split, grad := fun _ _ s _ _ => ([], s), valLoss := fun _ _ _ _ _ => Option.none, update := demoCfg.update,
           callback := demoCfg.callback, verbose := false, interrupted := demoCfg.interrupted, flags := [], train := demoCfg.train, val := demoCfg.val, batchSize := 2, valBatchSize := 2, epochs := epochs,
           target := some 0, patience := 2, minDelta := some 0, lt := demoCfg.lt, le := demoCfg.le, sub := demoCfg.sub, add := demoCfg.add, divNat := demoCfg.divNat, zero := demoCfg.zero }
  grad _ _ s _ p := (((jaxLeaves p).drop frozen).map fun x => if x < 5 then -1 else if 5 < x then 1 else 0, s)
  val _ _ _ _ p := some (((jaxLeaves p).map fun x => (x - 5) * (x - 5)).sum)
  init x := ⟨x, 0, 0, 0⟩
  batchRng := 0

/-- A model of a module (object 0) and a model of two modules (objects 1 and 2). -/
def simpleModel : Tree (Node 1) := .list [.leaf (.inl 0), .leaf (.inr (.list [.leaf (show Node 0 from (1 : Nat)), .leaf (show Node 0 from (2 : Nat))]))]

/-- Object 1 is frozen, objects 0 and 2 are not. -/
def simpleStore : Nat → Tree Int × Bool := fun r => if r = 0 then (.leaf 0, true) else if r = 1 then (.leaf 1, false) else (.leaf 2, true)

/-- Object 0 is frozen. -/
def frozenStore : Nat → Tree Int × Bool := fun r => if r = 0 then (.leaf 0, false) else if r = 1 then (.leaf 1, true) else (.leaf 2, true)

theorem simple_sound (h : Nat → Tree Int × Bool) (hh : ∀ r, KeysOk (h r).1) : Sound simpleOps 1 simpleModel h := by
  refine ⟨⟨⟨trivial, trivial, trivial⟩, fun q x hq => ?_⟩, (by decide), fun r hr => ?_⟩
  · have : x = .inl 0 ∨ x = .inr (.list [.leaf (show Node 0 from (1 : Nat)), .leaf (show Node 0 from (2 : Nat))]) := by
      have := mem_flat_at.2 ⟨q, hq⟩
      simp only [simpleModel, flat, flatL, List.append_nil, List.mem_append] at this
      exact this.imp List.mem_singleton.1 List.mem_singleton.1
    rcases this with rfl | rfl
    · trivial
    · exact ⟨⟨trivial, trivial, trivial⟩, fun _ _ _ => trivial⟩
  · exact hh r

theorem frozen_keys (r : Nat) : KeysOk (frozenStore r).1 := by
  simp only [frozenStore]
  split
  · trivial
  split <;> trivial

/-- The training used below: object 0 is frozen; the other two are trained. -/
theorem frozen_run : ∃ m', train simpleOps 1 simpleModel (simpleJob 1 3) false ⟨frozenStore, 0, Option.none⟩ = (m', Option.none) ∧ (List.range 4).map (fun r => (m'.store r).1) = [.leaf 0, .leaf 5, .leaf 5, .leaf 2] ∧
    m'.opt.map (map (·.params)) = some (.list [.leaf 0, .list [.leaf 5, .leaf 5]]) :=
  ⟨(train simpleOps 1 simpleModel (simpleJob 1 3) false ⟨frozenStore, 0, Option.none⟩).1, pair_of (by decide +kernel), by decide +kernel, by decide +kernel⟩

/-- The hypotheses of `C85_frozen`, `C85_returns` are met, and the call changes the objects that are not frozen. -/
example : ∃ m', train simpleOps 1 simpleModel (simpleJob 1 3) false ⟨frozenStore, 0, Option.none⟩ = (m', Option.none) ∧ norm (m'.store 0).1 = norm (frozenStore 0).1 ∧ m'.opt.isSome ∧ Consistent simpleOps 1 simpleModel m' := by
  obtain ⟨m', h, -⟩ := frozen_run
  have hs := simple_sound frozenStore frozen_keys
  have hf := C85_frozen simpleOps simple_lawful 1 simpleModel (simpleJob 1 3) false ⟨frozenStore, 0, Option.none⟩ ⟨frozenStore, 0, Option.none⟩ m' rfl hs (fun _ => rfl) (fun h => by cases h) _
    (flagTree_run hs.keys.1) (fun _ _ _ _ _ => rfl) h [.idx 0] (.inl 0) (.list rfl (.leaf _)) (by rintro ⟨r, hr, ht⟩; rw [List.mem_singleton.1 (show r ∈ [0] from hr)] at ht; cases ht) 0
    (List.mem_singleton.2 rfl)
  have hr := C85_returns simpleOps simple_lawful 1 simpleModel (simpleJob 1 3) demo_order false _ _ m' rfl hs (fun _ => rfl) (fun h => by cases h) h
  exact ⟨m', h, hf, hr.2.1⟩

/-- **C85** A frozen module of a model inside a model is trained if another module of the inner model is not frozen. -/
theorem C85_nested_refuted : ∃ m', train simpleOps 1 simpleModel (simpleJob 0 3) false ⟨simpleStore, 0, Option.none⟩ = (m', Option.none) ∧ simpleOps.trainable (simpleStore 1) = false ∧
    norm (simpleOps.getP (m'.store 1)) ≠ norm (simpleOps.getP (simpleStore 1)) :=
  ⟨(train simpleOps 1 simpleModel (simpleJob 0 3) false ⟨simpleStore, 0, Option.none⟩).1, pair_of (by decide +kernel), rfl, by decide +kernel⟩

/-- **C85** Resuming throws away parameters that were set after the last training, frozen or not: resuming for no epochs at all changes them. -/
theorem C85_resume_refuted : ∃ m' m'' : MState (Tree Int × Bool) Int Nat, ∃ h, train simpleOps 1 simpleModel (simpleJob 1 3) false ⟨frozenStore, 0, Option.none⟩ = (m', Option.none) ∧
    setAll .params simpleOps.setP 2 (.inr simpleModel) (.list [.leaf 100, .list [.leaf 101, .leaf 102]]) m'.store = (h, Option.none) ∧
    train simpleOps 1 simpleModel (simpleJob 1 0) true { m' with store := h } = (m'', Option.none) ∧ (List.range 3).map (fun r => (h r).1) = [.leaf 100, .leaf 101, .leaf 102] ∧
    (List.range 3).map (fun r => (m''.store r).1) = [.leaf 0, .leaf 5, .leaf 5] :=
  ⟨(train simpleOps 1 simpleModel (simpleJob 1 3) false ⟨frozenStore, 0, Option.none⟩).1,
    (train simpleOps 1 simpleModel (simpleJob 1 0) true { (train simpleOps 1 simpleModel (simpleJob 1 3) false ⟨frozenStore, 0, Option.none⟩).1 with
      store := (setAll .params simpleOps.setP 2 (.inr simpleModel) (.list [.leaf 100, .list [.leaf 101, .leaf 102]]) (train simpleOps 1 simpleModel (simpleJob 1 3) false ⟨frozenStore, 0, Option.none⟩).1.store).1 }).1,
    (setAll .params simpleOps.setP 2 (.inr simpleModel) (.list [.leaf 100, .list [.leaf 101, .leaf 102]]) (train simpleOps 1 simpleModel (simpleJob 1 3) false ⟨frozenStore, 0, Option.none⟩).1.store).1,
    pair_of (by decide +kernel), pair_of (by decide +kernel), pair_of (by decide +kernel), by decide +kernel, by decide +kernel⟩

/-- Resuming is refused for a model that was never trained. -/
example : train simpleOps 1 simpleModel (simpleJob 1 3) true ⟨frozenStore, 0, Option.none⟩ = (⟨frozenStore, 0, Option.none⟩, some .valueError) :=
  C85_resume_first simpleOps 1 simpleModel (simpleJob 1 3) _ _ (simple_sound frozenStore frozen_keys).keys.1 rfl rfl

/-- Two models that differ in the values of their parameters and resume from the same optimiser states. -/
example : (train simpleOps 1 simpleModel (simpleJob 1 3) true ⟨frozenStore, 0, some (.list [.leaf ⟨7, 0, 0, 0⟩, .list [.leaf ⟨8, 0, 0, 0⟩, .leaf ⟨9, 0, 0, 0⟩]])⟩).2 = Option.none ∧
    core simpleOps 1 simpleModel (simpleJob 1 3) true ⟨frozenStore, 0, some (.list [.leaf ⟨7, 0, 0, 0⟩, .list [.leaf ⟨8, 0, 0, 0⟩, .leaf ⟨9, 0, 0, 0⟩]])⟩ =
      core simpleOps 1 simpleModel (simpleJob 1 3) true ⟨fun r => (.leaf 50, (frozenStore r).2), 0, some (.list [.leaf ⟨7, 0, 0, 0⟩, .list [.leaf ⟨8, 0, 0, 0⟩, .leaf ⟨9, 0, 0, 0⟩]])⟩ := by
  refine ⟨by decide +kernel, (C85_resume_ignores simpleOps simple_lawful 1 simpleModel (simpleJob 1 3) _ _ (simple_sound frozenStore frozen_keys).keys.1 rfl rfl (fun _ => rfl) (fun _ => rfl) fun r => ?_).1⟩
  simp only [frozenStore, simpleOps]
  repeat' split
  all_goals rfl

/-- The model after it was frozen. -/
def iceStore : Nat → Tree Int × Bool := setTrainable (fun x v => (x.1, v)) false 2 (.inr simpleModel) simpleStore

theorem ice_keys (r : Nat) : KeysOk (iceStore r).1 := by
  have : (iceStore r).1 = (simpleStore r).1 := by
    by_cases e : r ∈ [0, 1, 2]
    · simp only [List.mem_cons, List.not_mem_nil, or_false] at e
      rcases e with rfl | rfl | rfl <;> rfl
    · unfold iceStore
      rw [(C85_freeze (fun x v => (x.1, v)) false (fun x : Tree Int × Bool => x.2) (fun _ => rfl) 2 (.inr simpleModel) simpleStore).2.1 r e]
  rw [this]
  simp only [simpleStore]
  split
  · trivial
  split <;> trivial

/-- Freezing the model, and training it with no gradients. -/
example : (List.range 4).map (fun r => (iceStore r).2) = [false, false, false, true] ∧ nodeTrainable (fun x : Tree Int × Bool => x.2) 2 (.inr simpleModel) iceStore = false ∧
    ∃ m', train simpleOps 1 simpleModel (simpleJob 3 3) false ⟨iceStore, 0, Option.none⟩ = (m', Option.none) ∧ ∀ r ∈ [0, 1, 2], norm (m'.store r).1 = norm (iceStore r).1 := by
  have h : train simpleOps 1 simpleModel (simpleJob 3 3) false ⟨iceStore, 0, Option.none⟩ = ((train simpleOps 1 simpleModel (simpleJob 3 3) false ⟨iceStore, 0, Option.none⟩).1, Option.none) :=
    pair_of (by decide +kernel)
  refine ⟨by decide +kernel, (C85_freeze (fun x v => (x.1, v)) false (fun x : Tree Int × Bool => x.2) (fun _ => rfl) 2 (.inr simpleModel) simpleStore).2.2 (by decide), _, h, ?_⟩
  generalize (train simpleOps 1 simpleModel (simpleJob 3 3) false ⟨iceStore, 0, Option.none⟩).1 = m' at h ⊢
  have hf := C85_freeze_all simpleOps simple_lawful (fun x v => (x.1, v)) (fun _ => rfl) 1 simpleModel (simpleJob 3 3) ⟨iceStore, 0, Option.none⟩ m' rfl ⟨simpleStore, rfl⟩
    (simple_sound iceStore ice_keys) (fun _ => rfl) (fun _ _ _ => rfl) h
  exact hf

/-- The places and flags of the model with object 0 frozen. -/
example : flagTree simpleOps 1 simpleModel frozenStore = .ok (.list [.leaf false, .list [.leaf true, .leaf true]]) := by decide +kernel

/-! ## The library's modules -/

/-- The library's modules that have no state, with the attribute `trainable`. -/
def libTrain : Ops (LibObj × Bool) Ser.Atom := ⟨fun x => libGet x.1, fun x v => (((libSet x.1 v).1, x.2), (libSet x.1 v).2), fun _ => .tuple [], fun x _ => (x, Option.none), fun x => x.2⟩

/-- **C85** The library's modules meet the assumption on modules. -/
theorem C85_library : Lawful libTrain := by
  refine ⟨fun x v hs hset => ?_, fun _ _ => rfl, fun _ _ => ⟨rfl, rfl⟩⟩
  obtain ⟨h1, h2⟩ := C84_library x.1 v
  show norm (libGet (libSet x.1 v).1) = norm v
  by_cases hp : HasParams x.1.1
  · rw [h1 hp _ (Prod.ext rfl hset)]
  · obtain ⟨e1, e2⟩ := h2 hp
    rw [e1, e2]
    rw [show libTrain.getP x = .tuple [] from e2] at hs
    refine tree_ext hs.symm ?_
    have := congrArg (fun t => (flat t).length) hs
    simp only [flat_map', List.length_map] at this
    rw [List.length_eq_zero_iff.1 (this.trans rfl)]
    rfl

end Verif.Props
