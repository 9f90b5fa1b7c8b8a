import Verif.Props.ModelDisk
import Verif.Lemmas.Loaded
import Verif.Spec.Loaded

/-! # Properties of calls of loaded models -/

namespace Verif.Props
open Tree Ser ModelSer ModelSpec SerSpec Loaded Forward LoadedSpec
open Nested (ValAt)
open ForwardSpec (KeysOk)

variable {σ D A P S K X : Type}

theorem callAt_restored (ops : Ops σ D) (w r : Str) (canon : σ → σ) (fresh : Str → Nat → Nat → Str) (sig : Sig σ P S K X)
    (hcall : ∀ m, Restorable (w = r) ops canon m → sig.call (canon m) = sig.call m) (n : Nat) (x : Obj σ A n) (hx : AllWritable ops w r canon n x) :
    (callAt fresh sig n).call (restoredAt canon n x) = (callAt fresh sig n : Sig (Obj σ A n) _ _ _ _).call x := by
  induction n with
  | zero => exact hcall x hx
  | succ n ih =>
    cases x with
    | inl m =>
      have h := hcall m hx
      funext p d t s k
      show (Nested.sumSig sig (callSig fresh (callAt fresh sig n) : Sig (Mdl (Obj σ A n) A) _ _ _ _)).call (.inl (canon m)) p d t s k = (Nested.sumSig sig (callSig fresh (callAt fresh sig n))).call (.inl m) p d t s k
      unfold Nested.sumSig
      cases p <;> cases s <;> simp only [h]
    | inr M =>
      have h := modelCall_view (callAt fresh sig n) fresh M hx.1.keys fun m hm => ih m (hx.2 m hm)
      funext p d t s k
      show (Nested.sumSig sig (callSig fresh (callAt fresh sig n) : Sig (Mdl (Obj σ A n) A) _ _ _ _)).call (.inr (restored (restoredAt canon n) M)) p d t s k =
        (Nested.sumSig sig (callSig fresh (callAt fresh sig n))).call (.inr M) p d t s k
      unfold Nested.sumSig callSig
      cases p <;> cases s <;> simp only [h]

theorem params_restored (ops : Ops σ D) (w r : Str) (canon : σ → σ) (n : Nat) (x : Obj σ A n) (hx : AllWritable ops w r canon n x) :
    paramsAt ops n (restoredAt canon n x) = paramsAt ops n x := by
  induction n with
  | zero => exact hx.params
  | succ n ih =>
    cases x with
    | inl m => exact congrArg Sum.inl hx.params
    | inr M =>
      show Sum.inr (map (paramsAt ops n) (map (restoredAt canon n) M.modules.norm).norm) = Sum.inr (map (paramsAt ops n) M.modules.norm)
      rw [Tree.norm_map, norm_norm hx.1.keys, Tree.map_map]
      exact congrArg Sum.inr (map_congr fun m hm => ih m (hx.2 m (mem_flat_norm.1 hm)))

theorem mapM_after {α β γ : Type} (f : β → Except PyErr (Tree γ)) (c : α → β) : ∀ t : Tree α, mapM f (map c t) = mapM (fun a => f (c a)) t := by
  apply Tree.rec (motive_1 := fun t => mapM f (map c t) = mapM (fun a => f (c a)) t) (motive_2 := fun ts => mapML f (mapL c ts) = mapML (fun a => f (c a)) ts)
    (motive_3 := fun ts => mapMD f (mapD c ts) = mapMD (fun a => f (c a)) ts) (motive_4 := fun kv => mapM f (map c kv.2) = mapM (fun a => f (c a)) kv.2)
  · intro a; rfl
  · rfl
  · intro ts h; simp only [map, mapM, h]
  · intro ts h; simp only [map, mapM, h]
  · intro ts h; simp only [map, mapM, h]
  · rfl
  · intro t ts h1 h2; simp only [mapL, mapML, h1, h2]
  · rfl
  · rintro ⟨k, t⟩ ts h1 h2
    simp only at h1
    simp only [mapD, mapMD, h1, h2]
  · intro k t h; exact h

theorem stateOf_restored (ops : Ops σ D) (w r : Str) (canon : σ → σ) (get : σ → Except PyErr S) (no : S) (M : Mdl σ A) (hw : ModelSpec.Writable ops M) (hm : ∀ m ∈ M.modules.flat, Restorable (w = r) ops canon m)
    (hg : ∀ m ∈ M.modules.flat, get (canon m) = get m) : stateOf ops get no (restored canon M) = stateOf ops get no M := by
  have hr : ModelSer.ready ops (restored canon M) = ModelSer.ready ops M := (C39_model ops w r canon M hw hm).ready
  have hn : (restored canon M).modules.norm = map canon M.modules.norm := by
    show (map canon M.modules.norm).norm = _
    rw [Tree.norm_map, norm_norm hw.keys]
  unfold stateOf
  rw [hr, hn]
  show (match M.kind with | .seq => _ | .nonseq _ _ _ => _) = _
  cases M.kind with
  | seq =>
    simp only [mapM_after]
    exact mapM_congr _ _ _ fun m h => by rw [hg m (mem_flat_norm.1 h)]
  | nonseq o c s =>
    simp only [mapM_after]
    split
    · exact mapM_congr _ _ _ fun m h => by rw [hg m (mem_flat_norm.1 h), (hm m (mem_flat_norm.1 h)).ready]
    · rfl

theorem state_restored (ops : Ops σ D) (w r : Str) (canon : σ → σ) (hc : ∀ m k, ops.cls m ≠ kindCls k) (n : Nat) (x : Obj σ A n) (hx : AllWritable ops w r canon n x) :
    stateAt ops w r n (restoredAt canon n x) = stateAt ops w r n x := by
  have base : ∀ m, Restorable (w = r) ops canon m → ops.getState (canon m) = ops.getState m := by
    intro m h
    obtain ⟨v, h1, h2, -⟩ := h.state
    rw [h1, h2]
  induction n with
  | zero => exact base x hx
  | succ n ih =>
    cases x with
    | inl m => exact congrArg (Except.map Sum.inl) (base m hx)
    | inr M =>
      exact congrArg (Except.map Sum.inr) (stateOf_restored (opsAt ops w r n) w r _ _ _ M hx.1 (fun m hm => C39_nested ops w r canon hc n m (hx.2 m hm)) fun m hm => ih m (hx.2 m hm))

theorem keyData_typed (k : Key) : keyData (typedKey k) = keyData k := by cases k <;> rfl

/-- **C108** The restored model of `C39_nested` answers every call as the original does: the same output and the same new state, or the same error, for all data, types and keys, with models inside models to any depth. The
hypothesis on the modules is that a module with the same attributes computes the same (`canon` is the identity for the library). -/
theorem C108_call (ops : Ops σ D) (w r : Str) (canon : σ → σ) (hc : ∀ m k, ops.cls m ≠ kindCls k) (fresh : Str → Nat → Nat → Str) (sig : Sig σ PyVal PyVal Nat X) (env : Env X)
    (hcall : ∀ m, Restorable (w = r) ops canon m → sig.call (canon m) = sig.call m) (n : Nat) (M : Mdl (Obj σ A n) A)
    (hM : ModelSpec.Writable (opsAt ops w r n) M) (hm : ∀ m ∈ M.modules.flat, AllWritable ops w r canon n m) (data : Tree X) (dtype : Str) (rng : RngArg) :
    call ops w r fresh sig env n (restored (restoredAt canon n) M) data dtype rng = call ops w r fresh sig env n M data dtype rng := by
  have hr := fun m h => C39_nested ops w r canon hc n m (hm m h)
  have h1 : ModelSer.ready (opsAt ops w r n) (restored (restoredAt canon n) M) = ModelSer.ready (opsAt ops w r n) M := (C39_model _ w r _ M hM hr).ready
  have h2 : (restored (restoredAt canon n) M).inShape = M.inShape := rfl
  have h3 : theKey env (restored (restoredAt canon n) M).rng rng = theKey env M.rng rng := by
    show theKey env (typedKey M.rng) rng = _
    unfold theKey
    rw [keyData_typed]
  have h4 : map (paramsAt ops n) (restored (restoredAt canon n) M).modules.norm = map (paramsAt ops n) M.modules.norm := by
    show map (paramsAt ops n) (map (restoredAt canon n) M.modules.norm).norm = _
    rw [Tree.norm_map, norm_norm hM.keys, Tree.map_map]
    exact map_congr fun m h => params_restored ops w r canon n m (hm m (mem_flat_norm.1 h))
  have h5 := stateOf_restored (opsAt ops w r n) w r (restoredAt canon n) (stateAt ops w r n) (noState n) M hM hr fun m h => state_restored ops w r canon hc n m (hm m h)
  have h6 := modelCall_view (callAt fresh sig n) fresh M hM.keys fun m h => callAt_restored ops w r canon fresh sig hcall n m (hm m h)
  unfold call
  rw [h1, h2, h3, h4, h5, h6]

/-- **C108** What is saved and loaded predicts what the original does, if the file can be written and read (`C39_file`). -/
theorem C108_file (ops : Ops σ D) (w r : Str) (canon : σ → σ) (hc : ∀ m k, ops.cls m ≠ kindCls k) (fresh : Str → Nat → Nat → Str) (sig : Sig σ PyVal PyVal Nat X) (env : Env X)
    (hcall : ∀ m, Restorable (w = r) ops canon m → sig.call (canon m) = sig.call m) (n : Nat) (M : Mdl (Obj σ A n) A)
    (hM : ModelSpec.Writable (opsAt ops w r n) M) (hm : ∀ m ∈ M.modules.flat, AllWritable ops w r canon n m) (s : List Nat) (hs : ModelSpec.HasShape M.modules s) (ht : NoTuple M.modules) :
    ∃ d M₀, save (opsAt ops w r n) w M = .ok d ∧ createModel (kindCls M.kind) = .ok M₀ ∧
      ∀ strict, (strict = true → w = r) → ∃ M', load (opsAt ops w r n) r strict M₀ d = .ok M' ∧
        ∀ data dtype rng, call ops w r fresh sig env n M' data dtype rng = call ops w r fresh sig env n M data dtype rng := by
  obtain ⟨d, M₀, h1, h2, h3⟩ := C39_file (opsAt ops w r n) w r (restoredAt canon n) M hM (fun m h => C39_nested ops w r canon hc n m (hm m h)) s hs ht
  exact ⟨d, M₀, h1, h2, fun strict hstrict => ⟨_, h3 strict hstrict, fun data dtype rng => C108_call ops w r canon hc fresh sig env hcall n M hM hm data dtype rng⟩⟩

theorem noTuple_map {α β : Type} (f : α → β) (t : Tree α) : NoTuple (map f t) ↔ NoTuple t := by
  rw [← untuple_self, ← untuple_self, untuple_map]
  constructor
  · intro h
    have h' := congrArg (map fun _ => ()) h
    rw [map_map, map_map] at h'
    exact untuple_struct t ((sameStruct_iff _ _).2 h')
  · intro h; rw [h]

theorem flat_map_mem {α β : Type} {f : α → β} {t : Tree α} {b : β} (h : b ∈ (map f t).flat) : ∃ a ∈ t.flat, f a = b := by
  rw [flat_map] at h
  exact List.mem_map.1 h

theorem writable_again (ops : Ops σ D) (w r : Str) (canon : σ → σ) (M : Mdl σ A) (hw : ModelSpec.Writable ops M) (hm : ∀ m ∈ M.modules.flat, Restorable (w = r) ops canon m) :
    ModelSpec.Writable ops (restored canon M) := by
  have h := C39_model ops w r canon M hw hm
  refine ⟨(keysOk_map _ _).2 (keysOk_norm' hw.keys), ?_, ?_, ?_⟩
  · have h1 := hw.rng
    show typedKey M.rng ≠ .other
    intro h2
    cases hr : M.rng <;> simp [hr, typedKey] at h1 h2
  · intro t ht _
    have hp : ModelSer.getParams ops (restored canon M) = ModelSer.getParams ops M := h.params
    rw [hp]
    change (if OptState.truthy M.opt then M.opt.map norm else Option.none) = some t at ht
    split at ht
    · next hb =>
      cases ho : M.opt with
      | none => rw [ho] at ht; cases ht
      | some u =>
        rw [ho] at ht hb
        cases ht
        rw [norm_idem]
        exact hw.opt u ho hb
    · cases ht
  · rcases hw.ready with h1 | h1
    · exact Or.inl h1
    · exact Or.inr (h.ready.trans h1)

theorem allWritable_again (ops : Ops σ D) (w r : Str) (hc : ∀ m k, ops.cls m ≠ kindCls k) (n : Nat) (x : Obj σ A n) (hx : AllWritable ops w r id n x) :
    AllWritable ops w r id n (restoredAt id n x) := by
  induction n with
  | zero => exact hx
  | succ n ih =>
    cases x with
    | inl m => exact hx
    | inr M =>
      refine ⟨writable_again _ w r _ M hx.1 fun m hm => C39_nested ops w r id hc n m (hx.2 m hm), fun m hm => ?_⟩
      obtain ⟨a, ha, rfl⟩ := flat_map_mem hm
      exact ih a (hx.2 a (mem_flat_norm.1 ha))

theorem storable_again (ops : Ops σ D) (w r : Str) (hc : ∀ m k, ops.cls m ≠ kindCls k) (n : Nat) (M : Mdl (Obj σ A n) A) (h : Storable ops w r n M) :
    Storable ops w r n (restored (restoredAt id n) M) := by
  refine ⟨writable_again _ w r _ M h.writable fun m hm => C39_nested ops w r id hc n m (h.modules m hm), fun m hm => ?_, ?_, ?_⟩
  · obtain ⟨a, ha, rfl⟩ := flat_map_mem hm
    exact allWritable_again ops w r hc n a (h.modules a (mem_flat_norm.1 ha))
  · obtain ⟨s, hs⟩ := h.shape
    refine ⟨s, axes_iff.1 ?_⟩
    show axes (map _ M.modules.norm) = _
    rw [axes_map, axes_norm]
    exact axes_iff.2 hs
  · exact (noTuple_map _ _).2 ((noTuple_norm _).2 h.noTuple)

/-- **C108** However often a model of the library's modules is saved and loaded: it keeps predicting the same, and it can be saved and loaded once more. -/
theorem C108_rounds (w r : Str) (fresh : Str → Nat → Nat → Str) (sig : Sig (Lib × MObj Attr) PyVal PyVal Nat X) (env : Env X) (n : Nat) (M M' : Mdl (Obj (Lib × MObj Attr) A n) A)
    (hM : Storable (libOps w r) w r n M) (h : Rounds (opsAt (libOps w r) w r n) w r M M') :
    (∀ data dtype rng, call (libOps w r) w r fresh sig env n M' data dtype rng = call (libOps w r) w r fresh sig env n M data dtype rng) ∧
    ∃ d M₀, save (opsAt (libOps w r) w r n) w M' = .ok d ∧ createModel (kindCls M'.kind) = .ok M₀ ∧ ∀ strict, (strict = true → w = r) → ∃ M'', load (opsAt (libOps w r) w r n) r strict M₀ d = .ok M'' := by
  have inv : Storable (libOps w r) w r n M' ∧ ∀ data dtype rng, call (libOps w r) w r fresh sig env n M' data dtype rng = call (libOps w r) w r fresh sig env n M data dtype rng := by
    induction h with
    | start => exact ⟨hM, fun _ _ _ => rfl⟩
    | again _ h1 h2 h3 h4 ih =>
      rename_i M' M₀ M'' d strict _
      obtain ⟨s, hs⟩ := ih.1.shape
      obtain ⟨d', M₀', g1, g2, g3⟩ := C39_file _ w r (restoredAt id n) M' ih.1.writable (fun m hm => C39_library_nested w r n m (ih.1.modules m hm)) s hs ih.1.noTuple
      rw [g1] at h1
      cases h1
      rw [g2] at h2
      cases h2
      rw [g3 strict h3] at h4
      cases h4
      refine ⟨storable_again _ w r (lib_cls w r) n M' ih.1, fun data dtype rng => ?_⟩
      rw [← ih.2]
      exact C108_call (libOps w r) w r id (lib_cls w r) fresh sig env (fun _ _ => rfl) n M' ih.1.writable ih.1.modules data dtype rng
  refine ⟨inv.2, ?_⟩
  obtain ⟨s, hs⟩ := inv.1.shape
  obtain ⟨d, M₀, g1, g2, g3⟩ := C39_file _ w r (restoredAt id n) M' inv.1.writable (fun m hm => C39_library_nested w r n m (inv.1.modules m hm)) s hs inv.1.noTuple
  exact ⟨d, M₀, g1, g2, fun strict hstrict => ⟨_, g3 strict hstrict⟩⟩

theorem targets_eq {t : Tree Str} {l : List Str} (h : ConnTo t l) : targets t = .ok l := by
  have hp : ∀ l : List Str, pathList (l.map .leaf) = .ok l := by
    intro l
    induction l with
    | nil => rfl
    | cons a l ih => simp only [List.map_cons, pathList, ih]
  cases h with
  | one s => rfl
  | list l => exact hp l
  | tuple l => exact hp l

theorem leads_of_targets {t : Tree Str} {l : List Str} (h : targets t = .ok l) : ConnTo t l := by
  have hp : ∀ (ts : List (Tree Str)) (l : List Str), pathList ts = .ok l → ts = l.map .leaf := by
    intro ts
    induction ts with
    | nil => intro l h; cases h; rfl
    | cons a ts ih =>
      intro l h
      cases a with
      | leaf s =>
        rw [pathList] at h
        cases hq : pathList ts with
        | error e => rw [hq] at h; cases h
        | ok l' => rw [hq] at h; cases h; rw [ih l' hq]; rfl
      | _ => cases h
  cases t with
  | leaf s => cases h; exact .one s
  | list ts => have := hp ts l h; subst this; exact .list l
  | tuple ts => have := hp ts l h; subst this; exact .tuple l
  | _ => cases h

/-- **C108** The connections that calls use are those the user has written, in the same order; a value that is neither a text nor a list or tuple of texts is refused. -/
theorem C108_connections (conns : Tree Str) (conn : List (Str × List Str)) : connList conns = .ok conn ↔ Wired conns conn := by
  have key : ∀ (kvs : List (Str × Tree Str)) (conn : List (Str × List Str)), connEntries kvs = .ok conn ↔ List.Forall₂ (fun (x : Str × Tree Str) (y : Str × List Str) => x.1 = y.1 ∧ ConnTo x.2 y.2) kvs conn := by
    intro kvs
    induction kvs with
    | nil =>
      intro conn
      constructor
      · intro h; cases h; exact .nil
      · intro h; cases h; rfl
    | cons x kvs ih =>
      obtain ⟨k, t⟩ := x
      intro conn
      constructor
      · intro h
        rw [connEntries] at h
        cases ht : targets t with
        | error e => rw [ht] at h; cases h
        | ok l =>
          rw [ht] at h
          cases hr : connEntries kvs with
          | error e => rw [hr] at h; cases h
          | ok r =>
            rw [hr] at h
            cases h
            exact .cons ⟨rfl, leads_of_targets ht⟩ ((ih r).1 hr)
      · intro h
        cases h with
        | cons hx hr =>
          rename_i y r
          obtain ⟨k', l⟩ := y
          obtain ⟨h1, h2⟩ := hx
          cases h1
          rw [connEntries, targets_eq h2, (ih r).2 hr]
  unfold Wired
  cases conns with
  | dict kvs =>
    constructor
    · intro h; exact ⟨kvs, rfl, (key kvs conn).1 h⟩
    · rintro ⟨kvs', h1, h2⟩; cases h1; exact (key kvs conn).2 h2
  | _ => exact ⟨fun h => (by cases h), fun ⟨_, h, _⟩ => (by cases h)⟩

/-- **C108** A graph model whose stored execution order is the one that `compile` computes (`execOrder`, the order of C19) is called as C19 and C20 say. -/
theorem C108_graph (sig : Sig σ P S K X) (fresh : Str → Nat → Nat → Str) (M : Mdl σ A) (order : List Str) (conns : Tree Str) (sep : Char) (conn : List (Str × List Str)) (hk : M.kind = .nonseq (some order) conns sep)
    (hc : Wired conns conn) (ho : execOrder sep M.modules conn = .ok order) :
    modelCall sig fresh M = nsCall sig sep fresh M.modules conn := by
  funext params data training state rng
  unfold modelCall nsCall nsRun nsStored
  rw [hk]
  simp only [(C108_connections conns conn).2 hc, ho]
  cases mapE (leafAt sep M.modules) (order.filter (!reserved ·)) with
  | error e => rfl
  | ok mods =>
    simp only
    cases inputDeps sep fresh M.modules conn with
    | error e => rfl
    | ok d =>
      obtain ⟨deps, outDeps⟩ := d
      simp only
      cases nsInit sep order data with
      | error e => rfl
      | ok outs =>
        simp only
        cases nsLoop sep (callStep sig sep params training rng) (order.zip ((Option.none :: mods.map some).zip (.none :: deps))) outs state with
        | error e => rfl
        | ok x =>
          obtain ⟨outs', st'⟩ := x
          simp only
          cases assemble sep outs' outDeps <;> rfl

example : Wired (.dict [("input".toList, .leaf "m".toList), ("m".toList, .list [.leaf "act".toList]), ("act".toList, .tuple [.leaf "output".toList])])
    [("input".toList, ["m".toList]), ("m".toList, ["act".toList]), ("act".toList, ["output".toList])] :=
  ⟨_, rfl, .cons ⟨rfl, .one _⟩ (.cons ⟨rfl, .list ["act".toList]⟩ (.cons ⟨rfl, .tuple ["output".toList]⟩ .nil))⟩

/-! ### A graph model with a sequential model in it -/

/-- The compiled graph model of `C39_library_nested` with the execution order that `compile` stores. -/
def exCalled : Mdl (Obj (Lib × MObj Attr) Nat 1) Nat :=
  { exOuter with kind := .nonseq (some ["input".toList, "m".toList, "act".toList, "output".toList]) (.dict [("input".toList, .leaf "m".toList), ("m".toList, .list [.leaf "act".toList]), ("act".toList, .leaf "output".toList)]) '.' }

/-- Modules on integers: the key is added to the matrix, eigenvalues are doubled, activations change the sign. -/
def toySig : Sig (Lib × MObj Attr) PyVal PyVal Nat Int where
  call m _ x _ s k := match m.1 with
    | .affHerm => .ok (map (fun a => a + k) x, s)
    | .eigenvalues => .ok (map (fun a => 2 * a) x, s)
    | _ => .ok (map (fun a => -a) x, s)
  outShape _ s := .ok s
  compile m _ _ := .ok m
  split k := (k, k)
  splitN k n := List.replicate n k

/-- Shapes always fit. -/
def toyEnv : Env Int where
  fits _ _ := true
  cast _ x := .ok x
  seed i := i.toNat

theorem exCalled_storable (w r : Str) : Storable (libOps w r) w r 1 exCalled := by
  obtain ⟨h1, h2⟩ := exOuter_all w r
  refine ⟨⟨h1.keys, h1.rng, h1.opt, Or.inr ?_⟩, h2, ⟨[], .dict _⟩, .dict _⟩
  have h3 := exOuter_ready w r
  have e1 : splitOn '.' "m".toList = ["m".toList] := by decide
  have e2 : splitOn '.' "act".toList = ["act".toList] := by decide
  have e3 : Tree.get exCalled.modules ["m".toList] = .ok (.leaf (.inr exInner)) := rfl
  have e4 : Tree.get exCalled.modules ["act".toList] = .ok (.leaf (.inl exReLU)) := rfl
  show ([("input".toList : Str), "m".toList, "act".toList, "output".toList].all (pathReady (opsAt (libOps w r) w r 1) exCalled.modules '.') && true && true) = true
  simp only [List.all_cons, List.all_nil, pathReady, e1, e2, e3, e4]
  rfl

/-- The stored order is the computed one. -/
example : execOrder '.' exCalled.modules [("input".toList, ["m".toList]), ("m".toList, ["act".toList]), ("act".toList, ["output".toList])] =
    .ok ["input".toList, "m".toList, "act".toList, "output".toList] := by decide +kernel

/-- The call goes through all modules: `-(2 (3 + 9))`. -/
example : (call (libOps [] []) [] [] (fun _ _ _ => []) toySig toyEnv 1 exCalled (.leaf 3) [] .own).map Prod.fst = .ok (.leaf (-24)) := by decide +kernel

/-- Two rounds. -/
example (w r : Str) : ∃ M', Rounds (opsAt (libOps w r) w r 1) w r exCalled M' ∧ M' ≠ exCalled := by
  have hS := exCalled_storable w r
  obtain ⟨-, d, M₀, g1, g2, g3⟩ := C108_rounds w r (fun _ _ _ => []) toySig toyEnv 1 exCalled exCalled hS .start
  obtain ⟨d', M₀', k1, k2, k3⟩ := C39_file (opsAt (libOps w r) w r 1) w r (restoredAt id 1) exCalled hS.writable (fun m hm => C39_library_nested w r 1 m (hS.modules m hm)) [] (.dict _) (.dict _)
  refine ⟨_, .again .start k1 k2 (strict := false) (fun h => by cases h) (k3 false fun h => by cases h), fun h => ?_⟩
  have h' := congrArg (fun M => match M.modules with | .dict ((k, _) :: _) => k | _ => []) h
  revert h'
  decide +kernel

end Verif.Props
