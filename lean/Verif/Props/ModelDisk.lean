import Verif.Props.ModelLib
import Verif.Lemmas.ModelDisk

/-! # Properties of the files of models -/

namespace Verif
namespace Props
open Tree Ser ModelSer ModelSpec SerSpec
open ForwardSpec (KeysOk)

variable {σ D A : Type}

/-- The file for the data of `serialize`. -/
theorem save_data {ops : Ops σ D} {w : Str} {M : Mdl σ A} {z : Tree (σ × D)} {key : Nat} {state : PyVal} {s : List Nat} (h : ModelSer.serialize ops w M = .ok (dataOf ops w M z key state))
    (hz : map Prod.fst z = M.modules.norm) (hs : ModelSpec.HasShape M.modules s) :
    save ops w M = .ok { dataOf ops w M z key state with
      typenames := map (fun x => (ops.cls x.1).1) (untuple z)
      modnames := map (fun x => (ops.cls x.1).2) (untuple z)
      parts := map Prod.snd (untuple z) } := by
  have hax : axes z = .ok s := by rw [← axes_map Prod.fst, hz, axes_norm]; exact axes_iff.2 hs
  unfold save
  rw [h]
  simp only [fileData, dataOf, fileTree, axes_map, hax, untuple_map]

/-- **C39** Files: if the tree of modules has no tuples outside dictionaries and its lists are rectangular, then the model that was saved can be loaded, and is the same in the sense of
`C39_model`. -/
theorem C39_file (ops : Ops σ D) (w r : Str) (canon : σ → σ) (M : Mdl σ A) (hw : ModelSpec.Writable ops M) (hm : ∀ m ∈ M.modules.flat, Restorable (w = r) ops canon m)
    (s : List Nat) (hs : ModelSpec.HasShape M.modules s) (ht : NoTuple M.modules) :
    ∃ d M₀, save ops w M = .ok d ∧ createModel (kindCls M.kind) = .ok M₀ ∧ ∀ strict, (strict = true → w = r) → load ops r strict M₀ d = .ok (restored canon M) := by
  obtain ⟨d, M₀, h1, h2, h3⟩ := (C39_model ops w r canon M hw hm).restores
  obtain ⟨v, hst, -⟩ := state_tree hw hm
  obtain ⟨key, hkey, -⟩ := keyData_eq hw.rng
  obtain ⟨z, hz, hz1, -⟩ := serialize_ok ops w hw.keys hkey hst fun m h => by
    obtain ⟨d, m0, hd, -⟩ := (hm m h).restores
    exact ⟨d, hd⟩
  have hzt : untuple z = z := untuple_struct z (by
    have h : untuple M.modules.norm = M.modules.norm := (untuple_self _).2 ((noTuple_norm _).2 ht)
    rw [← hz1, untuple_map] at h
    rw [sameStruct_iff]
    have := congrArg (map fun _ => ()) h
    rwa [map_map, map_map] at this)
  have h1' : ModelSer.serialize ops w M = .ok d := h1
  rw [hz] at h1'
  cases h1'
  refine ⟨_, M₀, save_data hz hz1 hs, h2, fun strict hstrict => ?_⟩
  rw [hzt]
  exact h3 strict hstrict

/-- **C39** (refutation) Files: if the lists and tuples of the tree of modules are not rectangular, for example `[a, [b, c]]`, then the model cannot be saved. -/
theorem C39_ragged_refuted (ops : Ops σ D) (w : Str) (canon : σ → σ) (same : Prop) (M : Mdl σ A) (hw : ModelSpec.Writable ops M)
    (hm : ∀ m ∈ M.modules.flat, Restorable same ops canon m) (hs : ∀ s, ¬ ModelSpec.HasShape M.modules s) : save ops w M = .error .valueError := by
  obtain ⟨v, hst, -⟩ := state_tree hw hm
  obtain ⟨key, hkey, -⟩ := keyData_eq hw.rng
  obtain ⟨z, hz, hz1, -⟩ := serialize_ok ops w hw.keys hkey hst fun m h => by
    obtain ⟨d, m0, hd, -⟩ := (hm m h).restores
    exact ⟨d, hd⟩
  have hax : axes z = .error .valueError := by
    rw [← axes_map Prod.fst, hz1, axes_norm]
    cases ha : axes M.modules with
    | ok s => exact absurd (axes_iff.1 ha) (hs s)
    | error e => rw [axes_error _ ha]
  unfold save
  rw [hz]
  simp only [fileData, dataOf, fileTree, axes_map, hax]

/-- **C39** (refutation) Files: if there is a tuple outside dictionaries in the tree of modules, then the model can be saved (if rectangular) but the file cannot be loaded: the tuple
comes back as a list and the structure does not match. -/
theorem C39_tuple_refuted (ops : Ops σ D) (w r : Str) (canon : σ → σ) (M : Mdl σ A) (hw : ModelSpec.Writable ops M) (hm : ∀ m ∈ M.modules.flat, Restorable (w = r) ops canon m)
    (s : List Nat) (hs : ModelSpec.HasShape M.modules s) (ht : ¬ NoTuple M.modules) :
    ∃ d, save ops w M = .ok d ∧ ∀ strict M₀, load ops r strict M₀ d = .error .valueError := by
  obtain ⟨v, hst, -⟩ := state_tree hw hm
  obtain ⟨key, hkey, -⟩ := keyData_eq hw.rng
  obtain ⟨z, hz, hz1, hz2, hz3, hz4⟩ := serialize_ok ops w hw.keys hkey hst fun m h => by
    obtain ⟨d, m0, hd, -⟩ := (hm m h).restores
    exact ⟨d, hd⟩
  refine ⟨_, save_data hz hz1 hs, fun strict M₀ => ?_⟩
  unfold load ModelSer.deserialize
  split
  · rfl
  · rename_i hv
    have hstrict : strict = true → w = r := fun h => by
      by_contra hne
      exact hv ⟨fun h' => hne h'.symm, h⟩
    obtain ⟨X, hX1, hX2⟩ := read_modules (ops := ops) (canon := canon) (strict := strict) (keysOk_untuple z hz3) (by rw [← untuple_norm, hz4]) fun x hx => by
      rw [flat_untuple] at hx
      obtain ⟨d, m0, hd, h0, h1⟩ := (hm x.1 (by
        rw [← mem_flat_norm, ← hz1, Props.flat_map]
        exact List.mem_map_of_mem hx)).restores
      rw [hz2 x hx] at hd
      cases hd
      exact ⟨m0, h0, h1 strict hstrict⟩
    have hstruct : sameStruct (map (fun x : σ × D => canon x.1) (untuple z)).norm (map (fun _ => ()) M.modules.norm).norm = false := by
      rw [Bool.eq_false_iff]
      intro h
      apply ht
      rw [← noTuple_norm, ← untuple_self]
      apply untuple_struct
      rw [sameStruct_iff] at h ⊢
      rw [Tree.norm_map, map_map, Tree.norm_map, map_map, ← untuple_norm, hz4, norm_norm hw.keys] at h
      rw [← hz1, untuple_map, map_map, map_map]
      rw [← hz1, map_map] at h
      exact h
    simp only [dataOf]
    rw [hX1]
    simp only
    rw [hX2]
    simp only [hstruct, if_true]

/-- **C39** With `strict_package_version` the data of another package version is refused. -/
theorem C39_strict (ops : Ops σ D) (r : Str) (M₀ : Mdl σ A) (d : MData D A) (h : r ≠ d.package) : ModelSer.deserialize ops r true M₀ d = .error .valueError := by
  unfold ModelSer.deserialize
  rw [if_pos ⟨h, rfl⟩]

/-- **C39** (refutation) A `NonSequentialModel` that is not ready cannot be written, whatever its modules. -/
theorem C39_not_ready_refuted (ops : Ops σ D) (w : Str) (M : Mdl σ A) (hk : M.kind ≠ .seq) (hser : ∀ m ∈ M.modules.flat, ∃ d, ops.ser m = .ok d) (hrng : M.rng ≠ .other)
    (hr : ModelSer.ready ops M = false) : ModelSer.serialize ops w M = .error .runtimeError := by
  obtain ⟨key, hkey, -⟩ := keyData_eq hrng
  obtain ⟨parts, hparts⟩ := mapM_total (serLeaf ops) M.modules.norm fun m h => by
    obtain ⟨d, hd⟩ := hser m (mem_flat_norm.1 h)
    exact ⟨_, by rw [serLeaf, hd]⟩
  have hst : ModelSer.getState ops M = .error .runtimeError := by
    unfold ModelSer.getState
    cases hkk : M.kind with
    | seq => exact absurd hkk hk
    | nonseq o c s => simp [hr]
  unfold ModelSer.serialize
  rw [hparts, hkey, hst]

/-- One module that refuses its own parameters makes `set_params` of the restored model fail. -/
theorem refused_params {ops : Ops σ D} {w r : Str} {canon : σ → σ} {M : Mdl σ A} (hw : ModelSpec.Writable ops M) {state : PyVal} (hst : ModelSer.getState ops M = .ok state)
    (hm : ∀ m ∈ M.modules.flat, ∃ d m0, ops.ser m = .ok d ∧ ops.create (ops.cls m) = .ok m0 ∧ ∀ strict, (strict = true → w = r) → ops.deser strict m0 d = .ok (canon m))
    {x : σ} (hx : x ∈ M.modules.flat) {e : PyErr} (he : ops.setParams (canon x) (ops.getParams x) = .error e) (hp : ModelSer.getParams ops M ≠ .none) :
    ∃ d M₀, ModelSer.serialize ops w M = .ok d ∧ createModel (kindCls M.kind) = .ok M₀ ∧ ∀ strict, ∃ e, ModelSer.deserialize ops r strict M₀ d = .error e := by
  obtain ⟨key, hkey, -⟩ := keyData_eq hw.rng
  obtain ⟨M0, hM0, hkind⟩ : ∃ M0 : Mdl σ A, createModel (kindCls M.kind) = .ok M0 ∧ SameKind M0.kind M.kind := by
    cases M.kind with
    | seq => exact ⟨_, rfl, trivial⟩
    | nonseq o c s => exact ⟨_, rfl, trivial⟩
  obtain ⟨z, hz, hz1, hz2, hz3, hz4⟩ := serialize_ok ops w hw.keys hkey hst fun m h => by
    obtain ⟨d, m0, hd, -⟩ := hm m h
    exact ⟨d, hd⟩
  refine ⟨_, M0, hz, hM0, fun strict => ?_⟩
  unfold ModelSer.deserialize dataOf
  split
  · exact ⟨_, rfl⟩
  · rename_i hv
    have hstrict : strict = true → w = r := fun h => by
      by_contra hne
      exact hv ⟨fun h' => hne h'.symm, h⟩
    obtain ⟨X, hX1, hX2⟩ := read_modules (ops := ops) (canon := canon) (strict := strict) hz3 hz4 fun x hx => by
      obtain ⟨d, m0, hd, h0, h1⟩ := hm x.1 (by
        rw [← mem_flat_norm, ← hz1, Props.flat_map]
        exact List.mem_map_of_mem hx)
      rw [hz2 x hx] at hd
      cases hd
      exact ⟨m0, h0, h1 strict hstrict⟩
    have hcanon : map (fun x : σ × D => canon x.1) z = map canon M.modules.norm := by rw [← hz1, map_map]
    have hstruct : sameStruct (map canon M.modules.norm).norm (map (fun _ => ()) M.modules.norm).norm = true := by
      rw [sameStruct_iff, Tree.norm_map, Tree.norm_map, map_map, map_map]
    simp only
    rw [hX1]
    simp only
    rw [hX2, hcanon]
    simp only [hstruct, Bool.true_eq_false, if_false]
    rw [opt_restored hw]
    simp only
    unfold ownDeserialize
    split
    · exact ⟨_, rfl⟩
    · simp only
      rw [setHyper_written M _ (by exact hkind)]
      obtain ⟨X', hX', hj, -⟩ := hyper_modules (canon := canon) ops hw.keys
      simp only [hX']
      have hfail : ∃ e, jaxMap (onModule ops.setParams) (map canon M.modules.norm) [Tree.bind ops.getParams M.modules.norm] = .error e := by
        rw [jaxMap_bind canon ops.getParams (keysOk_norm' hw.keys) (norm_norm hw.keys)]
        exact mapM_fails (mem_flat_norm.2 hx) (by rw [onModule, he])
      obtain ⟨e', hfail⟩ := hfail
      have hset : ∀ k rg nm i o op, unlessNone (setParams ops) (⟨k, X', rg, nm, i, o, op⟩ : Mdl σ A) (ModelSer.getParams ops M) = .error e' := by
        intro k rg nm i o op
        have h1 : unlessNone (setParams ops) (⟨k, X', rg, nm, i, o, op⟩ : Mdl σ A) (ModelSer.getParams ops M) = setParams ops ⟨k, X', rg, nm, i, o, op⟩ (ModelSer.getParams ops M) := by
          cases hq : ModelSer.getParams ops M <;> first | exact absurd hq hp | rfl
        rw [h1, setParams]
        simp only [hj]
        rw [ModelSer.getParams, hfail]
      rw [hset]
      exact ⟨_, rfl⟩

/-- The classes whose `set_params` refuses `None`. -/
def refusesNone : Lib → Option Attr
  | .affHerm => some .Ms
  | .affTensor => some .Ms
  | .expVal => some .Ds
  | .transAmp => some .Ds
  | _ => Option.none

/-- **C39** (refutation) A `SequentialModel` with an `AffineHermitianMatrix`, `AffineTensor`, `ExpectationValueSum` or `TransitionAmplitudeSum` that is not compiled can be written but not read:
the module, which comes back by itself, refuses the parameters `None`. -/
theorem C39_uncompiled_refuted (w r : Str) (M : Mdl (Lib × MObj Attr) A) (hw : ModelSpec.Writable (libOps w r) M) (hk : M.kind = .seq) (hroot : ∀ x, M.modules ≠ .leaf x)
    (hm : ∀ m ∈ M.modules.flat, copy w m.1.cls m.2 = .ok m.2) (x : Lib × MObj Attr) (hx : x ∈ M.modules.flat) (a : Attr) (ha : refusesNone x.1 = some a) (hn : x.2.attrs a = .none) :
    ∃ d M₀, ModelSer.serialize (libOps w r) w M = .ok d ∧ createModel (kindCls M.kind) = .ok M₀ ∧ ∀ strict, ∃ e, ModelSer.deserialize (libOps w r) r strict M₀ d = .error e := by
  have hp : ModelSer.getParams (libOps w r) M ≠ .none := by
    unfold ModelSer.getParams
    intro h
    cases hmod : M.modules with
    | leaf y => exact hroot y hmod
    | none => rw [hmod] at hx; cases hx
    | list ts => rw [hmod] at h; cases h
    | tuple ts => rw [hmod] at h; cases h
    | dict ts => rw [hmod] at h; cases h
  obtain ⟨state, hst⟩ : ∃ state, ModelSer.getState (libOps w r) M = .ok state := by
    unfold ModelSer.getState
    rw [hk]
    exact mapM_total _ _ fun m _ => ⟨_, rfl⟩
  have he : (libOps w r).setParams x ((libOps w r).getParams x) = .error .valueError := by
    obtain ⟨l, m⟩ := x
    show (l.cls.setParams m.attrs (l.cls.getParams m.attrs)).map _ = _
    cases l <;> first
      | (cases ha; show (affHermSetParams m.attrs (m.attrs .Ms)).map _ = _; rw [hn]; rfl)
      | (cases ha; show (affTensorSetParams m.attrs (m.attrs .Ms)).map _ = _; rw [hn]; rfl)
      | (cases ha; show (expValSetParams m.attrs (m.attrs .Ds)).map _ = _; rw [hn]; rfl)
      | cases ha
  refine refused_params (canon := id) hw hst (fun m h => ?_) hx he hp
  refine ⟨_, (m.1, m.1.cls.new), rfl, ?_, fun strict hstrict => ?_⟩
  · show (match Lib.find m.1.key with | some l => Except.ok (l, l.cls.new) | Option.none => .error PyErr.keyError) = _
    rw [find_key]
  · show (Ser.deserialize r strict m.1.cls m.1.cls.new (Ser.serialize w m.1.cls m.2)).map (Prod.mk m.1) = _
    rw [deserialize_any hstrict _ (hm m h)]
    rfl

/-! ## Examples -/

/-- A compiled `AffineHermitianMatrix` with three 4 × 4 matrices. -/
def exMatrix : Lib × MObj Attr :=
  (.affHerm, ⟨setAttr (obj [(.matrixSize, vInt 4), (.smoothing, vFloat 0), (.initMagnitude, vFloat 1), (.biasTerm, vBool true), (.Ms, .none)]) .Ms
    (vArr { shape := [3, 4, 4], real := false, herm := true, data := 7 }), true⟩)

/-- An `Eigenvalues` module. -/
def exEigen : Lib × MObj Attr := (.eigenvalues, ⟨obj [(.numEig, vInt 2), (.which, vStr "la")], true⟩)

/-- A `ReLU`. -/
def exReLU : Lib × MObj Attr := (.activation "ReLU".toList, ⟨obj [(.args, .tuple []), (.kwargs, .dict [])], true⟩)

theorem exMatrix_held : Held exMatrix.1 exMatrix.2 :=
  ⟨.compile (.new ⟨some 4, 0, 1, true, Option.none, rfl⟩) ⟨3, 7, rfl⟩, fun h => by cases h⟩

theorem exEigen_held : Held exEigen.1 exEigen.2 := by
  refine ⟨fun k hk => obj_none ?_, ?_⟩
  · intro h
    apply hk
    simpa using h
  · show SerSpec.Writable _ _
    unfold SerSpec.Writable; decide

theorem exReLU_held : Held exReLU.1 exReLU.2 := by
  refine ⟨fun k hk => obj_none ?_, ?_⟩
  · intro h
    apply hk
    simpa using h
  · show SerSpec.Writable _ _
    unfold SerSpec.Writable; decide

/-- A compiled and trained sequential model in a list, with a raw random key. -/
def exInner : Mdl (Lib × MObj Attr) Nat where
  kind := .seq
  modules := .list [.leaf exMatrix, .leaf exEigen]
  rng := .raw 5
  name := some "inner".toList
  inShape := .tuple [.leaf 2]
  outShape := .tuple [.leaf 2]
  opt := some (.list [.leaf ⟨1, some 2, some 3, 7⟩, .tuple []])

/-- A compiled graph model with the sequential model in it, its dictionary not in key order. -/
def exOuter : Mdl (Obj (Lib × MObj Attr) Nat 1) Nat where
  kind := .nonseq (some ["m".toList, "act".toList]) (.dict [("input".toList, .leaf "m".toList), ("m".toList, .leaf "act".toList), ("act".toList, .leaf "output".toList)]) '.'
  modules := .dict [("m".toList, .leaf (.inr exInner)), ("act".toList, .leaf (.inl exReLU))]
  rng := .typed 9
  name := Option.none
  inShape := .tuple [.leaf 2]
  outShape := .tuple [.leaf 2]
  opt := Option.none

theorem exInner_writable (w r : Str) : ModelSpec.Writable (libOps w r) exInner := by
  refine ⟨?_, by decide, fun t ht _ => ?_, Or.inl rfl⟩
  · simp [exInner, KeysOk, ForwardSpec.KeysOkL]
  · cases ht
    rfl

theorem exInner_modules (w r : Str) : ∀ m ∈ exInner.modules.flat, Restorable (w = r) (libOps w r) id m := by
  intro m hm
  simp only [exInner, flat, flatL, List.append_nil, List.mem_append, List.mem_singleton] at hm
  rcases hm with rfl | rfl
  · exact C39_library w r _ _ exMatrix_held
  · exact C39_library w r _ _ exEigen_held

theorem exOuter_ready (w r : Str) : ModelSer.ready (opsAt (libOps w r) w r 1) exOuter = true := by
  have h1 : splitOn '.' "m".toList = ["m".toList] := by decide
  have h2 : splitOn '.' "act".toList = ["act".toList] := by decide
  have h3 : Tree.get exOuter.modules ["m".toList] = .ok (.leaf (.inr exInner)) := rfl
  have h4 : Tree.get exOuter.modules ["act".toList] = .ok (.leaf (.inl exReLU)) := rfl
  show ([("m".toList : Str), "act".toList].all (pathReady (opsAt (libOps w r) w r 1) exOuter.modules '.') && true && true) = true
  simp only [List.all_cons, List.all_nil, pathReady, h1, h2, h3, h4]
  rfl

/-- The hypothesis of `C39_library_nested` holds of the nested model. -/
theorem exOuter_all (w r : Str) : AllWritable (libOps w r) w r id 2 (Sum.inr exOuter : Obj (Lib × MObj Attr) Nat 2) := by
  have hk : KeysOk exOuter.modules := ⟨by decide, ⟨trivial, trivial, trivial⟩⟩
  have ho : ∀ t, exOuter.opt = some t → OptState.truthy (some t) = true → sameStruct (ModelSer.getParams (opsAt (libOps w r) w r 1) exOuter).norm t.norm = true := by
    intro t ht
    simp [exOuter] at ht
  refine ⟨⟨hk, by decide, ho, Or.inr (exOuter_ready w r)⟩, ?_⟩
  · intro m hm
    have hm : m = .inr exInner ∨ m = .inl exReLU := by
      rcases List.mem_cons.1 hm with h | h
      · exact Or.inl h
      · exact Or.inr (List.mem_singleton.1 h)
    rcases hm with rfl | rfl
    · exact ⟨exInner_writable w r, fun m hm => exInner_modules w r m hm⟩
    · exact C39_library w r _ _ exReLU_held

example (w r : Str) : Restorable (w = r) (opsAt (libOps w r) w r 2) (restoredAt id 2) (Sum.inr exOuter : Obj (Lib × MObj Attr) Nat 2) :=
  C39_library_nested w r 2 _ (exOuter_all w r)

/-- What changes: the key is typed, and the modules are in key order. -/
example : (restored id exInner : Mdl (Lib × MObj Attr) Nat).rng = .typed 5 ∧ (restored id exInner : Mdl (Lib × MObj Attr) Nat).opt = exInner.opt := ⟨rfl, rfl⟩

/-- A list of two modules can be put in a file. -/
example : ModelSpec.HasShape exInner.modules [2] ∧ NoTuple exInner.modules := by
  refine ⟨.list _ [] (fun t ht => ?_) (fun h => by cases h), .list _ fun t ht => ?_⟩
  · simp only [List.mem_cons, List.not_mem_nil, or_false] at ht
    rcases ht with rfl | rfl <;> exact .leaf _
  · simp only [List.mem_cons, List.not_mem_nil, or_false] at ht
    rcases ht with rfl | rfl <;> exact .leaf _

/-- The same modules in a tuple cannot be read. -/
example (w r : Str) : ∃ d, save (libOps w r) w ({ exInner with modules := .tuple [.leaf exMatrix, .leaf exEigen], opt := Option.none } : Mdl (Lib × MObj Attr) Nat) = .ok d ∧
    ∀ strict M₀, load (libOps w r) r strict M₀ d = .error .valueError := by
  refine C39_tuple_refuted (libOps w r) w r id _ ⟨?_, by decide, fun t ht => (by cases ht), Or.inl rfl⟩ (fun m hm => exInner_modules w r m hm) [2]
    (.tuple _ [] (fun t ht => ?_) (fun h => by cases h)) (fun h => by cases h)
  · simp [KeysOk, ForwardSpec.KeysOkL]
  · simp only [List.mem_cons, List.not_mem_nil, or_false] at ht
    rcases ht with rfl | rfl <;> exact .leaf _

/-- `[a, [b]]` cannot be written. -/
example (w r : Str) : save (libOps w r) w ({ exInner with modules := .list [.leaf exMatrix, .list [.leaf exEigen]], opt := Option.none } : Mdl (Lib × MObj Attr) Nat) = .error .valueError := by
  refine C39_ragged_refuted (libOps w r) w id (w = r) _ ⟨?_, by decide, fun t ht => (by cases ht), Or.inl rfl⟩ (fun m hm => exInner_modules w r m hm) fun s hs => ?_
  · simp [KeysOk, ForwardSpec.KeysOkL]
  · cases hs with
    | list _ s h _ =>
      have h1 := h (.leaf exMatrix) (by simp)
      have h2 := h (.list [.leaf exEigen]) (by simp)
      cases h1
      cases h2

/-- A graph model before `compile`. -/
example (w r : Str) : ModelSer.serialize (opsAt (libOps w r) w r 1) w ({ exOuter with kind := .nonseq Option.none (.dict []) '.' } : Mdl (Obj (Lib × MObj Attr) Nat 1) Nat) = .error .runtimeError := by
  refine C39_not_ready_refuted _ w _ (fun h => by cases h) (fun m hm => ?_) (by decide) rfl
  have hm : m = .inr exInner ∨ m = .inl exReLU := by
    rcases List.mem_cons.1 hm with h | h
    · exact Or.inl h
    · exact Or.inr (List.mem_singleton.1 h)
  rcases hm with rfl | rfl
  · exact ⟨_, rfl⟩
  · exact ⟨_, rfl⟩

/-- `SequentialModel([AffineHermitianMatrix(4)])` before `compile`. -/
example (w r : Str) : ∃ d M₀, ModelSer.serialize (libOps w r) w (⟨.seq, .list [.leaf (.affHerm, ⟨obj [(.matrixSize, vInt 4), (.smoothing, vFloat 0), (.initMagnitude, vFloat 1),
      (.biasTerm, vBool true), (.Ms, .none)], true⟩)], .typed 1, Option.none, .none, .none, Option.none⟩ : Mdl (Lib × MObj Attr) Nat) = .ok d ∧
    createModel (kindCls .seq) = .ok M₀ ∧ ∀ strict, ∃ e, ModelSer.deserialize (libOps w r) r strict M₀ d = .error e := by
  refine C39_uncompiled_refuted w r _ ⟨?_, by decide, fun t ht => (by cases ht), Or.inl rfl⟩ rfl (fun x h => by cases h) (fun m hm => ?_) _ (List.mem_singleton.2 rfl) .Ms rfl rfl
  · simp [KeysOk, ForwardSpec.KeysOkL]
  · cases List.mem_singleton.1 hm
    exact C40_affine_hermitian w _ (.new ⟨some 4, 0, 1, true, Option.none, rfl⟩)

end Props
end Verif
