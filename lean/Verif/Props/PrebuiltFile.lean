import Verif.Props.ModelDisk
import Verif.Spec.PrebuiltFile

/-! # Properties of saving and loading the prebuilt models -/

namespace Verif.Props
open Verif Tree Ser ModelSer ModelSpec PreFile

variable {σ D A : Type}

theorem lookup_hypers {ks : List OKey} (a : Attrs OKey) {k : OKey} (h : k ∈ ks) : (hypers ks a).lookup k = some (a k) := by
  induction ks with
  | nil => cases h
  | cons x xs ih =>
    by_cases e : k = x
    · subst e; simp [hypers]
    · have hx : k ∈ xs := by simpa [e] using h
      have := ih hx
      unfold hypers at this ⊢
      rw [List.map_cons, List.lookup_cons, this]
      have : (k == x) = false := by simpa using e
      rw [this]

theorem setGiven_all {h : List (OKey × PyVal)} {f : OKey → PyVal} (a : Attrs OKey) (ks : List OKey) (hk : ∀ k ∈ ks, h.lookup k = some (f k)) :
    setGiven h a ks = fun k => if k ∈ ks then f k else a k := by
  induction ks generalizing a with
  | nil => simp [setGiven]
  | cons x xs ih =>
    rw [setGiven, ih _ fun k m => hk k (List.mem_cons_of_mem _ m), hk x (by simp)]
    funext k
    by_cases e : k = x
    · subst e; simp [setAttr]
    · simp [setAttr, e]

theorem setAll_all {h : List (OKey × PyVal)} {f : OKey → PyVal} (a : Attrs OKey) (ks : List OKey) (hk : ∀ k ∈ ks, h.lookup k = some (f k)) :
    PreFile.setAll h a ks = .ok fun k => if k ∈ ks then f k else a k := by
  induction ks generalizing a with
  | nil => simp [PreFile.setAll]
  | cons x xs ih =>
    rw [PreFile.setAll, hk x (by simp)]
    simp only
    rw [ih _ fun k m => hk k (List.mem_cons_of_mem _ m)]
    congr 1
    funext k
    by_cases e : k = x
    · subst e; simp [setAttr]
    · simp [setAttr, e]

theorem setAll_missing {h : List (OKey × PyVal)} (a : Attrs OKey) (ks : List OKey) :
    PreFile.setAll h a ks = .error .keyError ∧ (∃ k ∈ ks, h.lookup k = Option.none) ∨
      (∃ b, PreFile.setAll h a ks = .ok b) ∧ ∀ k ∈ ks, h.lookup k ≠ Option.none := by
  induction ks generalizing a with
  | nil => exact .inr ⟨⟨a, rfl⟩, by simp⟩
  | cons x xs ih =>
    rw [PreFile.setAll]
    cases e : h.lookup x with
    | none => exact .inl ⟨rfl, x, by simp, e⟩
    | some v =>
      rcases ih (setAttr a x v) with ⟨h1, k, hk, h2⟩ | ⟨h1, h2⟩
      · exact .inl ⟨h1, k, List.mem_cons_of_mem _ hk, h2⟩
      · refine .inr ⟨h1, fun k hk => ?_⟩
        rcases List.mem_cons.1 hk with rfl | hk
        · simp [e]
        · exact h2 k hk

theorem setAll_other {h : List (OKey × PyVal)} {a b : Attrs OKey} (ks : List OKey) {k : OKey} (hk : k ∉ ks) (hb : PreFile.setAll h a ks = .ok b) : b k = a k := by
  induction ks generalizing a with
  | nil => cases hb; rfl
  | cons x xs ih =>
    rw [PreFile.setAll] at hb
    split at hb
    · cases hb
    · rw [ih (fun h => hk (List.mem_cons_of_mem _ h)) hb]
      have : k ≠ x := fun e => hk (e ▸ List.mem_cons_self ..)
      simp [setAttr, this]

theorem setGiven_missing {h : List (OKey × PyVal)} (a : Attrs OKey) (ks : List OKey) {k : OKey} (hk : h.lookup k = Option.none) : setGiven h a ks k = a k := by
  induction ks generalizing a with
  | nil => rfl
  | cons x xs ih =>
    rw [setGiven, ih]
    by_cases e : k = x
    · subst e; simp [setAttr, hk]
    · simp [setAttr, e]

theorem nth_map (f : σ → σ) (ts : List (Tree σ)) (i : Nat) : nth (ts.map fun t => map f t.norm) i = (nth ts i).map f := by
  unfold nth
  rw [List.getElem?_map]
  cases h : ts[i]? with
  | none => rfl
  | some t => cases t <;> simp [Tree.norm, map]

theorem actOf_map (f : σ → σ) (b : PyVal) (t : Tree σ) : actOf b (map f t.norm) = (actOf b t).map f := by
  cases t with
  | list ts =>
    have e : map f (Tree.norm (.list ts)) = .list (ts.map fun t => map f t.norm) := by simp [Tree.norm, map, mapL_eq, normL_eq, List.map_map]
    rw [e]
    simp only [actOf, List.length_map, nth_map]
    split_ifs <;> rfl
  | tuple ts =>
    have e : map f (Tree.norm (.tuple ts)) = .tuple (ts.map fun t => map f t.norm) := by simp [Tree.norm, map, mapL_eq, normL_eq, List.map_map]
    rw [e]
    simp only [actOf, List.length_map, nth_map]
    split_ifs <;> rfl
  | _ => simp [Tree.norm, map, actOf]

theorem onBase_self {f : Mdl σ A → Except PyErr (Mdl σ A)} {X : Pre σ A} (h : f X.base = .ok X.base) : onBase f X = .ok X := by
  unfold onBase
  rw [h]

theorem arguments_keys (c : PKind) (k : OKey) : k ∈ arguments c ↔ k ∈ keys c := by
  cases c <;> cases k <;> decide

theorem written_all {X : Pre σ A} (hs : ∀ k ∈ keys X.cls, serializable (X.attrs k) = true) :
    (hypers (keys X.cls) X.attrs).filter (fun kv => serializable kv.2) = hypers (keys X.cls) X.attrs := by
  rw [List.filter_eq_self]
  intro kv h
  obtain ⟨k, hk, rfl⟩ := List.mem_map.1 h
  exact hs k hk

theorem fresh_base {X : Pre σ A} {m0 : Mdl σ A} (hk : X.base.kind = .seq) (h : (createModel (kindCls X.base.kind) : Except PyErr (Mdl σ A)) = .ok m0) :
    m0 = (fresh X.cls : Pre σ A).base := by
  rw [hk] at h
  have e : (createModel (kindCls ModelSer.Kind.seq) : Except PyErr (Mdl σ A)) = .ok (fresh X.cls : Pre σ A).base := rfl
  rw [e] at h
  exact (Except.ok.inj h).symm

theorem read_pre {ops : Ops σ D} {r : Str} {strict : Bool} {canon : σ → σ} {X : Pre σ A} {d : MData D A}
    (ha : X.cls = .linear → X.act = actOf (X.attrs .bias) X.base.modules) (h : ModelSer.deserialize ops r strict (fresh X.cls : Pre σ A).base d = .ok (restored canon X.base)) :
    PreFile.deserialize ops r strict (fresh X.cls) ⟨d, hypers (keys X.cls) X.attrs⟩ = .ok (restoredPre canon X) := by
  unfold PreFile.deserialize
  simp only
  rw [h]
  have ho : setOwn (fresh X.cls : Pre σ A).cls (hypers (keys X.cls) X.attrs) (fresh X.cls : Pre σ A).attrs = .ok (restoredPre canon X).attrs := by
    have hl : ∀ k ∈ keys X.cls, (hypers (keys X.cls) X.attrs).lookup k = some (X.attrs k) := fun k h => lookup_hypers _ h
    show setOwn X.cls _ (defaults X.cls) = _
    unfold restoredPre
    simp only [arguments_keys]
    revert hl
    cases X.cls <;> intro hl
    · exact congrArg Except.ok (setGiven_all _ _ hl)
    · exact setAll_all _ _ hl
    · exact setAll_all _ _ hl
  simp only
  rw [ho]
  simp only
  show Except.ok (Pre.mk X.cls _ _ _) = Except.ok (Pre.mk X.cls _ _ _)
  congr 2
  show (if X.cls = .linear then _ else _) = if X.cls = .linear then _ else _
  by_cases hc : X.cls = .linear
  · rw [if_pos hc, if_pos hc, ha hc]
    have hb : (restoredPre canon X).attrs .bias = X.attrs .bias := by
      show (if OKey.bias ∈ arguments X.cls then _ else _) = _
      rw [hc, if_pos (by decide)]
    rw [hb]
    exact actOf_map _ _ _
  · rw [if_neg hc, if_neg hc]; rfl

/-- **C95** A prebuilt model whose modules come back and whose hyperparameters can be written comes back: with its class, its hyperparameters, its activation, its modules, parameters, state, random key,
shapes and name. -/
theorem C95_saved (ops : Ops σ D) (w r : Str) (canon : σ → σ) (X : Pre σ A) (hk : X.base.kind = .seq) (hw : ModelSpec.Writable ops X.base)
    (hm : ∀ m ∈ X.base.modules.flat, Restorable (w = r) ops canon m) (hs : ∀ k ∈ keys X.cls, serializable (X.attrs k) = true)
    (ha : X.cls = .linear → X.act = actOf (X.attrs .bias) X.base.modules) :
    Restorable (w = r) (preOps ops w r) (restoredPre canon) X := by
  obtain ⟨⟨d, m0, h1, h2, h3⟩, -, hr, hp, hagain, ⟨v, hv1, hv2, hv3⟩, hu⟩ := C39_model ops w r canon X.base hw hm
  refine ⟨⟨⟨d, hypers (keys X.cls) X.attrs⟩, fresh X.cls, ?_, ?_, fun strict hstrict => ?_⟩, rfl, hr, hp, ?_, ⟨v, hv1, hv2, ?_⟩, fun hn => ?_⟩
  · have h1' : ModelSer.serialize ops w X.base = .ok d := h1
    show PreFile.serialize ops w X = _
    unfold PreFile.serialize
    rw [h1']
    simp only [written_all hs]
  · show PreFile.create (clsName X.cls) = _
    cases X.cls <;> rfl
  · have h3' : ModelSer.deserialize ops r strict m0 d = .ok (restored canon X.base) := h3 strict hstrict
    rw [fresh_base hk h2] at h3'
    exact read_pre ha h3'
  · exact onBase_self (X := restoredPre canon X) (f := fun M => ModelSer.setParams ops M (ModelSer.getParams ops X.base)) hagain
  · exact onBase_self (X := restoredPre canon X) (f := fun M => ModelSer.setState ops M v) hv3
  · exact onBase_self (X := restoredPre canon X) (f := fun M => ModelSer.setState ops M .none) (hu hn)

theorem save_pre {ops : Ops σ D} {w : Str} {X : Pre σ A} {d : MData D A} (h : ModelSer.save ops w X.base = .ok d) :
    PreFile.save ops w X = .ok ⟨d, (hypers (keys X.cls) X.attrs).filter fun kv => serializable kv.2⟩ := by
  unfold ModelSer.save at h
  unfold PreFile.save PreFile.serialize
  cases e : ModelSer.serialize ops w X.base with
  | error x => rw [e] at h; cases h
  | ok y =>
    rw [e] at h
    simp only at h ⊢
    rw [h]

theorem leaves_shape {ts : List (Tree σ)} (hl : ∀ t ∈ ts, ∃ m, t = .leaf m) : ModelSpec.HasShape (.list ts) [ts.length] ∧ NoTuple (.list ts) ∧
    (ts ≠ [] → ModelSpec.HasShape (.tuple ts) [ts.length]) := by
  refine ⟨.list _ _ (fun t ht => ?_) fun _ => rfl, .list _ fun t ht => ?_, fun hne => .tuple _ _ (fun t ht => ?_) fun _ => rfl⟩
  all_goals obtain ⟨m, rfl⟩ := hl t ht
  · exact .leaf _
  · exact .leaf _
  · exact .leaf _

/-- **C95** A prebuilt model that keeps its modules in a list, as `LinearNN` does, can be saved to a file; an object of the class made without arguments loads it and is the same as for `C95_saved`. -/
theorem C95_file_partial (ops : Ops σ D) (w r : Str) (canon : σ → σ) (X : Pre σ A) (hk : X.base.kind = .seq) (hw : ModelSpec.Writable ops X.base)
    (hm : ∀ m ∈ X.base.modules.flat, Restorable (w = r) ops canon m) (hs : ∀ k ∈ keys X.cls, serializable (X.attrs k) = true)
    (ha : X.cls = .linear → X.act = actOf (X.attrs .bias) X.base.modules) (ts : List (Tree σ)) (ht : X.base.modules = .list ts) (hl : ∀ t ∈ ts, ∃ m, t = .leaf m) :
    ∃ d, PreFile.save ops w X = .ok d ∧ ∀ strict, (strict = true → w = r) → PreFile.load ops r strict (fresh X.cls) d = .ok (restoredPre canon X) := by
  obtain ⟨h1, h2, -⟩ := leaves_shape hl
  rw [← ht] at h1 h2
  obtain ⟨d, M₀, h3, h4, h5⟩ := C39_file ops w r canon X.base hw hm _ h1 h2
  refine ⟨_, save_pre h3, fun strict hstrict => ?_⟩
  have h6 := h5 strict hstrict
  rw [fresh_base hk h4] at h6
  rw [written_all hs]
  exact read_pre ha h6

/-- **C95** (refutation) `AffineEigenvaluePMM` and `AffineObservablePMM` keep their modules in a tuple. After `compile` they can be saved to a file, but no object can load that file. -/
theorem C95_file_refuted (ops : Ops σ D) (w r : Str) (canon : σ → σ) (X : Pre σ A) (hw : ModelSpec.Writable ops X.base) (hm : ∀ m ∈ X.base.modules.flat, Restorable (w = r) ops canon m)
    (ts : List (Tree σ)) (ht : X.base.modules = .tuple ts) (hne : ts ≠ []) (hl : ∀ t ∈ ts, ∃ m, t = .leaf m) :
    ∃ d, PreFile.save ops w X = .ok d ∧ ∀ strict X₀, PreFile.load ops r strict X₀ d = .error .valueError := by
  obtain ⟨-, -, h1⟩ := leaves_shape hl
  have h1 := h1 hne
  rw [← ht] at h1
  obtain ⟨d, h3, h4⟩ := C39_tuple_refuted ops w r canon X.base hw hm _ h1 (by rw [ht]; intro h; cases h)
  refine ⟨_, save_pre h3, fun strict X₀ => ?_⟩
  have h5 : ModelSer.deserialize ops r strict X₀.base d = .error .valueError := h4 strict X₀.base
  unfold PreFile.load PreFile.deserialize
  simp only
  rw [h5]

/-- **C95** For the layers that `LinearNN` makes, with or without bias and with or without activation, the activation found in them is the given one: so the last condition of `C95_saved` holds once the
network has been compiled. -/
theorem C95_activation (flatten matmul bias : σ) (withBias : Bool) (act : Option σ) : actOf (.leaf (.bool withBias)) (.list (layers flatten matmul bias withBias act)) = act := by
  cases withBias <;> cases act <;> rfl

/-- **C95** Reading data into a prebuilt PMM raises a `KeyError` exactly if one of its hyperparameters is missing in the data; `LinearNN` keeps what it has instead. -/
theorem C95_incomplete (ops : Ops σ D) (r : Str) (strict : Bool) (X : Pre σ A) (d : PData D A) (M : Mdl σ A) (hM : ModelSer.deserialize ops r strict X.base d.base = .ok M) :
    (X.cls ≠ .linear → ((PreFile.deserialize ops r strict X d = .error .keyError ↔ ∃ k ∈ keys X.cls, d.hyper.lookup k = Option.none) ∧
      ((∃ Y, PreFile.deserialize ops r strict X d = .ok Y) ↔ ∀ k ∈ keys X.cls, d.hyper.lookup k ≠ Option.none))) ∧
    (X.cls = .linear → ∃ Y, PreFile.deserialize ops r strict X d = .ok Y ∧ Y.base = M ∧ ∀ k, d.hyper.lookup k = Option.none → Y.attrs k = X.attrs k) := by
  constructor
  · intro hc
    have ho : setOwn X.cls d.hyper X.attrs = PreFile.setAll d.hyper X.attrs (keys X.cls) := by
      revert hc
      cases X.cls <;> intro hc
      · exact absurd rfl hc
      · rfl
      · rfl
    unfold PreFile.deserialize
    rw [hM]
    simp only [ho]
    rcases setAll_missing (h := d.hyper) X.attrs (keys X.cls) with ⟨h1, h2⟩ | ⟨⟨b, h1⟩, h2⟩
    · rw [h1]
      refine ⟨⟨fun _ => h2, fun _ => rfl⟩, ⟨fun ⟨Y, h⟩ => by simp at h, fun h => ?_⟩⟩
      obtain ⟨k, hk, e⟩ := h2
      exact absurd e (h k hk)
    · rw [h1]
      refine ⟨⟨fun h => by simp at h, fun ⟨k, hk, e⟩ => absurd e (h2 k hk)⟩, ⟨fun _ => h2, fun _ => ⟨_, rfl⟩⟩⟩
  · intro hc
    have ho : setOwn X.cls d.hyper X.attrs = .ok (setGiven d.hyper X.attrs (keys .linear)) := by rw [hc]; rfl
    unfold PreFile.deserialize
    rw [hM]
    simp only [ho]
    refine ⟨_, rfl, rfl, fun k hk => ?_⟩
    exact setGiven_missing _ _ hk

/-- **C95** (refutation) A `LinearNN` that is saved before it is compiled loses its activation: the object that reads the data makes a network without one. -/
theorem C95_uncompiled_activation_refuted (ops : Ops σ D) (w r : Str) (canon : σ → σ) (X : Pre σ A) (a : σ) (hc : X.cls = .linear) (ha : X.act = some a) (hk : X.base.kind = .seq)
    (hmod : X.base.modules = .list []) (hw : ModelSpec.Writable ops X.base) (hs : ∀ k ∈ keys X.cls, serializable (X.attrs k) = true) :
    ∃ d Y, PreFile.serialize ops w X = .ok d ∧ PreFile.deserialize ops w true (fresh .linear) d = .ok Y ∧ Y.act = Option.none ∧ Y.act ≠ X.act ∧ Y.attrs .outFeatures = X.attrs .outFeatures := by
  have hX : Restorable (w = w) (preOps ops w w) (restoredPre canon) { X with act := Option.none } := by
    refine C95_saved ops w w canon { X with act := Option.none } hk hw ?_ hs fun _ => ?_
    · intro m h
      have : m ∈ X.base.modules.flat := h
      rw [hmod] at this
      cases this
    · show Option.none = actOf (X.attrs .bias) X.base.modules
      rw [hmod]; rfl
  obtain ⟨d, m0, h1, h2, h3⟩ := hX.restores
  have h2' : PreFile.create (clsName X.cls) = .ok m0 := h2
  rw [hc] at h2'
  have hm0 : (fresh .linear : Pre σ A) = m0 := Except.ok.inj (show Except.ok (fresh .linear) = _ from h2')
  refine ⟨d, _, h1, by rw [hm0]; exact h3 true fun _ => rfl, ?_, ?_, ?_⟩
  · show (if X.cls = .linear then _ else _) = _
    rw [if_pos hc]; rfl
  · show (if X.cls = .linear then _ else _) ≠ X.act
    rw [if_pos hc, ha]
    exact nofun
  · show (if OKey.outFeatures ∈ arguments X.cls then X.attrs .outFeatures else _) = _
    rw [hc, if_pos (by decide)]

/-- **C95** (refutation) The matrices given to the constructor of a prebuilt PMM are not hyperparameters: in the object that reads the data they are `None`, so that a PMM saved before it is compiled starts
from random matrices. -/
theorem C95_matrices_refuted (ops : Ops σ D) (r : Str) (strict : Bool) (X Y : Pre σ A) (hc : X.cls ≠ .linear) (k : OKey) (hk : k = .givenMs ∨ k = .givenDs ∨ k = .givenB)
    (hg : X.attrs k ≠ .none) (d : PData D A) (hY : PreFile.deserialize ops r strict (fresh X.cls) d = .ok Y) : Y.attrs k = .none ∧ Y.attrs k ≠ X.attrs k := by
  suffices h : Y.attrs k = .none from ⟨h, by rw [h]; exact fun e => hg e.symm⟩
  unfold PreFile.deserialize at hY
  split at hY
  · cases hY
  · split at hY
    · cases hY
    · rename_i b hb
      have e : b = Y.attrs := by cases hY; rfl
      rw [← e]
      have hb' : setOwn X.cls d.hyper (defaults X.cls) = .ok b := hb
      revert hc hb'
      rcases hk with rfl | rfl | rfl <;> cases X.cls <;> intro hc hb' <;> first | exact absurd rfl hc | exact setAll_other _ (by decide) hb'

/-- **C95** (refutation) A hyperparameter of a type that cannot be written, for example a NumPy integer as matrix size, is left out without a warning; a PMM with such a hyperparameter can be saved, and reading
the data raises a `KeyError`. -/
theorem C95_type_refuted (ops : Ops σ D) (w r : Str) (canon : σ → σ) (X : Pre σ A) (hc : X.cls ≠ .linear) (hk : X.base.kind = .seq) (hw : ModelSpec.Writable ops X.base)
    (hm : ∀ m ∈ X.base.modules.flat, Restorable (w = r) ops canon m) (k : OKey) (hk' : k ∈ keys X.cls) (hs : serializable (X.attrs k) = false) :
    ∃ d, PreFile.serialize ops w X = .ok d ∧ ∀ strict, (strict = true → w = r) → PreFile.deserialize ops r strict (fresh X.cls) d = .error .keyError := by
  obtain ⟨d, m0, h1, h2, h3⟩ := (C39_model ops w r canon X.base hw hm).restores
  have h1' : ModelSer.serialize ops w X.base = .ok d := h1
  refine ⟨⟨d, (hypers (keys X.cls) X.attrs).filter fun kv => serializable kv.2⟩, ?_, fun strict hstrict => ?_⟩
  · unfold PreFile.serialize
    rw [h1']
  · have h3' : ModelSer.deserialize ops r strict m0 d = .ok (restored canon X.base) := h3 strict hstrict
    rw [fresh_base hk h2] at h3'
    refine ((C95_incomplete ops r strict (fresh X.cls) _ _ h3').1 hc).1.2 ⟨k, hk', ?_⟩
    rw [List.lookup_eq_none_iff]
    intro p hp
    obtain ⟨hp1, hp2⟩ := List.mem_filter.1 hp
    obtain ⟨k', -, rfl⟩ := List.mem_map.1 hp1
    rw [bne_iff_ne]
    rintro rfl
    rw [show serializable (X.attrs k) = true from hp2] at hs
    cases hs

/-! ## Examples -/

/-- A compiled `AffineEigenvaluePMM` with 4 × 4 matrices and two eigenvalues; the given matrices are still there. -/
def exEigenPMM : Pre (Lib × MObj Attr) Nat where
  cls := .eigen
  attrs := fun
    | .matrixSize => vInt 4
    | .numEig => vInt 2
    | .which => vStr "la"
    | .smoothing => vFloat 0
    | .initMagnitude => vFloat 1
    | .biasTerm => vBool true
    | .givenMs => vArr { shape := [3, 4, 4], real := false, herm := true, data := 7 }
    | _ => .none
  act := Option.none
  base := { exInner with modules := .tuple [.leaf exMatrix, .leaf exEigen], opt := Option.none }

theorem exEigenPMM_writable (w r : Str) : ModelSpec.Writable (libOps w r) exEigenPMM.base := by
  refine ⟨?_, by decide, fun t ht _ => ?_, Or.inl rfl⟩
  · simp [exEigenPMM, ForwardSpec.KeysOk, ForwardSpec.KeysOkL]
  · cases ht

theorem exEigenPMM_modules (w r : Str) : ∀ m ∈ exEigenPMM.base.modules.flat, Restorable (w = r) (libOps w r) id m := exInner_modules w r

/-- The hypotheses of `C95_saved` hold of it. -/
example (w r : Str) : Restorable (w = r) (preOps (libOps w r) w r) (restoredPre id) exEigenPMM :=
  C95_saved _ _ _ _ _ rfl (exEigenPMM_writable w r) (exEigenPMM_modules w r) (by decide) nofun

/-- Those of `C95_file_refuted` too. -/
example (w r : Str) : ∃ d, PreFile.save (libOps w r) w exEigenPMM = .ok d ∧ ∀ strict X₀, PreFile.load (libOps w r) r strict X₀ d = .error .valueError :=
  C95_file_refuted _ _ _ _ _ (exEigenPMM_writable w r) (exEigenPMM_modules w r) _ rfl (by simp) fun t ht => by
    simp only [List.mem_cons, List.not_mem_nil, or_false] at ht
    rcases ht with rfl | rfl <;> exact ⟨_, rfl⟩

/-- Those of `C95_matrices_refuted` too: the data can be read. -/
example (w : Str) : exEigenPMM.attrs .givenMs ≠ .none ∧ ∃ d Y, PreFile.serialize (libOps w w) w exEigenPMM = .ok d ∧ PreFile.deserialize (libOps w w) w true (fresh .eigen) d = .ok Y := by
  refine ⟨nofun, ?_⟩
  obtain ⟨d, m0, h1, h2, h3⟩ := (C95_saved (libOps w w) w w id exEigenPMM rfl (exEigenPMM_writable w w) (exEigenPMM_modules w w) (by decide) nofun).restores
  have hm0 : (fresh .eigen : Pre (Lib × MObj Attr) Nat) = m0 := Except.ok.inj (show Except.ok (fresh .eigen) = _ from h2)
  exact ⟨d, _, h1, by rw [hm0]; exact h3 true fun _ => rfl⟩

/-- A NumPy integer (an object that is none of the written types) as matrix size. -/
example (w r : Str) : ∃ d, PreFile.serialize (libOps w r) w { exEigenPMM with attrs := setAttr exEigenPMM.attrs .matrixSize (.leaf (.obj 4)) } = .ok d ∧
    ∀ strict, (strict = true → w = r) → PreFile.deserialize (libOps w r) r strict (fresh .eigen) d = .error .keyError :=
  C95_type_refuted (libOps w r) w r id { exEigenPMM with attrs := setAttr exEigenPMM.attrs .matrixSize (.leaf (.obj 4)) } nofun rfl (exEigenPMM_writable w r) (exEigenPMM_modules w r)
    .matrixSize (by decide) (by decide)

/-- A `Flatten`. -/
def exFlatten : Lib × MObj Attr := (.flatten, ⟨obj [(.shape, .none)], true⟩)

/-- A compiled `LinearNN` without bias and with activation. -/
def exLinear : Pre (Lib × MObj Attr) Nat where
  cls := .linear
  attrs := fun
    | .outFeatures => vInt 2
    | .bias => vBool false
    | .initMagnitude => vFloat 1
    | .real => vBool true
    | _ => .none
  act := some exReLU
  base := { exInner with modules := .list (layers exFlatten (.matmul, matmulObj ".") exFlatten false (some exReLU)), opt := Option.none }

theorem exLinear_modules (w r : Str) : ∀ m ∈ exLinear.base.modules.flat, Restorable (w = r) (libOps w r) id m := by
  intro m hm
  have hm : m = exFlatten ∨ m = (.matmul, matmulObj ".") ∨ m = exReLU := by
    have : m ∈ [exFlatten, (.matmul, matmulObj "."), exReLU] := hm
    simpa using this
  rcases hm with rfl | rfl | rfl
  · refine C39_library w r _ _ ⟨fun k hk => obj_none ?_, ?_⟩
    · intro h
      apply hk
      simpa using h
    · show SerSpec.Writable _ _
      unfold SerSpec.Writable; decide
  · refine C39_library w r _ _ ⟨fun k hk => obj_none ?_, ?_, ?_, rfl⟩
    · intro h
      apply hk
      simp only [List.map_cons, List.map_nil, List.mem_cons, List.not_mem_nil, or_false] at h
      rcases h with rfl | rfl | rfl | rfl | rfl | rfl | rfl <;> decide
    · show SerSpec.Writable _ _
      unfold SerSpec.Writable; decide
    · show SerSpec.Writable _ _
      unfold SerSpec.Writable; decide
  · exact C39_library w r _ _ exReLU_held

/-- The hypotheses of `C95_saved` and `C95_file_partial` hold of it. -/
example (w r : Str) : ∃ d, PreFile.save (libOps w r) w exLinear = .ok d ∧
    ∀ strict, (strict = true → w = r) → PreFile.load (libOps w r) r strict (fresh .linear) d = .ok (restoredPre id exLinear) := by
  refine C95_file_partial (libOps w r) w r id exLinear rfl ⟨?_, by decide, fun t ht _ => ?_, Or.inl rfl⟩ (exLinear_modules w r) (by decide)
    (fun _ => (C95_activation exFlatten (.matmul, matmulObj ".") exFlatten false (some exReLU)).symm) _ rfl ?_
  · simp [exLinear, layers, ForwardSpec.KeysOk, ForwardSpec.KeysOkL]
  · cases ht
  · intro t ht
    have ht : t ∈ [.leaf exFlatten, .leaf (.matmul, matmulObj "."), .leaf exReLU] := ht
    simp only [List.mem_cons, List.not_mem_nil, or_false] at ht
    rcases ht with rfl | rfl | rfl <;> exact ⟨_, rfl⟩

/-- The same network before it is compiled meets the hypotheses of `C95_uncompiled_activation_refuted`. -/
example (w r : Str) : ∃ d Y, PreFile.serialize (libOps w r) w ({ exLinear with base := (fresh .linear : Pre (Lib × MObj Attr) Nat).base } : Pre (Lib × MObj Attr) Nat) = .ok d ∧
    PreFile.deserialize (libOps w r) w true (fresh .linear) d = .ok Y ∧ Y.act = Option.none ∧ Y.act ≠ some exReLU ∧ Y.attrs .outFeatures = vInt 2 :=
  C95_uncompiled_activation_refuted (libOps w r) w r id ({ exLinear with base := (fresh .linear : Pre (Lib × MObj Attr) Nat).base } : Pre (Lib × MObj Attr) Nat) exReLU rfl rfl rfl rfl
    ⟨by simp [fresh, ForwardSpec.KeysOk, ForwardSpec.KeysOkL], by decide, (fun t ht _ => by cases ht), Or.inl rfl⟩ (by decide)

end Verif.Props
