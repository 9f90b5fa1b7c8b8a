import Verif.Props.ModelFile
import Verif.Props.Serialize
import Verif.Spec.ModelLib

/-! # Saving and loading models of library modules -/

namespace Verif
namespace Props
open Tree Ser ModelSer ModelSpec SerSpec
open ForwardSpec (KeysOk)

variable {A : Type}

theorem find_key (l : Lib) : Lib.find l.key = some l := by
  cases l with
  | activation nm => simp [Lib.find, Lib.key]
  | _ => decide +kernel

theorem deserialize_any {w r : Str} {strict : Bool} (hs : strict = true → w = r) (c : Cls Attr) {m : MObj Attr} (h : copy w c m = .ok m) :
    Ser.deserialize r strict c c.new (Ser.serialize w c m) = .ok m := by
  rw [← h]
  unfold copy Ser.deserialize
  rw [if_neg (by rintro ⟨h1, h2⟩; exact h1 (hs h2).symm)]
  symm
  exact if_neg (fun h => by cases h.2)

/-- A module that comes back by itself and accepts its own parameters comes back in a model. -/
theorem lib_restorable (w r : Str) (l : Lib) (m : MObj Attr) (hc : copy w l.cls m = .ok m) (hp : l.cls.setParams m.attrs (l.cls.getParams m.attrs) = .ok m.attrs)
    (hs : ∀ v, l.cls.setState m.attrs v = .ok m.attrs) : Restorable (w = r) (libOps w r) id (l, m) := by
  refine ⟨⟨_, (l, l.cls.new), rfl, ?_, fun strict hstrict => ?_⟩, rfl, rfl, rfl, ?_, ⟨_, rfl, rfl, ?_⟩, fun _ => ?_⟩
  · show (match Lib.find l.key with | some l => Except.ok (l, l.cls.new) | Option.none => .error PyErr.keyError) = _
    rw [find_key]
  · show (Ser.deserialize r strict l.cls l.cls.new (Ser.serialize w l.cls m)).map (Prod.mk l) = _
    rw [deserialize_any hstrict _ hc]
    rfl
  · show (l.cls.setParams m.attrs (l.cls.getParams m.attrs)).map _ = _
    rw [hp]; rfl
  · show (l.cls.setState m.attrs _).map _ = _
    rw [hs]; rfl
  · show (l.cls.setState m.attrs _).map _ = _
    rw [hs]; rfl

theorem setAttr_self (a : Attrs Attr) (k : Attr) : setAttr a k (a k) = a := setAttr_eq fun _ _ => rfl

/-- **C39** The library's modules come back as parts of a model, with all attributes (see `Held` for the conditions, and `C39_uncompiled_refuted`). -/
theorem C39_library (w r : Str) (l : Lib) (m : MObj Attr) (h : Held l m) : Restorable (w = r) (libOps w r) id (l, m) := by
  cases l with
  | activation nm => exact lib_restorable w r _ _ ((C40_plain w m).1 h.1 h.2) rfl fun _ => rfl
  | comment => exact lib_restorable w r _ _ ((C40_plain w m).2.1 h.1 h.2) rfl fun _ => rfl
  | concat => exact lib_restorable w r _ _ (C40_concat_partial w m h.1 h.2.1 h.2.2) rfl fun _ => rfl
  | eigenvalues => exact lib_restorable w r _ _ ((C40_plain w m).2.2.1 _ h.1 h.2) rfl fun _ => rfl
  | eigenvectors => exact lib_restorable w r _ _ ((C40_plain w m).2.2.1 _ h.1 h.2) rfl fun _ => rfl
  | eigensystem => exact lib_restorable w r _ _ ((C40_plain w m).2.2.1 _ h.1 h.2) rfl fun _ => rfl
  | reshape => exact lib_restorable w r _ _ ((C40_plain w m).2.2.2.1 h.1 h.2) rfl fun _ => rfl
  | flatten => exact lib_restorable w r _ _ ((C40_plain w m).2.2.2.1 h.1 h.2) rfl fun _ => rfl
  | treeFlatten => exact lib_restorable w r _ _ ((C40_plain w m).2.2.2.2.1 h) rfl fun _ => rfl
  | treeKey => exact lib_restorable w r _ _ ((C40_plain w m).2.2.2.2.2 h.1 h.2) rfl fun _ => rfl
  | affHerm =>
    refine lib_restorable w r _ _ (C40_affine_hermitian w m h.1) ?_ fun _ => rfl
    obtain ⟨x, p, n, hM, hs, hh, hn⟩ := (affHerm_reach_inv h.1).arr.resolve_left h.2
    show affHermSetParams m.attrs (m.attrs .Ms) = _
    conv_lhs => rw [hM]
    rw [affHerm_set_ok hs hh hn (by simp [hM, vArr, leadOf, hs]), ← hM, setAttr_self]
  | affTensor =>
    refine lib_restorable w r _ _ (C40_affine_tensor w m h.1) ?_ fun _ => rfl
    obtain ⟨x, p, s, hM, hs, hn⟩ := (affTensor_reach_inv h.1).arr.resolve_left h.2
    show affTensorSetParams m.attrs (m.attrs .Ms) = _
    have : affTensorSetParams m.attrs (m.attrs .Ms) = .ok (setAttr m.attrs .Ms (m.attrs .Ms)) := by
      rw [hM]
      unfold affTensorSetParams vArr
      rw [hn, intsOf_ints]
      simp [hM, vArr, leadOf, shapeInts, hs]
    rw [this, setAttr_self]
  | expVal =>
    refine lib_restorable w r _ _ (C40_observables w _ m h.1) ?_ fun _ => rfl
    obtain ⟨x, q, l, n, hM, hs, hh, hq, hl⟩ := (expVal_reach_inv h.1).arr.resolve_left h.2
    show expValSetParams m.attrs (m.attrs .Ds) = _
    conv_lhs => rw [hM]
    rw [expVal_set_ok hs hh hq hl, ← hM, setAttr_self]
  | transAmp =>
    refine lib_restorable w r _ _ (C40_observables w _ m h.1) ?_ fun _ => rfl
    obtain ⟨x, q, l, n, hM, hs, hh, hq, hl⟩ := (expVal_reach_inv h.1).arr.resolve_left h.2
    show expValSetParams m.attrs (m.attrs .Ds) = _
    conv_lhs => rw [hM]
    rw [expVal_set_ok hs hh hq hl, ← hM, setAttr_self]
  | bias =>
    refine lib_restorable w r _ _ (C40_bias w m h.1) ?_ fun _ => rfl
    show biasSetParams m.attrs (m.attrs .bias) = _
    have hstruct : (match m.attrs .bias with | .none => false | b => !Tree.sameStruct (m.attrs .bias).norm b.norm) = false := by
      have : Tree.sameStruct (m.attrs .bias).norm (m.attrs .bias).norm = true := (sameStruct_iff _ _).2 rfl
      revert this
      generalize m.attrs .bias = b
      intro this
      cases b <;> first | rfl | simp [this]
    have step : biasSetParams m.attrs (m.attrs .bias) = .ok (setAttr m.attrs .bias (m.attrs .bias)) := by
      unfold biasSetParams
      rw [if_neg (by exact Bool.eq_false_iff.1 hstruct)]
      by_cases hn : m.attrs .bias = .none
      · obtain ⟨h1, h2⟩ := h.2 hn
        rw [hn, h1, h2]
        rfl
      · have harr := h.1.arrays hn
        obtain ⟨r, hr, hrl⟩ := h.1.kind hn
        have hall : (m.attrs .bias).flat.all isArr = true := by
          rw [List.all_eq_true]
          intro x hx
          obtain ⟨y, rfl⟩ := harr x hx
          rfl
        have hreal : (m.attrs .bias).flat.all isRealLeaf = r := by
          rw [Bool.eq_iff_iff, List.all_eq_true, hrl]
          constructor
          · intro h' x hx
            exact h' _ hx
          · intro h' x hx
            obtain ⟨y, rfl⟩ := harr x hx
            exact h' y hx
        have hsc : (flagOn (m.attrs .scalar) && !isScalarArr (m.attrs .bias)) = false := by
          by_cases hs : m.attrs .scalar = vBool true
          · obtain ⟨x, hx, hx'⟩ := h.1.single hn hs
            rw [hx, hs]
            simp [vArr, vBool, hx', flagOn, isScalarArr]
          · have : flagOn (m.attrs .scalar) = false := by
              unfold flagOn
              split
              · rename_i h'; exact absurd h' hs
              · rfl
            rw [this]
            rfl
        rw [if_neg (by simp [hall]), if_neg (by rw [hsc]; simp), hr]
        cases r <;> simp [vBool, hreal]
    rw [step, setAttr_self]
  | constant =>
    refine lib_restorable w r _ _ (C40_constant w m h.1 h.2) ?_ fun _ => rfl
    show Except.ok (setAttr m.attrs .constant (m.attrs .constant)) = _
    rw [setAttr_self]
  | einsum =>
    refine lib_restorable w r _ _ (C40_einsum w m h.1 h.2) ?_ fun _ => rfl
    show Except.ok (setAttr m.attrs .params (m.attrs .params)) = _
    rw [setAttr_self]
  | matmul =>
    refine lib_restorable w r _ _ (C40_matmul_partial w m h.1 h.2.1 h.2.2.1 h.2.2.2) ?_ fun _ => rfl
    show Except.ok (setAttr m.attrs .params (m.attrs .params)) = _
    rw [setAttr_self]
  | prelu =>
    refine lib_restorable w r _ _ (C40_prelu w m h.1 h.2.1) ?_ fun _ => rfl
    show preluSetParams m.attrs (m.attrs .a) = _
    have : preluSetParams m.attrs (m.attrs .a) = .ok (setAttr m.attrs .a (m.attrs .a)) := by
      unfold preluSetParams
      rcases h.2.2 with h1 | h1 | ⟨h1, x, h2, h3⟩ | ⟨h1, h2⟩
      · rw [h1]
      · rw [h1]
        split
        · rfl
        · rfl
        · rename_i h0; exact absurd rfl h0
      · split
        · rfl
        · rfl
        · simp [h1, vBool, h2, vArr, h3]
      · split
        · rfl
        · rfl
        · simp [h1, vBool, h2]
    rw [this, setAttr_self]

theorem lib_cls (w r : Str) (x : Lib × MObj Attr) (k : ModelSer.Kind) : (libOps w r).cls x ≠ kindCls k := by
  obtain ⟨l, m⟩ := x
  show l.key ≠ _
  intro h
  have h2 := congrArg Prod.snd h
  have hl : l.key.2 ∈ activationModule :: Lib.others.map fun l => l.names.2.toList := by cases l <;> simp [Lib.others, Lib.key]
  have hall : ∀ s ∈ activationModule :: Lib.others.map (fun l => l.names.2.toList), s ≠ "parametricmatrixmodels.sequentialmodel".toList ∧
      s ≠ "parametricmatrixmodels.nonsequentialmodel".toList := by decide +kernel
  cases k with
  | seq => exact (hall _ hl).1 h2
  | nonseq o c s => exact (hall _ hl).2 h2

/-- **C39** A model of library modules, with models inside models to any depth, comes back: same classes, modules at the same places with all attributes, connections and execution order,
shapes, parameters, optimiser states and random keys. -/
theorem C39_library_nested (w r : Str) (n : Nat) (x : Obj (Lib × MObj Attr) A n) (hx : AllWritable (libOps w r) w r id n x) :
    Restorable (w = r) (opsAt (libOps w r) w r n) (restoredAt id n) x :=
  C39_nested (libOps w r) w r id (lib_cls w r) n x hx

end Props
end Verif
