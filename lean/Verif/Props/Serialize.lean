import Verif.Lemmas.SerializeLib
import Verif.Lemmas.TreeDec

/-!
# C38 and C40: serialisation of modules
-/

namespace Verif.Props
open Verif Verif.Ser Verif.SerSpec

variable {K : Type} [DecidableEq K]

/-! ## C38: the generic mechanism -/

/-- A class that keeps the default `set_hyperparameters`, lists its hyperparameters `ks` by attribute name, and keeps its
parameters and state in the attributes `p` and `s`. -/
structure Standard (c : Cls K) (ks : List K) (p s : K) : Prop where
  getH : ∀ t a, c.getHyper t a = ks.map fun k => (k, a k)
  setH : ∀ t a h, c.setHyper t a h = .ok (setAll a h)
  getP : ∀ a, c.getParams a = a p
  setP : ∀ a v, c.setParams a v = .ok fun k => if k = p then v else a k
  getS : ∀ a, c.getState a = a s
  setS : ∀ a v, c.setState a v = .ok fun k => if k = s then v else a k

/-- **C38** What a copy has in each attribute: the state and the parameters if there are any, the hyperparameters that can be
written, and the constructor's default elsewhere. The trainable flag is kept. -/
theorem C38_restored (pkg : Str) (c : Cls K) (ks : List K) (p s : K) (hc : Standard c ks p s) (hps : p ≠ s) (m : MObj K) :
    ∃ m', copy pkg c m = .ok m' ∧ m'.trainable = m.trainable ∧
      (m.attrs s ≠ Tree.none → m'.attrs s = m.attrs s) ∧ (m.attrs p ≠ Tree.none → m'.attrs p = m.attrs p) ∧
      (∀ k ∈ ks, k ≠ p → k ≠ s → serializable (m.attrs k) = true → m'.attrs k = m.attrs k) ∧
      (∀ k, (k = p ∨ k = s → m.attrs k = Tree.none) → (k ∉ ks ∨ serializable (m.attrs k) = false) →
        m'.attrs k = c.fresh k) := by
  set b := setAll c.fresh ((hypers ks m.attrs).filter fun kv => serializable kv.2) with hb
  have e0 : c.setHyper c.freshTrainable c.fresh ((c.getHyper m.trainable m.attrs).filter fun kv => serializable kv.2)
      = .ok b := by rw [hc.getH, hc.setH]; rfl
  have hbk : ∀ k, b k = if k ∈ ks ∧ serializable (m.attrs k) = true then m.attrs k else c.fresh k :=
    fun k => setAll_ser ks m.attrs c.fresh k
  have step : ∀ (f : Attrs K → PyVal → Except PyErr (Attrs K)) (q : K) (a : Attrs K),
      (∀ a v, f a v = .ok fun k => if k = q then v else a k) → ∃ a', setUnlessNone f a (m.attrs q) = .ok a' ∧
        (m.attrs q ≠ Tree.none → a' q = m.attrs q) ∧ (∀ k, k ≠ q ∨ m.attrs q = Tree.none → a' k = a k) := by
    intro f q a hf
    by_cases h : m.attrs q = Tree.none
    · exact ⟨a, by rw [h]; rfl, fun h' => absurd h h', fun _ _ => rfl⟩
    · refine ⟨_, setUnlessNone_ok (fun h' => absurd h' h) (fun _ => hf a _), fun _ => by simp, fun k hk => ?_⟩
      have hk' : k ≠ q := hk.resolve_right h
      simp [hk']
  obtain ⟨a₂, h2, h2p, h2o⟩ := step c.setParams p b hc.setP
  obtain ⟨a₃, h3, h3s, h3o⟩ := step c.setState s a₂ hc.setS
  refine ⟨⟨a₃, m.trainable⟩, ?_, rfl, h3s, ?_, ?_, ?_⟩
  · rw [copy_eq, e0]
    simp only [hc.getP, h2, hc.getS, h3]
  · intro h
    show a₃ p = _
    rw [h3o p (.inl hps), h2p h]
  · intro k hk hkp hks hw
    show a₃ k = _
    rw [h3o k (.inl hks), h2o k (.inl hkp), hbk, if_pos ⟨hk, hw⟩]
  · intro k hps h
    have r3 : k ≠ s ∨ m.attrs s = Tree.none := by
      by_cases e : k = s
      · exact .inr (e ▸ hps (.inr e))
      · exact .inl e
    have r2 : k ≠ p ∨ m.attrs p = Tree.none := by
      by_cases e : k = p
      · exact .inr (e ▸ hps (.inl e))
      · exact .inl e
    show a₃ k = _
    rw [h3o k r3, h2o k r2, hbk, if_neg]
    rcases h with h | h <;> simp [h]

/-- **C38** If every hyperparameter can be written and every other attribute is the parameters, the state or has the
constructor's default, the copy is exactly the module, and writing it again gives the same data. -/
theorem C38_roundtrip (pkg : Str) (c : Cls K) (ks : List K) (p s : K) (hc : Standard c ks p s) (hps : p ≠ s) (m : MObj K)
    (hw : ∀ k ∈ ks, serializable (m.attrs k) = true) (hpks : p ∉ ks ∧ s ∉ ks)
    (hrest : ∀ k, k ∉ ks → m.attrs k = c.fresh k ∨ ((k = p ∨ k = s) ∧ m.attrs k ≠ Tree.none)) :
    ∃ m', copy pkg c m = .ok m' ∧ m' = m ∧ serialize pkg c m' = serialize pkg c m := by
  obtain ⟨m', h1, h2, h3, h4, h5, h6⟩ := C38_restored pkg c ks p s hc hps m
  have ea : m'.attrs = m.attrs := by
    funext k
    by_cases hkk : k ∈ ks
    · exact h5 k hkk (fun e => hpks.1 (e ▸ hkk)) (fun e => hpks.2 (e ▸ hkk)) (hw k hkk)
    · by_cases hn : m.attrs k = Tree.none
      · rw [h6 k (fun _ => hn) (.inl hkk)]
        rcases hrest k hkk with h | h
        · exact h.symm
        · exact absurd hn h.2
      · by_cases hkp : k = p
        · subst hkp; exact h4 hn
        · by_cases hks : k = s
          · subst hks; exact h3 hn
          · rw [h6 k (fun h => (h.elim hkp hks).elim) (.inl hkk)]
            rcases hrest k hkk with h | h
            · exact h.symm
            · exact (h.1.elim hkp hks).elim
  have e : m' = m := by
    cases m'; cases m
    simp only at ea h2
    rw [ea, h2]
  exact ⟨m', h1, e, by rw [e]⟩

/-- A user class with one hyperparameter, parameters and a state: attributes 0, 1, 2. -/
def userCls : Cls Nat where
  name := "Mine".toList
  version := "1.0".toList
  fresh := fun k => if k = 0 then vBool false else .none
  freshTrainable := true
  getHyper := fun _ a => [(0, a 0)]
  setHyper := fun _ a h => .ok (setAll a h)
  getParams := fun a => a 1
  setParams := fun a v => .ok fun k => if k = 1 then v else a k
  getState := fun a => a 2
  setState := fun a v => .ok fun k => if k = 2 then v else a k

/-- An object of the user class with all attributes set. -/
def userObj : MObj Nat where
  attrs := fun k => if k = 0 then .list [vInt 3, vInt 4] else if k = 1 then vArr ⟨[2], true, false, 7⟩
    else if k = 2 then .tuple [vArr ⟨[1], true, false, 8⟩] else .none
  trainable := false

example : Standard userCls [0] 1 2 ∧ (∀ k ∈ [0], serializable (userObj.attrs k) = true) ∧
    (∀ k, k ∉ [0] → userObj.attrs k = userCls.fresh k ∨ ((k = 1 ∨ k = 2) ∧ userObj.attrs k ≠ Tree.none)) := by
  refine ⟨⟨fun _ _ => rfl, fun _ _ _ => rfl, fun _ => rfl, fun _ _ => rfl, fun _ => rfl, fun _ _ => rfl⟩, by decide, ?_⟩
  intro k hk
  simp only [List.mem_cons, List.not_mem_nil, or_false] at hk
  by_cases h1 : k = 1
  · exact .inr ⟨.inl h1, by subst h1; simp [userObj, vArr]⟩
  · by_cases h2 : k = 2
    · exact .inr ⟨.inr h2, by subst h2; simp [userObj]⟩
    · exact .inl (by simp [userObj, userCls, hk, h1, h2])

/-- **C38** A different package version is refused exactly when `strict_package_version` is given; then nothing is set. -/
theorem C38_strict (pkg : Str) (c : Cls K) (m : MObj K) (d : Data K) (h : pkg ≠ d.package) :
    deserialize pkg true c m d = .error .valueError ∧
      deserialize pkg false c m d = deserialize d.package false c m d := by
  constructor
  · simp [deserialize, h]
  · simp [deserialize]

example : deserialize "0.2".toList true userCls userCls.new (serialize "0.1".toList userCls userObj)
    = .error .valueError := (C38_strict _ _ _ _ (by decide)).1

/-- **C38** (the claim that data of another class or module version is rejected is false) The class name and the module
version in the data have no influence on what `deserialize` does. -/
theorem C38_class_and_version_ignored (pkg : Str) (strict : Bool) (c : Cls K) (m : MObj K) (d : Data K) (nm v : Str) :
    deserialize pkg strict c m { d with name := nm, version := v } = deserialize pkg strict c m d := by
  unfold deserialize upgrade
  simp only [ite_self]

/-- **C38** (refutation) A `Comment` accepts the data of any class with the default accessors whatsoever, and takes over its
hyperparameters as attributes. -/
theorem C38_other_class_refuted (pkg : Str) (m : MObj Attr) (c : Cls Attr) (m₂ : MObj Attr) :
    ∃ m', deserialize pkg true commentCls m (serialize pkg c m₂) = .ok m' := by
  have hs : ∀ (a : Attrs Attr) (v : PyVal), setUnlessNone ignore a v = .ok a := by
    intro a v
    cases v <;> rfl
  have h1 : commentCls.setParams = ignore := rfl
  have h2 : commentCls.setState = ignore := rfl
  have h3 : ∀ t a h, commentCls.setHyper t a h = .ok (setAll a h) := fun _ _ _ => rfl
  unfold deserialize
  rw [if_neg (by simp [serialize])]
  simp only [h1, h2, h3, hs]
  exact ⟨_, rfl⟩

/-- **C38** (refutation of "serialising again gives the same data") An activation with keyword arguments of mixed types is
written without them, and the copy, which has none, is written with the empty dictionary. -/
theorem C38_mixed_types_refuted (pkg : Str) (m : MObj Attr) (hk : serializable (m.attrs .kwargs) = false) :
    ∃ m', copy pkg activation m = .ok m' ∧ m'.attrs .kwargs = .dict [] ∧ m'.attrs .kwargs ≠ m.attrs .kwargs ∧
      (Attr.kwargs, (Tree.dict [] : PyVal)) ∈ (serialize pkg activation m').hyper ∧
      ∀ v, (Attr.kwargs, v) ∉ (serialize pkg activation m).hyper := by
  have e := copy_plain pkg "Activation" [(.args, .tuple []), (.kwargs, .dict [])] [.args, .kwargs] m
  refine ⟨_, e, ?_, ?_, ?_, ?_⟩
  · show setAll _ _ _ = _
    rw [setAll_ser, if_neg (by simp [hk])]
    rfl
  · show setAll _ _ _ ≠ _
    rw [setAll_ser, if_neg (by simp [hk])]
    intro h
    rw [← h] at hk
    exact absurd hk (by decide)
  · simp only [serialize, List.mem_filter]
    constructor
    · show _ ∈ hypers _ _
      simp only [hypers, List.map_cons, List.map_nil, List.mem_cons, List.not_mem_nil, or_false]
      right
      rw [Prod.mk.injEq]
      refine ⟨rfl, ?_⟩
      have := setAll_ser [Attr.args, .kwargs] m.attrs (obj [(.args, .tuple []), (.kwargs, .dict [])]) .kwargs
      rw [if_neg (by simp [hk])] at this
      exact this.symm
    · decide
  · intro v hv
    simp only [serialize, List.mem_filter] at hv
    obtain ⟨h1, h2⟩ := hv
    have h1' : (Attr.kwargs, v) ∈ hypers [Attr.args, Attr.kwargs] m.attrs := h1
    simp only [hypers, List.map_cons, List.map_nil, List.mem_cons, Prod.mk.injEq, List.not_mem_nil, or_false,
      reduceCtorEq, false_and, false_or, true_and] at h1'
    rw [h1'] at h2
    simp [hk] at h2

/-- `negative_slope=0.1, axis=1` -/
example : serializable (Tree.dict [("negative_slope".toList, vFloat 5), ("axis".toList, vInt 1)]) = false := by decide

/-! ## C40: the library's classes -/

/-- **C40** Activations, comments, eigenvalue modules, reshapes, tree keys and tree flattening come back as they were, for all
hyperparameters that can be written. -/
theorem C40_plain (pkg : Str) (m : MObj Attr) :
    (Only [.args, .kwargs] m.attrs → Writable [.args, .kwargs] m.attrs → copy pkg activation m = .ok m) ∧
    (Only [.comment] m.attrs → Writable [.comment] m.attrs → copy pkg commentCls m = .ok m) ∧
    (∀ nm, Only [.numEig, .which] m.attrs → Writable [.numEig, .which] m.attrs → copy pkg (eigenCls nm) m = .ok m) ∧
    (Only [.shape] m.attrs → Writable [.shape] m.attrs → copy pkg reshapeCls m = .ok m) ∧
    (Only [] m.attrs → copy pkg treeFlatten m = .ok m) ∧
    (Only [.keypaths, .separator] m.attrs → Writable [.keypaths, .separator] m.attrs → copy pkg treeKey m = .ok m) := by
  have key : ∀ nm fresh ks, Only ks m.attrs → Writable ks m.attrs → (∀ k ∈ fresh.map Prod.fst, k ∈ ks) →
      copy pkg (plainCls nm fresh ks) m = .ok m := by
    intro nm fresh ks ho hw hf
    rw [copy_plain, restore_all hw ho hf]
  refine ⟨fun h h' => key _ _ _ h h' (by decide), fun h h' => key _ _ _ h h' (by decide),
    fun nm h h' => key _ _ _ h h' (by decide), fun h h' => key _ _ _ h h' (by decide),
    fun h => key _ _ _ h (fun k hk => by simp at hk) (by decide), fun h h' => key _ _ _ h h' (by decide)⟩

/-- Reading `[(2, 3), (None, (-1,))]` as a shape. -/
example : Writable [Attr.shape] (obj [(.shape, .list [.tuple [vInt 2, vInt 3], .tuple [.none, .tuple [vInt (-1)]]])]) ∧
    Only [Attr.shape] (obj [(.shape, .list [.tuple [vInt 2, vInt 3], .tuple [.none, .tuple [vInt (-1)]]])]) := by
  refine ⟨?_, fun k hk => obj_none (by simpa using hk)⟩
  intro k hk
  simp only [List.mem_cons, List.not_mem_nil, or_false] at hk
  subst hk
  decide

/-- **C40** `ConcatenateLeaves` comes back if it uses the default order and separator. (Missing: other orders, see
`C40_concat_refuted`.) -/
theorem C40_concat_partial (pkg : Str) (m : MObj Attr) (ho : Only [.axis, .separator] m.attrs)
    (hw : Writable [.axis] m.attrs) (hs : m.attrs .separator = vStr ".") : copy pkg concatLeaves m = .ok m := by
  rw [concatLeaves, copy_plain]
  congr 1
  cases m with
  | mk a t =>
    simp only at ho hw hs ⊢
    congr 1
    funext k
    rw [setAll_writable hw]
    by_cases hk : k = .axis
    · simp [hk]
    · rw [if_neg (by simp [hk])]
      by_cases hk' : k = .separator
      · rw [hk', hs]; rfl
      · rw [ho k (by simp [hk, hk'])]
        cases k <;> first | rfl | exact absurd rfl hk | exact absurd rfl hk'

/-- **C40** (refutation) After a save and load, `ConcatenateLeaves` always has the default order and separator, whatever the
user had set. -/
theorem C40_concat_refuted (pkg : Str) (m : MObj Attr) :
    ∃ m', copy pkg concatLeaves m = .ok m' ∧ m'.attrs .pathOrder = Tree.none ∧ m'.attrs .separator = vStr "." := by
  refine ⟨_, copy_plain pkg _ _ _ m, ?_, ?_⟩ <;>
    · show setAll _ _ _ = _
      rw [setAll_ser, if_neg (by simp)]
      rfl

/-- **C40** `AffineHermitianMatrix`: every object made by the constructor, `compile` and `set_params` comes back exactly. -/
theorem C40_affine_hermitian (pkg : Str) (m : MObj Attr) (h : Reach affHerm affHermNew affHermComp m.attrs) :
    copy pkg affHerm m = .ok m := by
  have inv := affHerm_reach_inv h
  refine copy_guarded_ok pkg inv.writable inv.only (by decide) (by decide) ?_
  intro hne b hb hbn
  obtain ⟨x, p, n, hM, hs, hh, hn⟩ := inv.arr.resolve_left hne
  rw [hM]
  exact affHerm_set_ok hs hh (by rw [hb _ (by simp), hn]) (by simp [hbn, leadOf, hs])

/-- **C40** `AffineTensor`: every object made by the constructor, `compile` and `set_params` comes back exactly. -/
theorem C40_affine_tensor (pkg : Str) (m : MObj Attr) (h : Reach affTensor affTensorNew affTensorComp m.attrs) :
    copy pkg affTensor m = .ok m := by
  have inv := affTensor_reach_inv h
  refine copy_guarded_ok pkg inv.writable inv.only (by decide) (by decide) ?_
  intro hne b hb hbn
  obtain ⟨x, p, s, hM, hs, hn⟩ := inv.arr.resolve_left hne
  rw [hM]
  unfold affTensorSetParams vArr
  rw [hb _ (by simp), hn, intsOf_ints]
  simp only [hbn, leadOf, shapeInts, hs]
  simp

/-- **C40** `ExpectationValueSum` and `TransitionAmplitudeSum`: every object made by the constructor, `compile` and `set_params` comes back exactly. -/
theorem C40_observables (pkg : Str) (nm : String) (m : MObj Attr) (h : Reach (expVal nm) expValNew expValComp m.attrs) :
    copy pkg (expVal nm) m = .ok m := by
  have inv := expVal_reach_inv h
  refine copy_guarded_ok pkg inv.writable inv.only (by decide) (by decide) ?_
  intro hne b hb hbn
  obtain ⟨x, q, l, n, hM, hs, hh, hq, hl⟩ := inv.arr.resolve_left hne
  rw [hM]
  exact expVal_set_ok hs hh (by rw [hb _ (by simp), hq]) (by rw [hb _ (by simp), hl])

/-- A compiled object exists for each of these classes. -/
example : (∃ a, Reach affHerm affHermNew affHermComp a ∧ a .Ms = vArr ⟨[3, 4, 4], false, true, 0⟩) ∧
    (∃ a, Reach affTensor affTensorNew affTensorComp a ∧ a .Ms = vArr ⟨[3, 2, 5], true, false, 0⟩) ∧
    (∃ a, Reach (expVal "E") expValNew expValComp a ∧ a .Ds = vArr ⟨[1, 2, 4, 4], false, true, 0⟩) :=
  ⟨⟨_, .compile (.new ⟨some 4, 0, 1, true, none, rfl⟩) ⟨3, 0, rfl⟩, rfl⟩,
   ⟨_, .compile (.new ⟨some [2, 5], 1, true, true, none, rfl⟩) ⟨3, 0, rfl⟩, rfl⟩,
   ⟨_, .compile (.new ⟨some 2, some 1, 1, true, none, rfl⟩) ⟨4, 0, rfl⟩, rfl⟩⟩

/-- **C40** (refutation) No `LowRankAffineHermitianMatrix`, compiled or not, can be restored: the rank is not written, and
the parameters are then refused. -/
theorem C40_low_rank_refuted (pkg : Str) (m : MObj Attr) : copy pkg lowRank m = .error .valueError :=
  lowRank_copy_fails pkg m

example : ∃ a, Reach lowRank lowRankNew lowRankComp a ∧ a .us = vArr ⟨[3, 4, 2], false, false, 0⟩ :=
  ⟨_, .compile (.new ⟨some 4, some 2, 0, 1, true, rfl⟩) ⟨3, 0, rfl⟩, rfl⟩

/-- **C40** `Constant` comes back exactly. -/
theorem C40_constant (pkg : Str) (m : MObj Attr) (ho : Only [.constant, .shape, .initMagnitude, .real, .name] m.attrs)
    (hw : Writable [.shape, .initMagnitude, .real, .name] m.attrs) : copy pkg constantCls m = .ok m := by
  rw [copy_eq]
  have h1 : constantCls.setHyper constantCls.freshTrainable constantCls.fresh
      ((constantCls.getHyper m.trainable m.attrs).filter fun kv => serializable kv.2)
      = .ok (setAll (obj [(.initMagnitude, vFloat 1), (.name, vStr "Constant")])
        ((hypers [.shape, .initMagnitude, .real, .name] m.attrs).filter fun kv => serializable kv.2)) := rfl
  rw [h1]
  have h2 := finish_params (a := m.attrs) (p := .constant) (v := m.attrs .constant)
    (restore_but (fresh := [(.initMagnitude, vFloat 1), (.name, vStr "Constant")]) hw ho (by decide)) rfl
    (fun _ => by rw [setAll_writable hw]; rfl)
  have h2' : setUnlessNone constantCls.setParams (setAll (obj [(.initMagnitude, vFloat 1), (.name, vStr "Constant")])
        ((hypers [.shape, .initMagnitude, .real, .name] m.attrs).filter fun kv => serializable kv.2))
        (constantCls.getParams m.attrs) = .ok m.attrs := h2
  simp only [h2']
  rfl

example : Only [Attr.constant, .shape, .initMagnitude, .real, .name] (obj [(.initMagnitude, vFloat 2), (.name, vStr "K"),
      (.constant, vArr ⟨[2, 3], true, false, 4⟩), (.shape, .tuple [vInt 2, vInt 3])]) ∧
    Writable [Attr.shape, .initMagnitude, .real, .name] (obj [(.initMagnitude, vFloat 2), (.name, vStr "K"),
      (.constant, vArr ⟨[2, 3], true, false, 4⟩), (.shape, .tuple [vInt 2, vInt 3])]) := by
  refine ⟨fun k hk => obj_none ?_, ?_⟩
  · intro h
    apply hk
    simp only [List.map_cons, List.map_nil, List.mem_cons, List.not_mem_nil, or_false] at h
    rcases h with rfl | rfl | rfl | rfl <;> decide
  · unfold Writable; decide

/-- **C40** `Einsum` comes back exactly, trainable or not, compiled or not. -/
theorem C40_einsum (pkg : Str) (m : MObj Attr)
    (ho : Only [.params, .einsumStr, .dimMap, .initMagnitude, .real, .inputShape] m.attrs)
    (hw : Writable [.einsumStr, .dimMap, .initMagnitude, .real, .inputShape] m.attrs) : copy pkg einsumCls m = .ok m := by
  rw [copy_eq]
  have h1 : einsumCls.setHyper einsumCls.freshTrainable einsumCls.fresh
      ((einsumCls.getHyper m.trainable m.attrs).filter fun kv => serializable kv.2)
      = .ok (einsumSetHyper false einsumCls.fresh
        ((hypers (einsumKeys m.trainable) m.attrs).filter fun kv => serializable kv.2)) := rfl
  rw [h1]
  have h2' : setUnlessNone einsumCls.setParams (einsumSetHyper false einsumCls.fresh
        ((hypers (einsumKeys m.trainable) m.attrs).filter fun kv => serializable kv.2))
        (einsumCls.getParams m.attrs) = .ok m.attrs := by
    refine finish_params (p := .params) (fun k hk => ?_) rfl (fun hp => einsum_restored_params hp rfl _)
    rw [einsum_restored hw _ _ (fun _ h => h) k hk]
    split_ifs with h
    · rfl
    · rw [ho k (by simpa [hk, einsumPlain] using h)]
      exact obj_none (by
        intro hm
        simp only [List.map_cons, List.map_nil, List.mem_cons, List.not_mem_nil, or_false] at hm
        apply h
        rcases hm with rfl | rfl <;> decide)
  simp only [h2']
  rfl

example : Only [Attr.params, .einsumStr, .dimMap, .initMagnitude, .real, .inputShape] (obj [(.initMagnitude, vFloat 2),
      (.real, vBool true), (.params, .tuple [vArr ⟨[2, 3], true, false, 4⟩]), (.einsumStr, vStr "ab,b->a")]) ∧
    Writable [Attr.einsumStr, .dimMap, .initMagnitude, .real, .inputShape] (obj [(.initMagnitude, vFloat 2),
      (.real, vBool true), (.params, .tuple [vArr ⟨[2, 3], true, false, 4⟩]), (.einsumStr, vStr "ab,b->a")]) := by
  refine ⟨fun k hk => obj_none ?_, ?_⟩
  · intro h
    apply hk
    simp only [List.map_cons, List.map_nil, List.mem_cons, List.not_mem_nil, or_false] at h
    rcases h with rfl | rfl | rfl | rfl <;> decide
  · unfold Writable; decide

/-- **C40** `MatMul` comes back exactly if it uses the default separator. (Missing: other separators, see
`C40_matmul_refuted`.) -/
theorem C40_matmul_partial (pkg : Str) (m : MObj Attr)
    (ho : Only [.params, .einsumStr, .dimMap, .initMagnitude, .real, .inputShape, .outputShape, .pathOrder, .separator] m.attrs)
    (hw : Writable [.einsumStr, .dimMap, .initMagnitude, .real, .inputShape] m.attrs)
    (hw' : Writable [.outputShape, .pathOrder, .separator] m.attrs) (hs : m.attrs .separator = vStr ".") :
    copy pkg matmulCls m = .ok m := by
  rw [copy_eq]
  set h := (hypers (matmulKeys m.trainable) m.attrs).filter fun kv => serializable kv.2 with hh
  set a₂ := h.foldl (fun a kv => if kv.1 ∈ matmulKeys false then setAttr a kv.1 kv.2 else a)
    (einsumSetHyper false matmulCls.fresh h) with ha₂
  have h1 : matmulCls.setHyper matmulCls.freshTrainable matmulCls.fresh
      ((matmulCls.getHyper m.trainable m.attrs).filter fun kv => serializable kv.2)
      = .ok (einsumSetHyper false (matmulReinit a₂) h) := rfl
  rw [h1]
  have sub : ∀ k ∈ einsumKeys m.trainable, k ∈ matmulKeys m.trainable :=
    fun k hk => List.mem_append_left _ hk
  have reinit : ∀ k, matmulReinit a₂ k = if k = .separator then vStr "." else if k ∈ [Attr.einsumStr, .dimMap, .inputShape]
      then Tree.none else a₂ k := by
    intro k
    cases k <;> rfl
  have ha₂k : ∀ k, a₂ k = if (k ∈ matmulKeys m.trainable ∧ serializable (m.attrs k) = true) ∧ k ∈ matmulKeys false
      then m.attrs k else einsumSetHyper false matmulCls.fresh h k := by
    intro k
    rw [ha₂, hh, filter_hypers_keys, foldl_keys]
    simp only [List.mem_filter]
  have h2' : setUnlessNone matmulCls.setParams (einsumSetHyper false (matmulReinit a₂) h)
        (matmulCls.getParams m.attrs) = .ok m.attrs := by
    refine finish_params (p := .params) (fun k hk => ?_) rfl (fun hp => ?_)
    · rw [hh, einsum_restored hw _ _ sub k hk]
      by_cases he : k ∈ einsumPlain
      · rw [if_pos he]
      · rw [if_neg he, reinit]
        by_cases hsep : k = .separator
        · rw [if_pos hsep, hsep, hs]
        · have hne : k ∉ [Attr.einsumStr, .dimMap, .inputShape] := by
            intro hm
            apply he
            simp only [List.mem_cons, List.not_mem_nil, or_false] at hm
            rcases hm with rfl | rfl | rfl <;> decide
          rw [if_neg hsep, if_neg hne, ha₂k]
          by_cases hop : k ∈ [Attr.outputShape, .pathOrder, .separator]
          · rw [if_pos ⟨⟨List.mem_append_right _ hop, hw' k hop⟩, List.mem_append_right _ hop⟩]
          · have hn : m.attrs k = Tree.none := by
              apply ho
              intro hm
              cases k <;> first | exact hk rfl | exact he (by decide) | exact hop (by decide) | exact absurd hm (by decide)
            rw [hn, ite_eq_left_iff]
            intro _
            rw [hh, einsum_restored hw _ _ sub k hk, if_neg he]
            cases k <;> first | rfl | exact absurd (by decide) he | exact absurd rfl hsep
    · refine einsum_restored_params hp ?_ _
      rw [reinit, if_neg (by decide), if_neg (by decide), ha₂k, hp]
      rw [ite_eq_left_iff]
      intro _
      exact einsum_restored_params hp rfl _
  simp only [h2']
  rfl

/-- **C40** (refutation) After a save and load, `MatMul` always has the default separator. -/
theorem C40_matmul_refuted (pkg : Str) (m : MObj Attr) :
    ∃ m', copy pkg matmulCls m = .ok m' ∧ m'.attrs .separator = vStr "." := by
  rw [copy_eq]
  set h := (hypers (matmulKeys m.trainable) m.attrs).filter fun kv => serializable kv.2 with hh
  set a₂ := h.foldl (fun a kv => if kv.1 ∈ matmulKeys false then setAttr a kv.1 kv.2 else a)
    (einsumSetHyper false matmulCls.fresh h) with ha₂
  have h1 : matmulCls.setHyper matmulCls.freshTrainable matmulCls.fresh
      ((matmulCls.getHyper m.trainable m.attrs).filter fun kv => serializable kv.2)
      = .ok (einsumSetHyper false (matmulReinit a₂) h) := rfl
  rw [h1]
  have hsep : einsumSetHyper false (matmulReinit a₂) h .separator = vStr "." := by
    unfold einsumSetHyper
    rw [hh, filter_hypers_keys, foldl_keys, if_neg (by simp [einsumKeys])]
    rfl
  have hset : ∃ b, setUnlessNone matmulCls.setParams (einsumSetHyper false (matmulReinit a₂) h)
        (matmulCls.getParams m.attrs) = .ok b ∧ b .separator = vStr "." := by
    by_cases hp : matmulCls.getParams m.attrs = Tree.none
    · exact ⟨_, by rw [hp]; rfl, hsep⟩
    · exact ⟨_, setUnlessNone_ok (fun h' => absurd h' hp) (fun _ => rfl), hsep⟩
  obtain ⟨b, hb, hbs⟩ := hset
  simp only [hb]
  exact ⟨_, rfl, hbs⟩

/-- A compiled matrix product with a separator of its own, and fixed arrays. -/
def matmulObj (sep : String) : MObj Attr where
  attrs := obj [(.params, .tuple [vArr ⟨[2, 3], true, false, 4⟩]), (.einsumStr, vStr "ab,bc->ac"),
    (.dimMap, .dict [("a".toList, vInt 2), ("b".toList, vInt 3)]), (.initMagnitude, vFloat 1), (.real, vBool true),
    (.outputShape, .tuple [vInt 2]), (.separator, vStr sep)]
  trainable := true

example : (matmulObj "/").attrs .separator ≠ vStr "." := by
  simp [matmulObj, obj, setAll, setAttr, vStr]
example : Only [.params, .einsumStr, .dimMap, .initMagnitude, .real, .inputShape, .outputShape, .pathOrder, .separator]
      (matmulObj ".").attrs ∧
    Writable [.einsumStr, .dimMap, .initMagnitude, .real, .inputShape] (matmulObj ".").attrs ∧
    Writable [.outputShape, .pathOrder, .separator] (matmulObj ".").attrs := by
  refine ⟨fun k hk => obj_none ?_, ?_, ?_⟩
  · intro h
    apply hk
    simp only [List.map_cons, List.map_nil, List.mem_cons, List.not_mem_nil, or_false] at h
    rcases h with rfl | rfl | rfl | rfl | rfl | rfl | rfl <;> decide
  · unfold Writable; decide
  · unfold Writable; decide

/-- **C40** `Bias` comes back exactly, for arrays of the declared kind in any tree. -/
theorem C40_bias (pkg : Str) (m : MObj Attr) (h : BiasLegal m.attrs) : copy pkg biasCls m = .ok m := by
  have e : biasCls.setHyper = fun _ a h => .ok (setAll a h) := rfl
  rw [copy_eq]
  set b := setAll (obj [(.initMagnitude, vFloat 1), (.real, vBool true), (.scalar, vBool false)])
    ((hypers [.initMagnitude, .real, .scalar] m.attrs).filter fun kv => serializable kv.2) with hb
  have h1 : biasCls.setHyper biasCls.freshTrainable biasCls.fresh
      ((biasCls.getHyper m.trainable m.attrs).filter fun kv => serializable kv.2) = .ok b := rfl
  rw [h1]
  have hbk : ∀ k, k ≠ .bias → b k = m.attrs k := restore_but h.writable h.only (by decide)
  have hbp : b .bias = Tree.none := by rw [hb, setAll_writable h.writable]; rfl
  have hset : setUnlessNone biasSetParams b (m.attrs .bias) = .ok m.attrs := by
    refine setUnlessNone_ok (fun h0 => ?_) (fun hn => ?_)
    · funext k
      by_cases hk : k = .bias
      · rw [hk, hbp, h0]
      · exact hbk k hk
    · have harr := h.arrays hn
      obtain ⟨r, hr, hrl⟩ := h.kind hn
      have hall : (m.attrs .bias).flat.all isArr = true := by
        rw [List.all_eq_true]
        intro x hx
        obtain ⟨y, rfl⟩ := harr x hx
        rfl
      have hreal : (m.attrs .bias).flat.all isRealLeaf = r := by
        rw [Bool.eq_iff_iff, List.all_eq_true, hrl]
        constructor
        · intro h' x hx
          exact h' _ hx
        · intro h' x hx
          obtain ⟨y, rfl⟩ := harr x hx
          exact h' y hx
      have hsc : (flagOn (b .scalar) && !isScalarArr (m.attrs .bias)) = false := by
        rw [hbk .scalar (by decide)]
        by_cases hs : m.attrs .scalar = vBool true
        · obtain ⟨x, hx, hx'⟩ := h.single hn hs
          rw [hx, hs]
          simp [vArr, vBool, hx', flagOn, isScalarArr]
        · have : flagOn (m.attrs .scalar) = false := by
            unfold flagOn
            split
            · rename_i h'; exact absurd h' hs
            · rfl
          rw [this]
          rfl
      have step : biasSetParams b (m.attrs .bias) = .ok (setAttr b .bias (m.attrs .bias)) := by
        unfold biasSetParams
        rw [hbp, if_neg (by simp), if_neg (by simp [hall]), if_neg (by rw [hsc]; simp), hbk .real (by decide), hr]
        cases r <;> simp [vBool, hreal]
      rw [step, setAttr_eq hbk]
  have h2' : setUnlessNone biasCls.setParams b (biasCls.getParams m.attrs) = .ok m.attrs := hset
  simp only [h2']
  rfl

example : BiasLegal (obj [(.initMagnitude, vFloat 3), (.real, vBool false), (.scalar, vBool false),
    (.bias, .list [vArr ⟨[2, 3], true, false, 4⟩, vArr ⟨[3], false, false, 4⟩])]) := by
  refine ⟨fun k hk => obj_none ?_, ?_, fun _ => ?_, fun _ => ⟨false, rfl, ?_⟩, fun _ h => ?_⟩
  · intro h
    apply hk
    simp only [List.map_cons, List.map_nil, List.mem_cons, List.not_mem_nil, or_false] at h
    rcases h with rfl | rfl | rfl | rfl <;> decide
  · unfold Writable; decide
  · intro x hx
    have : x ∈ [Atom.arr ⟨[2, 3], true, false, 4⟩, .arr ⟨[3], false, false, 4⟩] := hx
    simp only [List.mem_cons, List.not_mem_nil, or_false] at this
    rcases this with rfl | rfl
    · exact ⟨_, rfl⟩
    · exact ⟨_, rfl⟩
  · constructor
    · intro h; simp at h
    · intro h
      have := h ⟨[3], false, false, 4⟩ (by decide)
      exact absurd this (by decide)
  · exact absurd h (by simp [obj, setAll, setAttr, vBool])

/-- **C40** `PReLU` comes back exactly, whatever its parameters. -/
theorem C40_prelu (pkg : Str) (m : MObj Attr) (ho : Only [.a, .singleParameter, .initMagnitude, .inputShape, .real] m.attrs)
    (hw : Writable [.singleParameter, .initMagnitude, .inputShape, .real] m.attrs) : copy pkg preluCls m = .ok m := by
  refine copy_guarded_ok pkg hw ho (by decide) (by decide) ?_
  intro _ b _ hbn
  simp [preluSetParams, hbn]

/-- Compiled on two inputs, with one parameter per feature. -/
example : Writable [Attr.singleParameter, .initMagnitude, .inputShape, .real] (obj [(.singleParameter, vBool false),
    (.initMagnitude, vFloat 2), (.real, vBool true), (.inputShape, .list [.tuple [vInt 3], .tuple [vInt 2, vInt 2]]),
    (.a, .list [vArr ⟨[3], true, false, 0⟩, vArr ⟨[2, 2], true, false, 0⟩])]) := by
  unfold Writable; decide

end Verif.Props
