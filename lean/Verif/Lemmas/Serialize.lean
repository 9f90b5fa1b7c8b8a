import Verif.Spec.Serialize
import Mathlib.Tactic.SplitIfs

/-! Lemmas on the serialisation of modules. -/

namespace Verif.Ser

open Verif.SerSpec

variable {K : Type} [DecidableEq K]

theorem setAll_hypers (ks : List K) (a b : Attrs K) (p : K → Bool) (k : K) :
    setAll b ((hypers ks a).filter fun kv => p kv.1) k = if k ∈ ks ∧ p k = true then a k else b k := by
  induction ks generalizing b with
  | nil => simp [hypers, setAll]
  | cons k₀ ks ih =>
    have hcons : (hypers (k₀ :: ks) a) = (k₀, a k₀) :: hypers ks a := rfl
    rw [hcons, List.filter_cons]
    by_cases hp : p k₀ = true
    · simp only [hp, if_true]
      have : setAll b ((k₀, a k₀) :: (hypers ks a).filter fun kv => p kv.1)
          = setAll (setAttr b k₀ (a k₀)) ((hypers ks a).filter fun kv => p kv.1) := rfl
      rw [this, ih]
      by_cases hk : k = k₀
      · subst hk; simp [setAttr, hp]
      · simp [setAttr, hk]
    · simp only [hp]
      rw [if_neg (by simp), ih]
      by_cases hk : k = k₀
      · subst hk; simp [hp]
      · simp [hk]

theorem filter_hypers (ks : List K) (a : Attrs K) :
    ((hypers ks a).filter fun kv => serializable kv.2) = (hypers ks a).filter fun kv => serializable (a kv.1) := by
  apply List.filter_congr
  intro kv h
  simp only [hypers, List.mem_map] at h
  obtain ⟨k, _, rfl⟩ := h
  rfl

theorem setAll_ser (ks : List K) (a b : Attrs K) (k : K) :
    setAll b ((hypers ks a).filter fun kv => serializable kv.2) k
      = if k ∈ ks ∧ serializable (a k) = true then a k else b k := by
  rw [filter_hypers, setAll_hypers ks a b (fun k => serializable (a k)) k]

theorem setAll_writable {ks : List K} {a : Attrs K} (h : Writable ks a) (b : Attrs K) (k : K) :
    setAll b ((hypers ks a).filter fun kv => serializable kv.2) k = if k ∈ ks then a k else b k := by
  rw [setAll_ser]
  by_cases hk : k ∈ ks
  · simp [hk, h k hk]
  · simp [hk]

theorem filter_writable {ks : List K} {a : Attrs K} (h : Writable ks a) :
    ((hypers ks a).filter fun kv => serializable kv.2) = hypers ks a := by
  rw [List.filter_eq_self]
  intro kv hkv
  simp only [hypers, List.mem_map] at hkv
  obtain ⟨k, hk, rfl⟩ := hkv
  exact h k hk

theorem setAll_none {h : List (K × PyVal)} {a : Attrs K} {k : K} (hk : k ∉ h.map Prod.fst) : setAll a h k = a k := by
  induction h generalizing a with
  | nil => rfl
  | cons kv h ih =>
    simp only [List.map_cons, List.mem_cons, not_or] at hk
    have : setAll a (kv :: h) = setAll (setAttr a kv.1 kv.2) h := rfl
    rw [this, ih hk.2]
    simp [setAttr, hk.1]

theorem obj_none {h : List (Attr × PyVal)} {k : Attr} (hk : k ∉ h.map Prod.fst) : obj h k = .none := setAll_none hk

/-- Restoring into a fresh object all hyperparameters of an object that has no other attributes. -/
theorem restore_all {ks : List Attr} {fresh : List (Attr × PyVal)} {a : Attrs Attr} (hw : Writable ks a) (ho : Only ks a)
    (hf : ∀ k ∈ fresh.map Prod.fst, k ∈ ks) :
    setAll (obj fresh) ((hypers ks a).filter fun kv => serializable kv.2) = a := by
  funext k
  rw [setAll_writable hw]
  split_ifs with h
  · rfl
  · rw [ho k h, obj_none fun hm => h (hf k hm)]

/-- The same with one parameter attribute. -/
theorem restore_but {ks : List Attr} {fresh : List (Attr × PyVal)} {a : Attrs Attr} {p : Attr} (hw : Writable ks a)
    (ho : Only (p :: ks) a) (hf : ∀ k ∈ fresh.map Prod.fst, k ∈ ks) :
    ∀ k, k ≠ p → setAll (obj fresh) ((hypers ks a).filter fun kv => serializable kv.2) k = a k := by
  intro k hk
  rw [setAll_writable hw]
  split_ifs with h
  · rfl
  · rw [ho k (by simp [hk, h]), obj_none fun hm => h (hf k hm)]

theorem setAttr_eq {a b : Attrs K} {p : K} (h : ∀ k, k ≠ p → b k = a k) : setAttr b p (a p) = a := by
  funext k
  unfold setAttr
  split_ifs with hk
  · rw [hk]
  · exact h k hk

theorem serialize_new_package (pkg : Str) (c : Cls K) (m : MObj K) : (serialize pkg c m).package = pkg := rfl

/-- `copy` without the version checks. -/
theorem copy_eq (pkg : Str) (c : Cls K) (m : MObj K) :
    copy pkg c m = match c.setHyper c.freshTrainable c.fresh
        ((c.getHyper m.trainable m.attrs).filter fun kv => serializable kv.2) with
      | .error e => .error e
      | .ok a₁ => match setUnlessNone c.setParams a₁ (c.getParams m.attrs) with
        | .error e => .error e
        | .ok a₂ => match setUnlessNone c.setState a₂ (c.getState m.attrs) with
          | .error e => .error e
          | .ok a₃ => .ok { attrs := a₃, trainable := m.trainable } := by
  simp [copy, deserialize, serialize, Cls.new]
  rfl

/-- Plain classes. -/
theorem copy_plain (pkg : Str) (nm : String) (fresh : List (Attr × PyVal)) (ks : List Attr) (m : MObj Attr) :
    copy pkg (plainCls nm fresh ks) m
      = .ok { m with attrs := setAll (obj fresh) ((hypers ks m.attrs).filter fun kv => serializable kv.2) } := by
  rw [copy_eq]
  simp [plainCls, setUnlessNone, ignore]

/-- Guarded classes: the parameters are set on the object with the restored hyperparameters. -/
theorem copy_guarded (pkg : Str) (nm : String) (fresh : List (Attr × PyVal)) (ks : List Attr) (p : Attr)
    (setP : Attrs Attr → PyVal → Except PyErr (Attrs Attr)) (m : MObj Attr) (hp : p ∉ fresh.map Prod.fst) :
    copy pkg (guardedCls nm fresh ks p setP) m
      = match setUnlessNone setP (setAll (obj fresh) ((hypers ks m.attrs).filter fun kv => serializable kv.2))
          (m.attrs p) with
        | .error e => .error e
        | .ok a => .ok { m with attrs := a } := by
  rw [copy_eq]
  simp only [guardedCls, setHyperBefore, obj_none hp]
  generalize setUnlessNone setP _ (m.attrs p) = r
  cases r with
  | error e => rfl
  | ok a => simp [setUnlessNone, ignore]

end Verif.Ser
