import Verif.Model.ModelFile
import Verif.Spec.Forward

/-!
# What a restored model has to be
-/

namespace Verif
namespace ModelSpec
open Tree Ser ModelSer
open ForwardSpec (KeysOk)

variable {σ D A : Type}

/-- A module that comes back, as `canon m`: its data can be written, the class named in it can be created, and reading the data into the new object (if `strict_package_version` is set, only if the versions are the `same`) gives `canon m`, which has the
parameters and the state of `m`, is ready if `m` is, and does not change when they are set once more (an unready module is also given the state `None`). -/
structure Restorable (same : Prop) (ops : Ops σ D) (canon : σ → σ) (m : σ) : Prop where
  restores : ∃ d m0, ops.ser m = .ok d ∧ ops.create (ops.cls m) = .ok m0 ∧ ∀ strict, (strict = true → same) → ops.deser strict m0 d = .ok (canon m)
  cls : ops.cls (canon m) = ops.cls m
  ready : ops.ready (canon m) = ops.ready m
  params : ops.getParams (canon m) = ops.getParams m
  again : ops.setParams (canon m) (ops.getParams m) = .ok (canon m)
  state : ∃ v, ops.getState m = .ok v ∧ ops.getState (canon m) = .ok v ∧ ops.setState (canon m) v = .ok (canon m)
  unready : ops.ready m = false → ops.setState (canon m) .none = .ok (canon m)

/-- The typed key with the same data. -/
def typedKey : Key → Key
  | .raw k => .typed k
  | k => k

/-- The restored model: the same shapes, name and class attributes, the same modules (each restored) with the dictionaries of the tree in key order, the same random key (typed), and the
same optimiser state, in key order; an empty container as optimiser state becomes `None`. -/
def restored (canon : σ → σ) (M : Mdl σ A) : Mdl σ A where
  kind := M.kind
  modules := map canon M.modules.norm
  rng := typedKey M.rng
  name := M.name
  inShape := M.inShape
  outShape := M.outShape
  opt := if OptState.truthy M.opt then M.opt.map norm else Option.none

/-- A model that can be written: dictionaries without duplicate keys, a JAX key as random key, an optimiser state with the structure of the parameters, and a `NonSequentialModel` has to
be ready. -/
structure Writable (ops : Ops σ D) (M : Mdl σ A) : Prop where
  keys : KeysOk M.modules
  rng : M.rng ≠ .other
  opt : ∀ t, M.opt = some t → OptState.truthy (some t) = true → sameStruct (ModelSer.getParams ops M).norm t.norm = true
  ready : M.kind = .seq ∨ ModelSer.ready ops M = true

/-- All levels of a nested model: the base modules restored by `canon`. -/
def restoredAt (canon : σ → σ) : ∀ n, Obj σ A n → Obj σ A n
  | 0 => canon
  | n + 1 => Sum.map canon (restored (restoredAt canon n))

/-- All models inside can be written and all base modules come back. -/
def AllWritable (ops : Ops σ D) (w r : Str) (canon : σ → σ) : ∀ n, Obj σ A n → Prop
  | 0 => Restorable (w = r) ops canon
  | n + 1 => Sum.elim (Restorable (w = r) ops canon) fun M => Writable (opsAt ops w r n) M ∧ ∀ m ∈ M.modules.flat, AllWritable ops w r canon n m

end ModelSpec
end Verif
