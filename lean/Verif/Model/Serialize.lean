import Verif.Model.JaxTree

/-!
# Serialisation of modules

Mirrors `/repo/parametricmatrixmodels/modules/basemodule.py` lines 480-512 (default `set_hyperparameters`), 566-607 (default
state), 736-824 (`serialize`), 826-892 (`deserialize`), 894-914 (`upgrade`), 916-929 (`copy`), and `typing.py` lines 185-200
(`Serializable`).

Python values are PyTrees of atoms. Floats, complex numbers, keys and other objects are opaque identifiers. An array has its
shape, its realness, the outcome of the `allclose(M, M.conj().T)` test on its last two axes and an opaque content.
Attribute names are the elements of a type `K`; an object is a total map from names to values (`None` where unset).
-/

namespace Verif.Ser

/-- An array value as far as the checks of the setters look at it (basemodule.py:736-783). -/
structure Arr where
  shape : List Nat
  real : Bool
  herm : Bool
  data : Nat
  deriving DecidableEq, Repr

/-- Leaves of Python values. `key` is a typed JAX random key, `obj` any other object (typing.py:187-200; basemodule.py:757-783). -/
inductive Atom where
  | int (i : Int)
  | bool (b : Bool)
  | float (x : Nat)
  | cplx (x : Nat)
  | str (s : Str)
  | arr (a : Arr)
  | key (k : Nat)
  | obj (o : Nat)
  deriving DecidableEq, Repr

/-- Python values (typing.py:187-200). -/
abbrev PyVal := Tree Atom

/-- The element types of `Serializable` (typing.py:187-195). -/
inductive Kind where
  | int | float | bool | str | complex | array
  deriving DecidableEq, Repr

/-- `isinstance(leaf, T)`; a `bool` is an `int` (typing.py:187-200; basemodule.py:763). -/
def Atom.is : Kind → Atom → Bool
  | .int, .int _ => true
  | .int, .bool _ => true
  | .bool, .bool _ => true
  | .float, .float _ => true
  | .complex, .cplx _ => true
  | .str, .str _ => true
  | .array, .arr _ => true
  | _, _ => false

/-- `is_serializable` (basemodule.py:757-783): `None`, a PyTree all of whose leaves have one of the types (`PyTree[T]`), or a
PyTree without leaves. JAX and NumPy arrays are not told apart. -/
def serializable (v : PyVal) : Bool :=
  [Kind.int, .float, .bool, .str, .complex, .array].any fun k => v.flat.all (Atom.is k)

variable {K : Type} [DecidableEq K]

/-- The attributes of an object (basemodule.py:481-512). -/
abbrev Attrs (K : Type) := K → PyVal

/-- `setattr(self, key, value)` (basemodule.py:507-512). -/
def setAttr (a : Attrs K) (k : K) (v : PyVal) : Attrs K := fun k' => if k' = k then v else a k'

/-- Default `set_hyperparameters` (basemodule.py:507-512). -/
def setAll (a : Attrs K) (h : List (K × PyVal)) : Attrs K := h.foldl (fun a kv => setAttr a kv.1 kv.2) a

/-- The hyperparameters named by `ks` (the dictionary displays in the classes' `get_hyperparameters`) (basemodule.py:458-478). -/
def hypers (ks : List K) (a : Attrs K) : List (K × PyVal) := ks.map fun k => (k, a k)

/-- A module class: what `Cls()` creates and the accessors. The flag passed to the accessors of the hyperparameters is
`self.trainable` (basemodule.py:458-607). -/
structure Cls (K : Type) where
  name : Str
  version : Str
  fresh : Attrs K
  freshTrainable : Bool
  getHyper : Bool → Attrs K → List (K × PyVal)
  setHyper : Bool → Attrs K → List (K × PyVal) → Except PyErr (Attrs K)
  getParams : Attrs K → PyVal
  setParams : Attrs K → PyVal → Except PyErr (Attrs K)
  getState : Attrs K → PyVal
  setState : Attrs K → PyVal → Except PyErr (Attrs K)

/-- A module object (basemodule.py:81-99). -/
structure MObj (K : Type) where
  attrs : Attrs K
  trainable : Bool

/-- The dictionary returned by `serialize` (basemodule.py:816-824). `name` is not used by `deserialize`; the class name is
recorded instead of the display name. `trainable` is absent where the model pops it (model.py:1735). -/
structure Data (K : Type) where
  name : Str
  hyper : List (K × PyVal)
  params : PyVal
  state : PyVal
  trainable : Option Bool
  package : Str
  version : Str

/-- `Cls()` (model.py:1683-1685). -/
def Cls.new (c : Cls K) : MObj K := { attrs := c.fresh, trainable := c.freshTrainable }

/-- `BaseModule.serialize` (basemodule.py:736-824); `pkg` is `pmm.__version__`. The warning is not modelled. -/
def serialize (pkg : Str) (c : Cls K) (m : MObj K) : Data K where
  name := c.name
  hyper := (c.getHyper m.trainable m.attrs).filter fun kv => serializable kv.2
  params := c.getParams m.attrs
  state := c.getState m.attrs
  trainable := some m.trainable
  package := pkg
  version := c.version

/-- `upgrade` (basemodule.py:894-914): the default returns the data unchanged. -/
def upgrade (d : Data K) : Data K := d

/-- `if v is not None: setter(v)` (basemodule.py:879-892). -/
def setUnlessNone (f : Attrs K → PyVal → Except PyErr (Attrs K)) (a : Attrs K) : PyVal → Except PyErr (Attrs K)
  | .none => .ok a
  | v => f a v

/-- `BaseModule.deserialize` (basemodule.py:826-892). -/
def deserialize (pkg : Str) (strict : Bool) (c : Cls K) (m : MObj K) (d₀ : Data K) : Except PyErr (MObj K) :=
  if pkg ≠ d₀.package ∧ strict = true then .error .valueError                 -- 859-870
  else
    let d := if d₀.version ≠ c.version then upgrade d₀ else d₀                -- 872-876
    match c.setHyper m.trainable m.attrs d.hyper with                         -- 879
    | .error e => .error e
    | .ok a₁ => match setUnlessNone c.setParams a₁ d.params with              -- 882-884
      | .error e => .error e
      | .ok a₂ => match setUnlessNone c.setState a₂ d.state with              -- 887-889
        | .error e => .error e
        | .ok a₃ => .ok { attrs := a₃, trainable := d.trainable.getD m.trainable }   -- 892-894

/-- `copy` (basemodule.py:916-929). -/
def copy (pkg : Str) (c : Cls K) (m : MObj K) : Except PyErr (MObj K) :=
  deserialize pkg false c c.new (serialize pkg c m)

end Verif.Ser
