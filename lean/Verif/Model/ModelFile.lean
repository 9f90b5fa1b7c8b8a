import Verif.Model.Serialize
import Verif.Model.OptState
import Verif.Model.Npz

/-!
# Model of saving and loading models

Mirrors `/repo/parametricmatrixmodels/model.py` lines 281-396 (parameters and state), 1529-1578 (hyperparameters), 1580-1741 (`serialize`, `deserialize`), 1743-1825 (`save`, `load`)
and `/repo/parametricmatrixmodels/nonsequentialmodel.py` lines 339-370 (`is_ready`), 927-978 (state and hyperparameters).

The methods of the modules are a parameter (`Ops`); a model is again a module (`modelOps`), so models can be nested to any depth (`Obj`). Modules are values: that one module object sits at
two places of a tree is not modelled. The methods that change modules in place return the changed modules; the dictionaries of the tree are then in key order, which in the code they
are after `deserialize` but need not be before. Compiled functions are not part of the state; `deserialize` drops them.
-/

namespace Verif
namespace ModelSer
open Tree Ser

/-- The methods of a module that saving and loading uses, for objects of type `σ` and serialised data of type `D`: name of class and of its Python module, the constructor without
arguments of the class with these names, `serialize`, `deserialize` (with `strict_package_version`), the parameters, the state, and `is_ready` (basemodule.py:736-892; model.py:1591-1602, 1682-1697). -/
structure Ops (σ D : Type) where
  cls : σ → Str × Str
  create : Str × Str → Except PyErr σ
  ser : σ → Except PyErr D
  deser : Bool → σ → D → Except PyErr σ
  getParams : σ → PyVal
  setParams : σ → PyVal → Except PyErr σ
  getState : σ → Except PyErr PyVal
  setState : σ → PyVal → Except PyErr σ
  ready : σ → Bool

/-- The random key of a model: a typed key of the default kind, the raw data of a key (`jax.random.PRNGKey`), or anything else a user stored (model.py:128-133, 401-418). -/
inductive Key where
  | typed (k : Nat)
  | raw (k : Nat)
  | other
  deriving DecidableEq

/-- `jax.random.key_data` (model.py:1607). -/
def keyData : Key → Except PyErr Nat
  | .typed k => .ok k
  | .raw k => .ok k
  | .other => .error .typeError

/-- `jax.random.wrap_key_data` (model.py:1710). -/
def wrapKey (k : Nat) : Key := .typed k

/-- The class of a model, with the attributes only `NonSequentialModel` has: execution order (`None` before `compile`), connections and separator (sequentialmodel.py:50; nonsequentialmodel.py:65, 959-978). -/
inductive Kind where
  | seq
  | nonseq (order : Option (List Str)) (conns : Tree Str) (sep : Char)

/-- The attributes of a model (model.py:97-134). Shapes are trees of integers, `None` before `compile`. `A` is the type of the arrays in the optimiser state. -/
structure Mdl (σ A : Type) where
  kind : Kind
  modules : Tree σ
  rng : Key
  name : Option Str
  inShape : Tree Int
  outShape : Tree Int
  opt : Option (Tree (OptState.St A))

/-- The names of the hyperparameters of a model. (`rng` and `_optimizer_state` are removed again before they are used, model.py:1728-1731, and are left out.) -/
inductive HKey where
  | modules | inputShape | outputShape | executionOrder | connections | separator
  deriving DecidableEq, Repr

/-- What `Model.serialize` returns (model.py:1624-1637), without the names that are never read. -/
structure MData (D A : Type) where
  name : Option Str
  typenames : Tree Str
  modnames : Tree Str
  parts : Tree D
  struct : Tree Unit
  key : Nat
  opt : Option (List (List (Str × OptState.Field A)))
  optStruct : Tree Unit
  package : Str
  own : Data HKey

variable {σ D A : Type}

/-- A tree without leaves as a tree of another type (model.py:1539; basemodule.py:769-780). -/
def recast {α β : Type} (t : Tree α) : Tree β := Tree.bind (fun _ => .none) t

/-- The execution order as a value (nonsequentialmodel.py:961). -/
def orderVal : Option (List Str) → PyVal
  | Option.none => .none
  | some l => .list (l.map fun s => .leaf (.str s))

/-- A text of a value. (The code does not check the types.) (nonsequentialmodel.py:970-974). -/
def atomStr : Atom → Str
  | .str s => s
  | _ => []

/-- An integer of a value (nonsequentialmodel.py:975-976; model.py:1562-1563). -/
def atomInt : Atom → Int
  | .int i => i
  | _ => 0

/-- A text (nonsequentialmodel.py:970-974). -/
def strOf : PyVal → Str
  | .leaf a => atomStr a
  | _ => []

/-- A value as an execution order (nonsequentialmodel.py:970-972). -/
def valOrder : PyVal → Option (List Str)
  | .list ts => some (ts.map strOf)
  | _ => Option.none

/-- The separator of a value (nonsequentialmodel.py:974). -/
def valSep (d : Char) : PyVal → Char
  | .leaf (.str [c]) => c
  | _ => d

/-- The hyperparameters that only `NonSequentialModel` has (nonsequentialmodel.py:959-967). -/
def kindHyper : Kind → List (HKey × PyVal)
  | .seq => []
  | .nonseq order conns sep => [(.executionOrder, orderVal order), (.connections, map Atom.str conns), (.separator, .leaf (.str [sep]))]

/-- The hyperparameters that can be written (nonsequentialmodel.py:959-967, model.py:1529-1544, basemodule.py:785-788): the tree of modules only if it has no leaves. -/
def writtenHyper (M : Mdl σ A) : List (HKey × PyVal) :=
  ((kindHyper M.kind ++ [(HKey.inputShape, map Atom.int M.inShape), (HKey.outputShape, map Atom.int M.outShape)]).filter fun kv => serializable kv.2) ++
    if M.modules.flat.isEmpty then [(.modules, recast M.modules)] else []

/-- The attributes of `NonSequentialModel` (nonsequentialmodel.py:969-978). -/
def setKind (h : List (HKey × PyVal)) : Kind → Kind
  | .seq => .seq
  | .nonseq order conns sep => .nonseq (((h.lookup .executionOrder).map valOrder).getD order) (((h.lookup .connections).map (map atomStr)).getD conns)
      (((h.lookup .separator).map (valSep sep)).getD sep)

/-- `set_hyperparameters` (nonsequentialmodel.py:969-978, model.py:1546-1578). -/
def setHyper (M : Mdl σ A) (h : List (HKey × PyVal)) : Except PyErr (Mdl σ A) :=
  match h.lookup .inputShape, h.lookup .outputShape with
  | some i, some o => .ok { M with
      kind := setKind h M.kind
      modules := match h.lookup .modules with
        | some .none => M.modules
        | some t => recast t
        | Option.none => M.modules
      inShape := map atomInt i
      outShape := map atomInt o }
  | _, _ => .error .keyError

/-- `get_params` (model.py:281-302). -/
def getParams (ops : Ops σ D) (M : Mdl σ A) : PyVal := Tree.bind ops.getParams M.modules.norm

/-- One module of `jax.tree.map` (model.py:1591-1602). -/
def onModule (f : σ → PyVal → Except PyErr σ) (m : σ) : List PyVal → Except PyErr (Tree σ)
  | [p] => match f m p with
    | .error e => .error e
    | .ok m' => .ok (.leaf m')
  | _ => .error .typeError

/-- `set_params` (model.py:304-335). -/
def setParams (ops : Ops σ D) (M : Mdl σ A) (p : PyVal) : Except PyErr (Mdl σ A) :=
  match jaxMap (onModule ops.setParams) M.modules [p] with
  | .error e => .error e
  | .ok t => .ok { M with modules := t }

/-- `set_state` (model.py:365-396). -/
def setState (ops : Ops σ D) (M : Mdl σ A) (s : PyVal) : Except PyErr (Mdl σ A) :=
  match s with
  | .none => .ok M
  | s => match jaxMap (onModule ops.setState) M.modules [s] with
    | .error _ => .error .valueError
    | .ok t => .ok { M with modules := t }

/-- A module on the path is ready. (Where the path leads to no module the code raises.) (nonsequentialmodel.py:356-366). -/
def pathReady (ops : Ops σ D) (t : Tree σ) (sep : Char) (p : Str) : Bool :=
  if p = "input".toList ∨ p = "output".toList then true
  else match Tree.get t (splitOn sep p) with
    | .ok (.leaf m) => ops.ready m
    | _ => false

/-- `is_ready` (model.py:157-165, nonsequentialmodel.py:339-370). -/
def ready (ops : Ops σ D) (M : Mdl σ A) : Bool :=
  (match M.kind with
    | .seq => !(jaxLeaves M.modules).isEmpty && (jaxLeaves M.modules).all ops.ready
    | .nonseq Option.none _ _ => false
    | .nonseq (some l) _ sep => l.all (pathReady ops M.modules sep)) && !M.inShape.isNone && !M.outShape.isNone

/-- The state of a module in a `NonSequentialModel` (nonsequentialmodel.py:948-952). -/
def stateOrNone (ops : Ops σ D) (m : σ) : Except PyErr PyVal := if ops.ready m then ops.getState m else .ok .none

/-- `get_state` (model.py:337-363, nonsequentialmodel.py:927-957). -/
def getState (ops : Ops σ D) (M : Mdl σ A) : Except PyErr PyVal :=
  match M.kind with
  | .seq => mapM ops.getState M.modules.norm
  | .nonseq _ _ _ => if ready ops M then mapM (stateOrNone ops) M.modules.norm else .error .runtimeError

/-- The data of one module (model.py:1594-1602). -/
def serLeaf (ops : Ops σ D) (m : σ) : Except PyErr (Tree D) :=
  match ops.ser m with
  | .error e => .error e
  | .ok d => .ok (.leaf d)

/-- `Model.serialize` (model.py:1580-1637); `pkg` is `pmm.__version__`. -/
def serialize (ops : Ops σ D) (pkg : Str) (M : Mdl σ A) : Except PyErr (MData D A) :=
  match mapM (serLeaf ops) M.modules.norm, keyData M.rng, getState ops M with
  | .ok parts, .ok key, .ok state => .ok {
      name := M.name
      typenames := map (fun m => (ops.cls m).1) M.modules.norm
      modnames := map (fun m => (ops.cls m).2) M.modules.norm
      parts := parts
      struct := map (fun _ => ()) M.modules.norm
      key := key
      opt := OptState.pack M.opt
      optStruct := map (fun _ => ()) (getParams ops M)
      package := pkg
      own := { name := [], hyper := writtenHyper M, params := getParams ops M, state := state, trainable := Option.none, package := pkg, version := "0.0.0".toList } }
  | .error e, _, _ => .error e
  | _, .error e, _ => .error e
  | _, _, .error e => .error e

/-- One new module (model.py:1681-1688). -/
def newLeaf (ops : Ops σ D) (n : Str) : List (Tree Str) → Except PyErr (Tree σ)
  | [.leaf m] => match ops.create (n, m) with
    | .error e => .error e
    | .ok a => .ok (.leaf a)
  | _ => .error .typeError

/-- `deserialize` of one module (model.py:1690-1697). -/
def deserLeaf (ops : Ops σ D) (strict : Bool) (m : σ) : List (Tree D) → Except PyErr (Tree σ)
  | [.leaf d] => match ops.deser strict m d with
    | .error e => .error e
    | .ok a => .ok (.leaf a)
  | _ => .error .typeError

/-- `if v is not None: setter(v)` (basemodule.py:882-889). -/
def unlessNone (f : Mdl σ A → PyVal → Except PyErr (Mdl σ A)) (M : Mdl σ A) : PyVal → Except PyErr (Mdl σ A)
  | .none => .ok M
  | v => f M v

/-- `BaseModule.deserialize` of a model (model.py:1737-1741, basemodule.py:826-892). -/
def ownDeserialize (ops : Ops σ D) (pkg : Str) (strict : Bool) (M : Mdl σ A) (d : Data HKey) : Except PyErr (Mdl σ A) :=
  if pkg ≠ d.package ∧ strict = true then .error .valueError
  else match setHyper M d.hyper with
    | .error e => .error e
    | .ok M₁ => match unlessNone (setParams ops) M₁ d.params with
      | .error e => .error e
      | .ok M₂ => unlessNone (setState ops) M₂ d.state

/-- `Model.deserialize` (model.py:1639-1741) of a model `M`, of which only the class and the attributes of `NonSequentialModel` remain. -/
def deserialize (ops : Ops σ D) (pkg : Str) (strict : Bool) (M : Mdl σ A) (d : MData D A) : Except PyErr (Mdl σ A) :=
  if pkg ≠ d.package ∧ strict = true then .error .valueError
  else match jaxMap (newLeaf ops) d.typenames [d.modnames] with
    | .error e => .error e
    | .ok ms => match jaxMap (deserLeaf ops strict) ms [d.parts] with
      | .error e => .error e
      | .ok ms => if sameStruct ms.norm d.struct.norm = false then .error .valueError
        else match OptState.unpack d.optStruct d.opt with
          | .error e => .error e
          | .ok opt => ownDeserialize ops pkg strict
              { kind := M.kind, modules := ms, rng := wrapKey d.key, name := d.name, inShape := .none, outShape := .none, opt := opt } d.own

/-- The class name and Python module of a model (model.py:1594-1597). -/
def kindCls : Kind → Str × Str
  | .seq => ("SequentialModel".toList, "parametricmatrixmodels.sequentialmodel".toList)
  | .nonseq _ _ _ => ("NonSequentialModel".toList, "parametricmatrixmodels.nonsequentialmodel".toList)

/-- `SequentialModel()` and `NonSequentialModel()` (model.py:97-134, nonsequentialmodel.py:65-). (The key is random in the code; `deserialize` replaces it.) -/
def createModel (n : Str × Str) : Except PyErr (Mdl σ A) :=
  if n = kindCls .seq then .ok ⟨.seq, .list [], .typed 0, Option.none, .none, .none, Option.none⟩
  else if n = kindCls (.nonseq Option.none .none '.') then .ok ⟨.nonseq Option.none (.dict []) '.', .dict [], .typed 0, Option.none, .none, .none, Option.none⟩
  else .error .keyError

/-- A model is a module. `w` is the package version of the writer, `r` that of the reader (model.py:157-165, 281-396, 1581-1741). -/
def modelOps (ops : Ops σ D) (w r : Str) : Ops (Mdl σ A) (MData D A) where
  cls := fun M => kindCls M.kind
  create := createModel
  ser := serialize ops w
  deser := deserialize ops r
  getParams := getParams ops
  setParams := setParams ops
  getState := getState ops
  setState := setState ops
  ready := ready ops

/-- Two kinds of modules together (model.py:1591-1602, 1682-1697). -/
def sumOps {τ E : Type} (a : Ops σ D) (b : Ops τ E) : Ops (σ ⊕ τ) (D ⊕ E) where
  cls := Sum.elim a.cls b.cls
  create := fun n => match b.create n with
    | .ok x => .ok (.inr x)
    | .error _ => match a.create n with
      | .ok x => .ok (.inl x)
      | .error e => .error e
  ser := Sum.elim (fun x => (a.ser x).map .inl) fun x => (b.ser x).map .inr
  deser := fun s x d => match x, d with
    | .inl x, .inl d => (a.deser s x d).map .inl
    | .inr x, .inr d => (b.deser s x d).map .inr
    | _, _ => .error .keyError
  getParams := Sum.elim a.getParams b.getParams
  setParams := fun x v => match x with
    | .inl x => (a.setParams x v).map .inl
    | .inr x => (b.setParams x v).map .inr
  getState := Sum.elim a.getState b.getState
  setState := fun x v => match x with
    | .inl x => (a.setState x v).map .inl
    | .inr x => (b.setState x v).map .inr
  ready := Sum.elim a.ready b.ready

/-- Modules with models nested up to depth `n` (model.py:1591-1602). -/
def Obj (σ A : Type) : Nat → Type
  | 0 => σ
  | n + 1 => σ ⊕ Mdl (Obj σ A n) A

/-- Their serialised data (model.py:1600-1602). -/
def Dat (D A : Type) : Nat → Type
  | 0 => D
  | n + 1 => D ⊕ MData (Dat D A n) A

/-- Their methods (model.py:1591-1602, 1682-1697). -/
def opsAt (ops : Ops σ D) (w r : Str) : ∀ n, Ops (Obj σ A n) (Dat D A n)
  | 0 => ops
  | n + 1 => sumOps ops (modelOps (opsAt ops w r n) w r)

end ModelSer
end Verif
