import Verif.Model.JaxTree

/-!
# Editing, readiness and float counts of models

Models the editing methods, `reset`, `is_ready`, `compile`, `__call__`'s guards and `get_num_trainable_floats` of
`/repo/parametricmatrixmodels/model.py` and the overrides in `sequentialmodel.py` and `nonsequentialmodel.py`.

A model holds a PyTree of *references* to module objects (natural numbers); the objects live in a heap. Containers are values
here (their sharing is modelled separately, see `Model/EditHeap.lean`). Not modelled: slices with a step, subscripting into a
nested model, the warnings and the `verbose` output.
-/

namespace Verif.Edit

/-- What the model code uses of a module object, of shapes, and (for non-sequential models) of the scheduling code, which is
modelled in `Model/Forward.lean` (model.py:147-263). -/
structure Sig (M S : Type) where
  /-- `module.is_ready()` -/
  ready : M → Bool
  /-- `module.compile(rng, shape)`: the object after the call and the exception it raised, if any. Simplification: the random
  key is omitted. -/
  compile : M → S → M × Option PyErr
  /-- `module.get_output_shape(shape)` -/
  outShape : M → S → Except PyErr S
  /-- `len(output_shape) < 1` -/
  scalar : S → Bool
  /-- `tree_util.all_equal` on shapes -/
  shapeEq : S → S → Bool
  /-- `module.get_num_trainable_floats()` -/
  numFloats : M → Option Nat
  /-- `module.trainable` -/
  trainable : M → Bool
  /-- `module.trainable = value` -/
  setTrainable : Bool → M → M
  /-- `get_execution_order` followed by the look-up of each scheduled path (nonsequentialmodel.py:292-329, 350-370). -/
  schedule : Tree Nat → Except PyErr (List Nat)
  /-- `_get_shape_progression`: the input shape of each scheduled module and the output shape
  (nonsequentialmodel.py:443-445). -/
  progression : (Nat → M) → List Nat → S → Except PyErr (List S × S)

/-- The class of the model (sequentialmodel.py:50; nonsequentialmodel.py:65). -/
inductive Kind where
  | sequential | nonSequential
  deriving DecidableEq

/-- Attributes of a model object (model.py:126-134, 192-207; nonsequentialmodel.py:331-337). `callable` is the module tree the
cached callable was built from. The six other caches are set and cleared together with it and are omitted. -/
structure Mdl (S : Type) where
  modules : Tree Nat
  inShape : Option S
  outShape : Option S
  callable : Option (Tree Nat)
  optState : Bool
  order : Option (List Nat)

/-- A model and the heap of module objects (model.py:97-134). -/
structure World (M S : Type) where
  heap : Nat → M
  mdl : Mdl S

variable {M S : Type}

/-- `reset` (model.py:192-207; nonsequentialmodel.py:331-337). -/
def reset (m : Mdl S) : Mdl S :=
  { m with inShape := none, outShape := none, callable := none, optState := false, order := none }

/-- `Model.__init__(modules)` (model.py:126-134) for a PyTree of modules. -/
def init (modules : Tree Nat) : Mdl S :=
  reset ⟨modules, none, none, none, false, none⟩

/-! ### Python sequence indices -/

/-- The position `seq[i]` refers to in a sequence of length `n`; `none` for an `IndexError` (model.py:1297, 1336, 1456-1458). -/
def pyIdx (n : Nat) (i : Int) : Option Nat :=
  if 0 ≤ i then (if i.toNat < n then some i.toNat else none)
  else if (n : Int) + i < 0 then none else some ((n : Int) + i).toNat

/-- The position a slice bound or `list.insert` index `i` refers to: negative ones count from the end, then clamp (model.py:1297, 1371-1374, 1459). -/
def clampIdx (n : Nat) (i : Int) : Nat :=
  if 0 ≤ i then min i.toNat n else ((n : Int) + i).toNat

/-- A slice bound `b` that defaults to `d` in a sequence of length `n` (model.py:1297, 1374, 1459). -/
def bound (n d : Nat) : Option Int → Nat
  | some i => clampIdx n i
  | none => d

/-- `seq[a:b]` with optional bounds and no step (model.py:1297, 1374, 1459). -/
def slice {α : Type} (l : List α) (a b : Option Int) : List α :=
  (l.take (bound l.length l.length b)).drop (bound l.length 0 a)

/-- `list.insert(i, x)` (model.py:1368-1371). -/
def pyInsert {α : Type} (l : List α) (i : Int) (x : α) : List α :=
  l.take (clampIdx l.length i) ++ x :: l.drop (clampIdx l.length i)

/-- `list.pop(i)` (model.py:1452-1456). -/
def pyPop {α : Type} (l : List α) (i : Int) : Except PyErr (α × List α) :=
  match pyIdx l.length i with
  | none => .error .indexError
  | some p => match l[p]? with
    | some x => .ok (x, l.take p ++ l.drop (p + 1))
    | none => .error .indexError

/-- `list[i] = x` (model.py:1336). -/
def pySet {α : Type} (l : List α) (i : Int) (x : α) : Except PyErr (List α) :=
  match pyIdx l.length i with
  | none => .error .indexError
  | some p => .ok (l.set p x)

/-- `list[a:b] = xs` (model.py:1336). -/
def pySetSlice {α : Type} (l : List α) (a b : Option Int) (xs : List α) : List α :=
  l.take (bound l.length 0 a) ++ xs ++ l.drop (max (bound l.length 0 a) (bound l.length l.length b))

/-! ### Item assignment -/

/-- Keys of `__getitem__` / `__setitem__` paths (model.py:1269, 1304). -/
inductive Key where
  | str (s : Str) | int (i : Int)

/-- `curr[k]` on a container (model.py:1277-1279, 1317-1318). Simplification: a module is not subscripted. -/
def getKey (t : Tree Nat) (k : Key) : Except PyErr (Tree Nat) :=
  match t, k with
  | .dict kvs, .str s => match kvs.lookup s with
    | some c => .ok c
    | none => .error .keyError
  | .dict _, .int _ => .error .keyError
  | .list ts, .int i | .tuple ts, .int i => match pyIdx ts.length i with
    | some p => match ts[p]? with
      | some c => .ok c
      | none => .error .indexError
    | none => .error .indexError
  | _, _ => .error .typeError

/-- `curr[k] = v` on a container (model.py:1319). -/
def setKey (t : Tree Nat) (k : Key) (v : Tree Nat) : Except PyErr (Tree Nat) :=
  match t, k with
  | .dict kvs, .str s => .ok (.dict (dictSet kvs s v))
  | .list ts, .int i => match pySet ts i v with
    | .ok ts' => .ok (.list ts')
    | .error e => .error e
  | _, _ => .error .typeError

/-- Replace the child `k` refers to, after the child object was changed in place (model.py:1314-1319). -/
def putChild (t : Tree Nat) (k : Key) (c : Tree Nat) : Tree Nat :=
  match t, k with
  | .dict kvs, .str s => .dict (dictSet kvs s c)
  | .list ts, .int i => match pyIdx ts.length i with
    | some p => .list (ts.set p c)
    | none => t
  | .tuple ts, .int i => match pyIdx ts.length i with
    | some p => .tuple (ts.set p c)
    | none => t
  | _, _ => t

/-- `model[key_path] = v` for a tuple of keys (model.py:1314-1319); the empty path fails in `key[~0]` (IndexError). -/
def setKeys : Tree Nat → List Key → Tree Nat → Except PyErr (Tree Nat)
  | _, [], _ => .error .indexError
  | t, [k], v => setKey t k v
  | t, k :: k' :: ks, v => match getKey t k with
    | .error e => .error e
    | .ok c => match setKeys c (k' :: ks) v with
      | .error e => .error e
      | .ok c' => .ok (putChild t k c')

/-- `__getitem__` with a path (model.py:1267-1299). -/
def getKeys : Tree Nat → List Key → Except PyErr (Tree Nat)
  | t, [] => .ok t
  | t, k :: ks => match getKey t k with
    | .error e => .error e
    | .ok c => getKeys c ks

/-! ### Structural edits; they return the new tree or the exception -/

/-- `insert_module` after the reset (model.py:1362-1381). The dictionary branch ends in `Dict(items)` with `Dict` imported
from `typing`, which Python refuses to instantiate (TypeError). -/
def insertT (t : Tree Nat) (i : Int) (m : Nat) : Except PyErr (Tree Nat) :=
  match t with
  | .dict _ => .error .typeError
  | .list ts => .ok (.list (pyInsert ts i (.leaf m)))
  | .tuple ts => .ok (.tuple (slice ts none (some i) ++ .leaf m :: slice ts (some i) none))
  | _ => .error .typeError

/-- `append_module` (model.py:1383-1406): the index is the number of *leaves*. -/
def appendT (t : Tree Nat) (m : Nat) : Except PyErr (Tree Nat) := insertT t (t.jaxLeaves.length : Int) m

/-- `prepend_module` (model.py:1408-1431). -/
def prependT (t : Tree Nat) (m : Nat) : Except PyErr (Tree Nat) := insertT t 0 m

/-- `pop_module_by_index` after the reset (model.py:1448-1466). -/
def popIndexT (t : Tree Nat) (i : Int) : Except PyErr (Tree Nat × Tree Nat) :=
  match t with
  | .dict kvs => match pyPop kvs i with
    | .error e => .error e
    | .ok _ => .error .typeError
  | .list ts => match pyPop ts i with
    | .ok (x, r) => .ok (x, .list r)
    | .error e => .error e
  | .tuple ts => match pyIdx ts.length i with
    | none => .error .indexError
    | some p => match ts[p]? with
      | none => .error .indexError
      | some x => .ok (x, .tuple (slice ts none (some i) ++ slice ts (some (i + 1)) none))
  | _ => .error .typeError

/-- `pop_module_by_key` after the reset (model.py:1483-1501). -/
def popKeyT (t : Tree Nat) (k : Key) : Except PyErr (Tree Nat × Tree Nat) :=
  match k with
  | .str s => match t with
    | .dict kvs => match kvs.lookup s with
      | some c => .ok (c, .dict (kvs.filter fun p => !(p.1 == s)))
      | none => .error .keyError
    | _ => .error .keyError
  | .int i => match t with
    | .list _ | .tuple _ => popIndexT t i
    | _ => .error .keyError

/-- `model[k] = v` for a string or integer key (model.py:1314-1338). -/
def setItemT (t : Tree Nat) (k : Key) (v : Tree Nat) : Except PyErr (Tree Nat) :=
  match k with
  | .str s => match t with
    | .dict kvs => .ok (.dict (dictSet kvs s v))
    | _ => .error .keyError
  | .int i => match t with
    | .list ts => match pySet ts i v with
      | .ok ts' => .ok (.list ts')
      | .error e => .error e
    | .tuple _ => .error .typeError
    | _ => .error .keyError

/-- `model[a:b] = [v, ...]` (model.py:1329-1336). -/
def setSliceT (t : Tree Nat) (a b : Option Int) (vs : List (Tree Nat)) : Except PyErr (Tree Nat) :=
  match t with
  | .list ts => .ok (.list (pySetSlice ts a b vs))
  | .tuple _ => .error .typeError
  | _ => .error .keyError

/-- The editing methods (model.py:1302-1501). -/
inductive EditOp where
  | setAll (t : Tree Nat)
  | setItem (k : Key) (v : Tree Nat)
  | setSlice (a b : Option Int) (vs : List (Tree Nat))
  | setPath (ks : List Key) (v : Tree Nat)
  | insert (i : Int) (m : Nat)
  | append (m : Nat)
  | prepend (m : Nat)
  | popIndex (i : Int)
  | popKey (k : Key)

/-- The effect of an editing method on the module tree: the new tree and the popped entry, if any
(`model[None] = m` with a single module stores `[m]`, model.py:1307-1312). -/
def editT (t : Tree Nat) : EditOp → Except PyErr (Tree Nat × Option (Tree Nat))
  | .setAll (.leaf m) => .ok (.list [.leaf m], none)
  | .setAll u => .ok (u, none)
  | .setItem k v => (setItemT t k v).map fun u => (u, none)
  | .setSlice a b vs => (setSliceT t a b vs).map fun u => (u, none)
  | .setPath ks v => (setKeys t ks v).map fun u => (u, none)
  | .insert i m => (insertT t i m).map fun u => (u, none)
  | .append m => (appendT t m).map fun u => (u, none)
  | .prepend m => (prependT t m).map fun u => (u, none)
  | .popIndex i => (popIndexT t i).map fun r => (r.2, some r.1)
  | .popKey k => (popKeyT t k).map fun r => (r.2, some r.1)

/-- An editing method on a model: it resets the model first, also when it then raises (model.py:1302-1501). -/
def edit (m : Mdl S) (o : EditOp) : Mdl S × Except PyErr (Option (Tree Nat)) :=
  match editT m.modules o with
  | .ok (t, r) => ({ reset m with modules := t }, .ok r)
  | .error e => (reset m, .error e)

/-! ### Readiness, compilation, calls -/

/-- `is_ready` (model.py:157-165; nonsequentialmodel.py:339-370). -/
def isReady (sig : Sig M S) (kind : Kind) (w : World M S) : Bool :=
  match kind with
  | .sequential =>
    decide (0 < w.mdl.modules.jaxLeaves.length) && (w.mdl.modules.jaxLeaves.all fun i => sig.ready (w.heap i))
      && w.mdl.inShape.isSome && w.mdl.outShape.isSome
  | .nonSequential =>
    match w.mdl.order with
    | none => false
    | some ids => (ids.all fun i => sig.ready (w.heap i)) && w.mdl.inShape.isSome && w.mdl.outShape.isSome

/-- Overwrite one object (basemodule.py:61-78, 384-424). -/
def upd {α : Type} (h : Nat → α) (i : Nat) (x : α) : Nat → α := fun j => if j = i then x else h j

/-- The loop of `SequentialModel.compile` (sequentialmodel.py:134-145): the heap after it and the final shape or exception. -/
def seqCompileLoop (sig : Sig M S) : List Nat → (Nat → M) → S → (Nat → M) × Except PyErr S
  | [], h, s => (h, .ok s)
  | i :: is, h, s =>
    match sig.compile (h i) s with
    | (m', some _) => (upd h i m', .error .runtimeError)
    | (m', none) => match sig.outShape m' s with
      | .error e => (upd h i m', .error e)
      | .ok s' => seqCompileLoop sig is (upd h i m') s'

/-- `SequentialModel.compile` (sequentialmodel.py:99-155). -/
def seqCompile (sig : Sig M S) (w : World M S) (s : S) : World M S × Except PyErr Unit :=
  match seqCompileLoop sig w.mdl.modules.jaxLeaves w.heap s with
  | (h, .error e) => (⟨h, { w.mdl with inShape := some s }⟩, .error e)
  | (h, .ok s') =>
    (⟨h, { w.mdl with inShape := some s, outShape := some s' }⟩, if sig.scalar s' then .error .valueError else .ok ())

/-- The loop of `NonSequentialModel.compile` over the scheduled modules (nonsequentialmodel.py:485-521). -/
def nsCompileLoop (sig : Sig M S) : List (Nat × S) → (Nat → M) → (Nat → M) × Except PyErr Unit
  | [], h => (h, .ok ())
  | (i, s) :: r, h =>
    match sig.compile (h i) s with
    | (m', some _) => (upd h i m', .error .runtimeError)
    | (m', none) => nsCompileLoop sig r (upd h i m')

/-- `NonSequentialModel.compile` (nonsequentialmodel.py:372-521). -/
def nsCompile (sig : Sig M S) (w : World M S) (s : S) : World M S × Except PyErr Unit :=
  if isReady sig .nonSequential w then                                         -- 409-430
    match w.mdl.inShape with
    | some s0 => if sig.shapeEq s0 s then (w, .ok ()) else (w, .error .assertionError)
    | none => (w, .ok ())
  else match sig.schedule w.mdl.modules with                                   -- 433
    | .error e => (w, .error e)
    | .ok ids =>
      let m1 := { w.mdl with order := some ids, inShape := some s }
      match sig.progression w.heap ids s with                                  -- 441-445
      | .error e => (⟨w.heap, m1⟩, .error e)
      | .ok (ins, out) =>
        let m2 := { m1 with outShape := some out }
        if sig.scalar out then (⟨w.heap, m2⟩, .error .valueError)              -- 447-453
        else match nsCompileLoop sig (ids.zip ins) w.heap with
          | (h, r) => (⟨h, m2⟩, r)

/-- `compile` of either class (sequentialmodel.py:99-155; nonsequentialmodel.py:372-521). -/
def compile (sig : Sig M S) : Kind → World M S → S → World M S × Except PyErr Unit
  | .sequential => seqCompile sig
  | .nonSequential => nsCompile sig

/-- `__call__` up to the evaluation (model.py:571-579 with `_verify_input`, 492-508): on success, the module tree the callable
in use was built from. `s` is the per-sample shape of the data. -/
def call (sig : Sig M S) (kind : Kind) (w : World M S) (s : S) : World M S × Except PyErr (Tree Nat) :=
  if !isReady sig kind w then (w, .error .runtimeError)
  else match w.mdl.inShape with
    | none => (w, .error .valueError)
    | some s0 =>
      if !sig.shapeEq s0 s then (w, .error .valueError)
      else match w.mdl.callable with
        | some t => (w, .ok t)
        | none => ({ w with mdl := { w.mdl with callable := some w.mdl.modules } }, .ok w.mdl.modules)

/-- `set_hyperparameters` (model.py:1546-1578) restricted to the module tree and the shapes: no `reset`. -/
def load (w : World M S) (t : Tree Nat) (i o : Option S) : World M S :=
  { w with mdl := { w.mdl with modules := t, inShape := i, outShape := o } }

/-- Everything a user can do to a model in a history (model.py:192-263, 1302-1501). -/
inductive Op (S : Type) where
  | edit (o : EditOp)
  | reset
  | compile (s : S)
  | call (s : S)

/-- One step of a history; exceptions are caught by the user, the objects stay as the method left them (model.py:192-263, 1302-1501). -/
def step (sig : Sig M S) (kind : Kind) (w : World M S) : Op S → World M S
  | .edit o => { w with mdl := (edit w.mdl o).1 }
  | .reset => { w with mdl := reset w.mdl }
  | .compile s => (compile sig kind w s).1
  | .call s => (call sig kind w s).1

/-- A history (model.py:192-263, 1302-1501). -/
def run (sig : Sig M S) (kind : Kind) (w : World M S) (ops : List (Op S)) : World M S := ops.foldl (step sig kind) w

/-! ### Counts and the trainable flag -/

/-- `Model.get_num_trainable_floats` (model.py:147-155). -/
def numFloats (sig : Sig M S) (h : Nat → M) (t : Tree Nat) : Option Nat :=
  let ns := t.jaxLeaves.map fun i => sig.numFloats (h i)
  if ns.any Option.isNone then none else some (ns.map fun n => n.getD 0).sum

/-- `Model.trainable` (model.py:86-90). -/
def modelTrainable (sig : Sig M S) (h : Nat → M) (t : Tree Nat) : Bool := t.jaxLeaves.any fun i => sig.trainable (h i)

/-- `Model.trainable = value` (model.py:92-95). -/
def setModelTrainable (sig : Sig M S) (v : Bool) (h : Nat → M) (t : Tree Nat) : Nat → M :=
  t.jaxLeaves.foldl (fun h i => upd h i (sig.setTrainable v (h i))) h

/-- A module as the base class sees it: readiness, the trainable flag, and for each parameter array whether it is complex and
its number of entries (modules/basemodule.py:45-78, 222-249). -/
structure BaseMod where
  ready : Bool
  trainable : Bool
  params : Tree (Bool × Nat)

/-- `BaseModule.get_num_trainable_floats` (modules/basemodule.py:222-249). -/
def baseNumFloats (m : BaseMod) : Option Nat :=
  if !m.ready then none
  else if m.params.jaxLeaves.length = 0 then some 0
  else some (m.params.jaxLeaves.foldl (fun s p => s + (if p.1 then 2 else 1) * p.2) 0)

/-- `freeze` / `unfreeze` (modules/basemodule.py:931-951). -/
def baseSetTrainable (v : Bool) (m : BaseMod) : BaseMod := { m with trainable := v }

end Verif.Edit
