import Verif.Model.ModelLib
import Verif.Model.Nested

/-!
# Model of calling a model that may have been loaded

Mirrors `/repo/parametricmatrixmodels/model.py` lines 281-302 and 337-363 (parameters and state), 398-399 (`get_rng`), 492-508 (`_verify_input`), 510-631 (`__call__`), and how the callables of
`sequentialmodel.py` lines 299-332 and `nonsequentialmodel.py` lines 737-925 use the attributes of a model, for the objects of `Verif.Model.ModelFile`. A `NonSequentialModel` calls its modules in the execution
order that `compile` has stored, while the inputs of the modules are listed in an order that is computed anew.

As in `Verif.Model.Nested`, the parameters and the states of the modules are kept apart in the trees of those of a model.
Simplifications: one call of a new function, not split into batches (see `Verif.Model.Predict` and `Verif.Model.Batch`); a random key is given by its data, so that a raw key and a typed key with the same data draw the same
numbers.
-/

namespace Verif
namespace Loaded
open Tree Ser ModelSer Forward
open Nested (ValAt)

variable {σ D A P S K X M : Type}

/-- The texts of a list (graph_util.py:449-454). Other values raise. -/
def pathList : List (Tree Str) → Except PyErr (List Str)
  | [] => .ok []
  | .leaf s :: ts => match pathList ts with
    | .error e => .error e
    | .ok l => .ok (s :: l)
  | _ :: _ => .error .typeError

/-- A single text stands for the list of it (graph_util.py:449-454). -/
def targets : Tree Str → Except PyErr (List Str)
  | .leaf s => .ok [s]
  | .list ts => pathList ts
  | .tuple ts => pathList ts
  | _ => .error .typeError

/-- The entries of the dictionary of connections (graph_util.py:449-454). -/
def connEntries : List (Str × Tree Str) → Except PyErr (List (Str × List Str))
  | [] => .ok []
  | (k, t) :: rest => match targets t with
    | .error e => .error e
    | .ok l => match connEntries rest with
      | .error e => .error e
      | .ok r => .ok ((k, l) :: r)

/-- The dictionary of connections in the form `{key: [values]}` (graph_util.py:449-454; nonsequentialmodel.py:256, 304-310, 543-549). -/
def connList : Tree Str → Except PyErr (List (Str × List Str))
  | .dict kvs => connEntries kvs
  | _ => .error .typeError

/-- The callable of a `NonSequentialModel` with a stored execution order (nonsequentialmodel.py:798-925). The inputs are those for the order computed by `get_execution_order` (nonsequentialmodel.py:541, 820-822). -/
def nsStored (sig : Sig M P S K X) (sep : Char) (fresh : Str → Nat → Nat → Str) (modules : Tree M) (conn : List (Str × List Str)) (order : List Str) (params : Tree P) (data : Tree X) (training : Bool)
    (state : Tree S) (rng : K) : Except PyErr (Tree X × Tree S) :=
  match mapE (leafAt sep modules) (order.filter (!reserved ·)) with
  | .error e => .error e
  | .ok mods =>
    match inputDeps sep fresh modules conn with
    | .error e => .error e
    | .ok (deps, outDeps) =>
      match nsInit sep order data with
      | .error e => .error e
      | .ok outs =>
        match nsLoop sep (callStep sig sep params training rng) (order.zip ((Option.none :: mods.map some).zip (.none :: deps))) outs state with
        | .error e => .error e
        | .ok (outs', st') =>
          match assemble sep outs' outDeps with
          | .error e => .error e
          | .ok out => .ok (out, st')

/-- The callable of a model (sequentialmodel.py:299-332; nonsequentialmodel.py:798-925). -/
def modelCall (sig : Sig σ P S K X) (fresh : Str → Nat → Nat → Str) (M : Mdl σ A) (params : Tree P) (data : Tree X) (training : Bool) (state : Tree S) (rng : K) : Except PyErr (Tree X × Tree S) :=
  match M.kind with
  | .seq => seqCall sig M.modules params data training state rng
  | .nonseq Option.none _ _ => .error .runtimeError
  | .nonseq (some order) conns sep => match connList conns with
    | .error e => .error e
    | .ok conn => nsStored sig sep fresh M.modules conn order params data training state rng

/-- The methods of a model that calls use (model.py:48); compiling is not used. -/
def callSig (fresh : Str → Nat → Nat → Str) (sig : Sig σ P S K X) : Sig (Mdl σ A) (Tree P) (Tree S) K X where
  call := modelCall sig fresh
  outShape _ _ := .error .runtimeError
  compile _ _ _ := .error .runtimeError
  split := sig.split
  splitN := sig.splitN

/-- The methods of modules with models nested up to depth `n` (model.py:48). -/
def callAt (fresh : Str → Nat → Nat → Str) (sig : Sig σ P S K X) : ∀ n, Sig (Obj σ A n) (ValAt P n) (ValAt S n) K X
  | 0 => sig
  | n + 1 => Nested.sumSig sig (callSig fresh (callAt fresh sig n))

/-- `get_params` (model.py:281-302). -/
def paramsAt (ops : Ops σ D) : ∀ n, Obj σ A n → ValAt PyVal n
  | 0 => ops.getParams
  | n + 1 => Sum.map ops.getParams fun M => map (paramsAt ops n) M.modules.norm

/-- `None` as the state of a module that is not ready (nonsequentialmodel.py:948-952). -/
def noState : ∀ n, ValAt PyVal n
  | 0 => .none
  | _ + 1 => .inl .none

/-- `get_state` of a model whose modules have these states (model.py:337-363; nonsequentialmodel.py:927-957). -/
def stateOf (ops : Ops σ D) (get : σ → Except PyErr S) (no : S) (M : Mdl σ A) : Except PyErr (Tree S) :=
  match M.kind with
  | .seq => mapM (fun m => (get m).map .leaf) M.modules.norm
  | .nonseq _ _ _ =>
    if ModelSer.ready ops M then mapM (fun m => if ops.ready m then (get m).map .leaf else .ok (.leaf no)) M.modules.norm
    else .error .runtimeError

/-- `get_state` (model.py:337-363; nonsequentialmodel.py:927-957). -/
def stateAt (ops : Ops σ D) (w r : Str) : ∀ n, Obj σ A n → Except PyErr (ValAt PyVal n)
  | 0 => ops.getState
  | n + 1 => Sum.elim (fun m => (ops.getState m).map .inl) fun M => (stateOf (opsAt ops w r n) (stateAt ops w r n) (noState n) M).map .inr

/-- The argument `rng` (model.py:587-590): missing, a seed, or a key. -/
inductive RngArg where
  | own
  | seed (i : Int)
  | key (k : Key)

/-- What calls need to know about the arrays (model.py:492-508, 584-590): `tree_util.all_equal(self.input_shape, get_shapes(X, axis=slice(1, None)))`, `safecast(X, dtype)`, `jax.random.key(seed)`. -/
structure Env (X : Type) where
  fits : Tree Int → Tree X → Bool
  cast : Str → Tree X → Except PyErr (Tree X)
  seed : Int → Nat

/-- The key of a call (model.py:587-590). -/
def theKey (env : Env X) (own : Key) : RngArg → Except PyErr Nat
  | .own => keyData own
  | .seed i => .ok (env.seed i)
  | .key k => keyData k

/-- `model(X, dtype=..., rng=..., return_state=True)` (model.py:510-631) for a model whose modules are nested up to depth `n`. -/
def call (ops : Ops σ D) (w r : Str) (fresh : Str → Nat → Nat → Str) (sig : Sig σ PyVal PyVal Nat X) (env : Env X) (n : Nat) (M : Mdl (Obj σ A n) A) (data : Tree X) (dtype : Str) (rng : RngArg) :
    Except PyErr (Tree X × Tree (ValAt PyVal n)) :=
  if !ModelSer.ready (opsAt ops w r n) M then .error .runtimeError
  else if !env.fits M.inShape data then .error .valueError
  else match env.cast dtype data with
    | .error e => .error e
    | .ok data' => match theKey env M.rng rng with
      | .error e => .error e
      | .ok key => match stateOf (opsAt ops w r n) (stateAt ops w r n) (noState n) M with
        | .error e => .error e
        | .ok state => modelCall (callAt fresh sig n) fresh M (map (paramsAt ops n) M.modules.norm) data' false state key

end Loaded
end Verif
