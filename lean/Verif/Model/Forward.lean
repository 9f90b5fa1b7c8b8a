import Verif.Model.JaxTree
import Verif.Model.Connections
import Verif.Model.Graph

/-!
# Forward pass and shape inference of sequential and non-sequential models

Mirrors `/repo/parametricmatrixmodels/sequentialmodel.py` lines 99-334 and `nonsequentialmodel.py` lines 292-925.

A module is an element of an abstract type `M`; what it computes, how it infers shapes and how it compiles are given by
functions that may raise. Data is a tree with leaves in `A`, shapes are trees with leaves in `Shape`. A module's parameters
and its state are opaque values that sit at the module's place in the parameter and state trees. Simplifications: the
`is_leaf=is_shape_leaf` arguments have no effect because shapes are leaves here (and reading inside `()` or `None` raises in
any case); error messages, printing and runtime type checks are left out; the exceptions raised while compiling a module are
all reported as `RuntimeError`, as in the code.
-/

namespace Verif
namespace Forward

/-- The shape of an array without the batch axis (typing.py:133-139). -/
abbrev Shape := List Nat

/-- What is known about modules (basemodule.py:252-455). -/
structure Sig (M P S K A : Type) where
  /-- `module._get_callable()(params, data, training, state, rng)`. -/
  call : M → P → Tree A → Bool → S → K → Except PyErr (Tree A × S)
  /-- `module.get_output_shape(shape)`. -/
  outShape : M → Tree Shape → Except PyErr (Tree Shape)
  /-- `module.compile(rng, shape)`: the compiled module. -/
  compile : M → K → Tree Shape → Except PyErr M
  /-- `jax.random.split(rng)`. -/
  split : K → K × K
  /-- `jax.random.split(rng, n)`. -/
  splitN : K → Nat → List K

variable {M P S K A : Type}

/-- `len(shape)` (sequentialmodel.py:151, 183; nonsequentialmodel.py:449, 729). -/
def shapeLen : Tree Shape → Except PyErr Nat
  | .leaf s => .ok s.length
  | .none => .error .typeError
  | .list ts => .ok ts.length
  | .tuple ts => .ok ts.length
  | .dict kvs => .ok kvs.length

/-- `if len(shape) < 1: raise ValueError` (sequentialmodel.py:151, 183; nonsequentialmodel.py:449, 729). -/
def checkShape (s : Tree Shape) : Except PyErr (Tree Shape) :=
  match shapeLen s with
  | .error e => .error e
  | .ok n => if n < 1 then .error .valueError else .ok s

/-! ### Sequential models -/

/-- One module with its parameters, state and key (sequentialmodel.py:265-288). -/
structure Stage (M P S K : Type) where
  mod : M
  params : P
  state : S
  key : K

/-- The reduction over the stages (sequentialmodel.py:265-288, 319-327): data and the list of new states. -/
def seqLoop (sig : Sig M P S K A) (training : Bool) :
    List (Stage M P S K) → Tree A → List S → Except PyErr (Tree A × List S)
  | [], x, ss => .ok (x, ss)
  | st :: rest, x, ss =>
    match sig.call st.mod st.params x training st.state st.key with
    | .error e => .error e
    | .ok (y, s') => seqLoop sig training rest y (ss ++ [s'])

/-- The stages, from the flattened trees (sequentialmodel.py:302-317). -/
def stages (ms : List M) (ps : List P) (ss : List S) (ks : List K) : List (Stage M P S K) :=
  match ms, ps, ss, ks with
  | m :: ms, p :: ps, s :: ss, k :: ks => ⟨m, p, s, k⟩ :: stages ms ps ss ks
  | _, _, _, _ => []

/-- The callable of a sequential model (sequentialmodel.py:299-332). Trees of different structure make `jax.tree.map`
raise. -/
def seqCall (sig : Sig M P S K A) (modules : Tree M) (params : Tree P) (data : Tree A) (training : Bool) (state : Tree S)
    (rng : K) : Except PyErr (Tree A × Tree S) :=
  if !Tree.sameStruct modules.norm params.norm || !Tree.sameStruct modules.norm state.norm then .error .valueError
  else
    let ms := modules.jaxLeaves
    match seqLoop sig training (stages ms params.jaxLeaves state.jaxLeaves (sig.splitN rng ms.length)) data [] with
    | .error e => .error e
    | .ok (out, ss) =>
      match Tree.unflatten modules ss with
      | .error e => .error e
      | .ok st => .ok (out, st)

/-- The shape of an uncompiled sequential model (sequentialmodel.py:179-181). -/
def seqShapeLoop (sig : Sig M P S K A) : List M → Tree Shape → Except PyErr (Tree Shape)
  | [], s => .ok s
  | m :: ms, s =>
    match sig.outShape m s with
    | .error e => .error e
    | .ok s' => seqShapeLoop sig ms s'

/-- `SequentialModel.get_output_shape` before compilation (sequentialmodel.py:157-189). -/
def seqOutputShape (sig : Sig M P S K A) (modules : Tree M) (s : Tree Shape) : Except PyErr (Tree Shape) :=
  match seqShapeLoop sig modules.jaxLeaves s with
  | .error e => .error e
  | .ok r => checkShape r

/-- The loop of `compile` (sequentialmodel.py:134-145). -/
def seqCompileLoop (sig : Sig M P S K A) : List M → K → Tree Shape → List M → Except PyErr (List M × Tree Shape)
  | [], _, s, acc => .ok (acc, s)
  | m :: ms, k, s, acc =>
    let ks := sig.split k
    match sig.compile m ks.2 s with
    | .error _ => .error .runtimeError
    | .ok m' =>
      match sig.outShape m' s with
      | .error e => .error e
      | .ok s' => seqCompileLoop sig ms ks.1 s' (acc ++ [m'])

/-- `SequentialModel.compile` (sequentialmodel.py:99-155): compiled modules in flattened order and the output shape. -/
def seqCompile (sig : Sig M P S K A) (modules : Tree M) (k : K) (s : Tree Shape) : Except PyErr (List M × Tree Shape) :=
  match seqCompileLoop sig modules.jaxLeaves k s [] with
  | .error e => .error e
  | .ok (ms, r) =>
    match checkShape r with
    | .error e => .error e
    | .ok r => .ok (ms, r)

/-! ### Non-sequential models -/

/-- `"input"` and `"output"` with the model's separator (nonsequentialmodel.py:304-310, 543-550). -/
def nsCfg (sep : Char) : Conn.Cfg := ⟨sep, "input".toList, "output".toList⟩

/-- `mod_path == "input" or mod_path == "output"` (nonsequentialmodel.py:357, 460, 486, 560, 637, 817, 857). -/
def reserved (s : Str) : Bool := s == "input".toList || s == "output".toList

/-- `get_execution_order` (nonsequentialmodel.py:292-329). -/
def execOrder (sep : Char) (modules : Tree M) (conn : List (Str × List Str)) : Except PyErr (List Str) :=
  match Conn.outerConnections (nsCfg sep) modules conn with
  | .error e => .error e
  | .ok g =>
    if (g.lookup "input".toList).isNone then .error .valueError
    else match Graph.resolve g "input".toList "output".toList with
      | .error _ => .error .runtimeError                                              -- graph_util.py:757-764
      | .ok (order, _) => .ok order

/-- `getitem_by_strpath(tree, path)` where a single value is expected (nonsequentialmodel.py:357-365, 808-818, 857-871). -/
def leafAt {β : Type} (sep : Char) (t : Tree β) (path : Str) : Except PyErr β :=
  match Tree.get t (splitOn sep path) with
  | .error e => .error e
  | .ok (.leaf b) => .ok b
  | .ok _ => .error .typeError

/-- `[f(p) for p in paths]` (nonsequentialmodel.py:551-563, 808-818). -/
def mapE {α β : Type} (f : α → Except PyErr β) : List α → Except PyErr (List β)
  | [] => .ok []
  | x :: xs => match f x with
    | .error e => .error e
    | .ok y => match mapE f xs with
      | .error e => .error e
      | .ok ys => .ok (y :: ys)

/-- `_get_module_input_dependencies` (nonsequentialmodel.py:523-563); the leading `None` is left out. `fresh` stands for
the identifiers drawn by `uuid`. -/
def inputDeps (sep : Char) (fresh : Str → Nat → Nat → Str) (modules : Tree M) (conn : List (Str × List Str)) :
    Except PyErr (List (Tree Str) × Tree Str) :=
  match execOrder sep modules conn with
  | .error e => .error e
  | .ok order =>
    match Conn.place (nsCfg sep) fresh modules conn with
    | .error e => .error e
    | .ok (placed, outPlaced) =>
      match mapE (fun p => Tree.get placed (splitOn sep p)) (order.filter (!reserved ·)) with
      | .error e => .error e
      | .ok deps => .ok (deps, outPlaced)

/-- `jax.tree.map(lambda p: getitem_by_strpath(outs, p), req)` (nonsequentialmodel.py:644-654, 690-701, 861-871, 911-922). -/
def assemble (sep : Char) (outs : Tree A) (req : Tree Str) : Except PyErr (Tree A) :=
  Tree.mapM (fun p => Tree.get outs (splitOn sep p)) req

/-- The loop over the execution order (nonsequentialmodel.py:635-688 and 850-910). `call` is what is done with one module:
it gets the module, its path, the assembled input and the side state, and returns the output to be stored. -/
def nsLoop {σ : Type} (sep : Char) (call : M → Str → Tree A → σ → Except PyErr (Tree A × σ)) :
    List (Str × Option M × Tree Str) → Tree A → σ → Except PyErr (Tree A × σ)
  | [], outs, st => .ok (outs, st)
  | (path, m, req) :: rest, outs, st =>
    if reserved path then nsLoop sep call rest outs st
    else match m with
      | none => .error .typeError
      | some m =>
        match assemble sep outs req with
        | .error e => .error e
        | .ok inp =>
          match call m path inp st with
          | .error e => .error e
          | .ok (out, st') =>
            match Tree.set outs (splitOn sep path) out with
            | .error e => .error e
            | .ok outs' => nsLoop sep call rest outs' st'

/-- The tree of intermediate results before the loop: a place for every scheduled path, the input filled in
(nonsequentialmodel.py:605-629, 834-848). -/
def nsInit (sep : Char) (order : List Str) (data : Tree A) : Except PyErr (Tree A) :=
  match Tree.extend (fun _ _ => false) .none (order.map fun s => (splitOn sep s, .none)) with
  | .error e => .error e
  | .ok t => Tree.set t (splitOn sep "input".toList) data

/-- Initialise, loop over the execution order, assemble the output. Common to the forward pass
(nonsequentialmodel.py:825-923) and shape inference (565-703). -/
def nsRun {σ : Type} (sep : Char) (fresh : Str → Nat → Nat → Str) (call : M → Str → Tree A → σ → Except PyErr (Tree A × σ))
    (modules : Tree M) (conn : List (Str × List Str)) (data : Tree A) (st : σ) : Except PyErr (Tree A × Tree A × σ) :=
  match execOrder sep modules conn with
  | .error e => .error e
  | .ok order =>
    match mapE (leafAt sep modules) (order.filter (!reserved ·)) with
    | .error e => .error e
    | .ok mods =>
      match inputDeps sep fresh modules conn with
      | .error e => .error e
      | .ok (deps, outDeps) =>
        match nsInit sep order data with
        | .error e => .error e
        | .ok outs =>
          match nsLoop sep call (order.zip ((none :: mods.map some).zip (.none :: deps))) outs st with
          | .error e => .error e
          | .ok (outs', st') =>
            match assemble sep outs' outDeps with
            | .error e => .error e
            | .ok out => .ok (out, outs', st')

/-- Calling one module in the forward pass (nonsequentialmodel.py:873-910). Every module gets the same key. -/
def callStep (sig : Sig M P S K A) (sep : Char) (params : Tree P) (training : Bool) (rng : K) (m : M) (path : Str)
    (inp : Tree A) (state : Tree S) : Except PyErr (Tree A × Tree S) :=
  match leafAt sep params path with
  | .error e => .error e
  | .ok p =>
    match leafAt sep state path with
    | .error e => .error e
    | .ok s =>
      match sig.call m p inp training s rng with
      | .error e => .error e
      | .ok (out, s') =>
        match Tree.set state (splitOn sep path) (.leaf s') with
        | .error e => .error e
        | .ok state' => .ok (out, state')

/-- The callable of a non-sequential model (nonsequentialmodel.py:737-925). -/
def nsCall (sig : Sig M P S K A) (sep : Char) (fresh : Str → Nat → Nat → Str) (modules : Tree M)
    (conn : List (Str × List Str)) (params : Tree P) (data : Tree A) (training : Bool) (state : Tree S) (rng : K) :
    Except PyErr (Tree A × Tree S) :=
  match nsRun sep fresh (callStep sig sep params training rng) modules conn data state with
  | .error e => .error e
  | .ok (out, _, st) => .ok (out, st)

/-- One module in shape inference (nonsequentialmodel.py:656-688): its input shape is recorded. -/
def shapeStep (sig : Sig M P S K A) (sep : Char) (m : M) (path : Str) (inp : Tree Shape) (ins : Tree Shape) :
    Except PyErr (Tree Shape × Tree Shape) :=
  match Tree.set ins (splitOn sep path) inp with
  | .error e => .error e
  | .ok ins' =>
    match sig.outShape m inp with
    | .error _ => .error .runtimeError
    | .ok out => .ok (out, ins')

/-- `_get_shape_progression` (nonsequentialmodel.py:565-703): output shape, all output shapes, all input shapes. -/
def nsShapes (sig : Sig M P S K A) (sep : Char) (fresh : Str → Nat → Nat → Str) (modules : Tree M)
    (conn : List (Str × List Str)) (s : Tree Shape) : Except PyErr (Tree Shape × Tree Shape × Tree Shape) :=
  match execOrder sep modules conn with
  | .error e => .error e
  | .ok order =>
    match Tree.extend (fun _ _ => false) .none (order.map fun s => (splitOn sep s, (.none : Tree Shape))) with
    | .error e => .error e
    | .ok ins => nsRun sep fresh (shapeStep sig sep) modules conn s ins

/-- `NonSequentialModel.get_output_shape` before compilation (nonsequentialmodel.py:705-735). -/
def nsOutputShape (sig : Sig M P S K A) (sep : Char) (fresh : Str → Nat → Nat → Str) (modules : Tree M)
    (conn : List (Str × List Str)) (s : Tree Shape) : Except PyErr (Tree Shape) :=
  match nsShapes sig sep fresh modules conn s with
  | .error e => .error e
  | .ok (r, _, _) => checkShape r

/-- The compilation loop (nonsequentialmodel.py:484-521). -/
def nsCompileLoop (sig : Sig M P S K A) (sep : Char) (ins : Tree Shape) :
    List Str → K → Tree M → Except PyErr (Tree M)
  | [], _, ms => .ok ms
  | path :: rest, k, ms =>
    if reserved path then nsCompileLoop sig sep ins rest k ms
    else
      let ks := sig.split k
      match leafAt sep ms path with
      | .error e => .error e
      | .ok m =>
        match Tree.get ins (splitOn sep path) with
        | .error e => .error e
        | .ok s =>
          match sig.compile m ks.2 s with
          | .error _ => .error .runtimeError
          | .ok m' =>
            match Tree.set ms (splitOn sep path) (.leaf m') with
            | .error e => .error e
            | .ok ms' => nsCompileLoop sig sep ins rest ks.1 ms'

/-- `NonSequentialModel.compile` of a model that is not ready (nonsequentialmodel.py:372-521): compiled modules, execution
order, output shape. Modules are compiled in place; here the new module tree is returned. -/
def nsCompile (sig : Sig M P S K A) (sep : Char) (fresh : Str → Nat → Nat → Str) (modules : Tree M)
    (conn : List (Str × List Str)) (k : K) (s : Tree Shape) : Except PyErr (Tree M × List Str × Tree Shape) :=
  match execOrder sep modules conn with
  | .error e => .error e
  | .ok order =>
    match nsShapes sig sep fresh modules conn s with
    | .error e => .error e
    | .ok (r, _, ins) =>
      match checkShape r with
      | .error e => .error e
      | .ok r =>
        match nsCompileLoop sig sep ins order k modules with
        | .error e => .error e
        | .ok ms => .ok (ms, order, r)

end Forward
end Verif
