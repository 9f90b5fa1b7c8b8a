import Verif.Model.Batch

/-!
# Calling a model: the functions a model keeps between calls

Mirrors `/repo/parametricmatrixmodels/model.py` lines 192-207 (`reset`), 492-628 (`_verify_input`, `__call__`), 633-955
(`grad_input`, `grad_params`) and the `jax.jit` wrappers in `model_util.py` lines 108-111 and 254-255.

A model builds the function that evaluates it once and keeps it. The function was built from the modules as they were then
(`_get_callable` copies some attributes), and `jax.jit` runs it once per signature of the arguments and replays the recorded
computation afterwards, so that attributes which the function reads from the modules are those of the first call with that
signature. A program `P` stands for everything that is read from the modules except the arguments. `run p q` evaluates a
function that was built from `p` and traced when the modules were `q`.
Simplifications: only the leaves of the data are kept (see `Batch`); a call that raises leaves no new trace; `jax.jit` never
forgets a trace; with `avoid_recompilation=False` the whole batched function is jitted as well, but the traces inside it are
those of the inner jitted function.
-/

namespace Verif
namespace Predict
open Batch

/-- `autobatched_callable_options` (model.py:592-602). -/
structure Opts where
  maxBatch : Option Nat
  avoid : Bool
  deriving DecidableEq

/-- Arguments that only concern the display (model.py:521-524). -/
structure Display where
  verbose : Bool
  extraInfo : Str
  newline : Bool
  clearline : Bool
  deriving DecidableEq

/-- A function returned by `jax.jit`: the program it was built from and, per signature, the program when it was traced (model.py:581-582; model_util.py:108-111). -/
structure Jit (P Sig : Type) where
  built : P
  traces : List (Sig × P)

/-- The program whose trace is replayed, and the traces afterwards (model.py:581-582; model_util.py:108-111). -/
def Jit.enter {P Sig : Type} [DecidableEq Sig] (j : Jit P Sig) (sig : Sig) (now : P) : P × Jit P Sig :=
  match j.traces.lookup sig with
  | some q => (q, j)
  | none => (now, { j with traces := (sig, now) :: j.traces })

/-- The kinds of gradient: `grad_input` (model.py:633-813) and `grad_params` (815-955). -/
inductive Wrt
  | input
  | params
  deriving DecidableEq

/-- What is known about the modules and about JAX (model.py:571-616). -/
structure Sem (P W S K α γ D Sig : Type) where
  /-- `is_ready` and `_verify_input` (model.py:492-508). -/
  verify : P → Leaves α → Except PyErr Unit
  /-- The function built from the first program, traced with the second one, on parameters, key, data, state. -/
  run : P → P → W → K → Leaves α → S → Leaves γ × S
  /-- The derivative, by `jax.jacfwd` (`true`) or `jax.jacrev` (`false`) (model.py:737-764, 899-906). -/
  grad : Wrt → Bool → P → P → W → K → Leaves α → S → Leaves γ × S
  /-- The choice between the two if the user does not choose (model.py:700-714, 878-892). -/
  pick : P → Bool
  /-- Structure, shapes and types of the arguments. -/
  sig : W → Leaves α → S → Sig
  /-- `safecast(X, dtype)` (tree_util.py:1299-1342). -/
  cast : D → Leaves α → Except PyErr (Leaves α)
  /-- `jax.random.key(seed)`. -/
  key : Int → K
  /-- The slices of a leaf are scalars. -/
  isScalar : α → Bool
  /-- The modules after `set_params` (model.py:304-335): fixed arrays of a module are read by its function when it is
  traced (modules/einsum.py:652-663). -/
  store : P → W → P

/-- The derivative functions a model keeps for one kind of gradient (model.py:197-200, 204-207). `raw` is
`grad_callable_*` with its options, `auto` is `autobatched_grad_callable_*` with its options, the display arguments it was
built with and the function inside it. -/
structure GradCache (P Sig : Type) where
  raw : Option (Bool × P)
  auto : Option (Opts × Display × Bool × Jit P Sig)

/-- A model between two calls (model.py:126-134, 192-207). -/
structure Mach (P W S K Sig : Type) where
  prog : P
  params : W
  state : S
  rng : K
  /-- `self.callable`. -/
  callable : Option (Jit P Sig)
  /-- `self.autobatched_callable`: its options and the display arguments it was built with. -/
  auto : Option (Opts × Display)
  gradIn : GradCache P Sig
  gradPar : GradCache P Sig

/-- The argument `rng` (model.py:587-590). -/
inductive RngArg (K : Type)
  | none
  | seed (n : Int)
  | key (k : K)

/-- The arguments of a call (model.py:510-526). -/
structure Args (K α D : Type) where
  X : Leaves α
  dtype : D
  rng : RngArg K
  updateState : Bool
  opts : Opts
  display : Display
  fwd : Option Bool

variable {P W S K α γ D Sig : Type} [DecidableEq Sig]

/-- `if rng is None: ... elif isinstance(rng, int): ...` (model.py:587-590). -/
def theKey (sem : Sem P W S K α γ D Sig) (own : K) : RngArg K → K
  | .none => own
  | .seed n => sem.key n
  | .key k => k

/-- The jitted function, with its traces next to the state of the model (model.py:581-582, 614-616). -/
def jitted (sem : Sem P W S K α γ D Sig) (f : P → P → W → K → Leaves α → S → Leaves γ × S) (now : P) (w : W) (k : K)
    (X : Leaves α) (sj : S × Jit P Sig) : Leaves γ × (S × Jit P Sig) :=
  let e := sj.2.enter (sem.sig w X sj.1) now
  let r := f sj.2.built e.1 w k X sj.1
  (r.1, (r.2, e.2))

/-- `reset` (model.py:192-207). -/
def reset (m : Mach P W S K Sig) : Mach P W S K Sig :=
  { m with callable := none, auto := none, gradIn := ⟨none, none⟩, gradPar := ⟨none, none⟩ }

/-- What a call shows to the user: outputs, new state, and the display arguments that are in force (model.py:604-628). -/
structure Shown (γ S : Type) where
  out : Leaves γ
  state : S
  display : Display

/-- The batched function is built again only if the batch options differ (model.py:592-612). -/
def chooseAuto (au : Option (Opts × Display)) (o : Opts) (d : Display) : Opts × Display :=
  match au with
  | some (o', d') => if o' = o then (o', d') else (o, d)
  | none => (o, d)

/-- `__call__` (model.py:510-628): the result and the model afterwards. -/
def call (sem : Sem P W S K α γ D Sig) (m : Mach P W S K Sig) (a : Args K α D) : Except PyErr (Shown γ S) × Mach P W S K Sig :=
  match sem.verify m.prog a.X with
  | .error e => (.error e, m)
  | .ok () =>
    let j := m.callable.getD ⟨m.prog, []⟩
    let m1 := { m with callable := some j }
    match sem.cast a.dtype a.X with
    | .error e => (.error e, m1)
    | .ok X =>
      let k := theKey sem m.rng a.rng
      let au := chooseAuto m.auto a.opts a.display
      let m2 := { m1 with auto := some au }
      match autobatch sem.isScalar (jitted sem sem.run m.prog m.params k) au.1.maxBatch au.1.avoid X (m.state, j) with
      | .error e => (.error e, m2)
      | .ok (y, s, j') =>
        let m3 := { m2 with callable := some j' }
        (.ok ⟨y, s, au.2⟩, if a.updateState then { m3 with state := s } else m3)

/-- The derivative function in use (model.py:703-764, 881-906): built if there is none, or if the user asks for the other
mode. -/
def gradRaw (sem : Sem P W S K α γ D Sig) (prog : P) (c : GradCache P Sig) (fwd : Option Bool) : Bool × P :=
  match c.raw with
  | none => (fwd.getD (sem.pick prog), prog)
  | some (b, p) => match fwd with
    | none => (b, p)
    | some f => if f = b then (b, p) else (f, prog)

/-- The batched derivative function in use (model.py:774-797, 916-939). -/
def gradAuto (raw : Bool × P) (c : GradCache P Sig) (a : Args K α D) : Opts × Display × Bool × Jit P Sig :=
  match c.auto with
  | some (o, d, b, j) => if o = a.opts then (o, d, b, j) else (a.opts, a.display, raw.1, ⟨raw.2, []⟩)
  | none => (a.opts, a.display, raw.1, ⟨raw.2, []⟩)

/-- Evaluating the batched derivative function: with `avoid_recompilation` the function is jitted batch by batch
(model_util.py:108-109), otherwise all batches together (254-255). -/
def gradEval (sem : Sem P W S K α γ D Sig) (wrt : Wrt) (now : P) (w : W) (k : K) (au : Opts × Display × Bool × Jit P Sig)
    (X : Leaves α) (s : S) : Except PyErr (Leaves γ × S × Jit P Sig) :=
  let (o, _, b, j) := au
  if o.avoid then autobatch sem.isScalar (jitted sem (sem.grad wrt b) now w k) o.maxBatch true X (s, j)
  else
    let e := j.enter (sem.sig w X s) now
    match autobatch sem.isScalar (sem.grad wrt b j.built e.1 w k) o.maxBatch false X s with
    | .error er => .error er
    | .ok (y, s') => .ok (y, s', e.2)

/-- The derivative functions of one kind (model.py:197-207). -/
def cache (m : Mach P W S K Sig) : Wrt → GradCache P Sig
  | .input => m.gradIn
  | .params => m.gradPar

/-- Storing the derivative functions (model.py:726-797, 903-939). -/
def setCache (m : Mach P W S K Sig) (wrt : Wrt) (c : GradCache P Sig) : Mach P W S K Sig :=
  match wrt with
  | .input => { m with gradIn := c }
  | .params => { m with gradPar := c }

/-- `grad_input` (model.py:633-813) and `grad_params` (815-955). -/
def gradCall (sem : Sem P W S K α γ D Sig) (wrt : Wrt) (m : Mach P W S K Sig) (a : Args K α D) :
    Except PyErr (Shown γ S) × Mach P W S K Sig :=
  match sem.verify m.prog a.X with
  | .error e => (.error e, m)
  | .ok () =>
    let c := cache m wrt
    let raw := gradRaw sem m.prog c a.fwd
    match sem.cast a.dtype a.X with
    | .error e => (.error e, setCache m wrt { c with raw := some raw })
    | .ok X =>
      let k := theKey sem m.rng a.rng
      let au := gradAuto raw c a
      match gradEval sem wrt m.prog m.params k au X m.state with
      | .error e => (.error e, setCache m wrt ⟨some raw, some au⟩)
      | .ok (y, s, j') =>
        let m1 := setCache m wrt ⟨some raw, some (au.1, au.2.1, au.2.2.1, j')⟩
        (.ok ⟨y, s, au.2.1⟩, if a.updateState then { m1 with state := s } else m1)

/-- What can happen to a model. `edit` stands for the methods that change the modules and call `reset` (model.py:1302-1501,
1639-1741); `touch` for changes of the modules that do not: `compile` (sequentialmodel.py:99-155), or changing a module
that the model contains. -/
inductive Op (P W S K α D : Type)
  | call (a : Args K α D)
  | grad (wrt : Wrt) (a : Args K α D)
  | setParams (w : W)
  | setState (s : S)
  | setRng (k : K)
  | edit (p : P) (w : W) (s : S)
  | touch (p : P) (w : W) (s : S)

/-- One operation (model.py:510-955). -/
def step (sem : Sem P W S K α γ D Sig) (m : Mach P W S K Sig) : Op P W S K α D → Mach P W S K Sig
  | .call a => (call sem m a).2
  | .grad wrt a => (gradCall sem wrt m a).2
  | .setParams w => { m with params := w, prog := sem.store m.prog w }
  | .setState s => { m with state := s }
  | .setRng k => { m with rng := k }
  | .edit p w s => { reset m with prog := p, params := w, state := s }
  | .touch p w s => { m with prog := p, params := w, state := s }

end Predict
end Verif
