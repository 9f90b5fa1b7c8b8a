import Verif.Model.AffineTensor
import Verif.Model.Elementwise
import Verif.Lemmas.TreeDec

/-!
# Model of the compilation of `AffineObservablePMM`

Mirrors `/repo/parametricmatrixmodels/modules/affineobservablepmm.py` (`compile`, `get_output_shape`) together with the constructors, `compile` and `get_output_shape` of the modules that it consists of:
`affinehermitianmatrix.py`, `eigenvectors.py`, `expectationvaluesum.py`, `transitionamplitudesum.py`, `bias.py`. What the modules compute is in `Pmm`, `Hermitian`, `Eigen` and `Observables`. The random numbers of module
`i` are a parameter `draw i`; `herm` stands for the test `np.allclose(A, A^H)`. The warning about smoothing is left out, and so are smoothing, magnitudes and centring, which take no part in the compilation.
-/

namespace Verif
namespace ObsPmm
open Reshape Elementwise AffineTensor

variable {V : Type}

/-- The constructor's arguments (affineobservablepmm.py:114-227); `whichOk` tells whether `which` is one of the known strings. -/
structure Hyper (V : Type) where
  size : Option Nat
  numEig : Option Nat
  whichOk : Bool
  affineBias : Bool
  secondaries : Option Nat
  out : Option Nat
  biasTerm : Bool
  expect : Bool
  Ms : Option (NArr V)
  Ds : Option (NArr V)

/-- The modules. `obs` is an `ExpectationValueSum` (`expect`) or a `TransitionAmplitudeSum`, which differ only in what they compute (affineobservablepmm.py:230-301). -/
inductive Md (V : Type) where
  | affine (size : Option Nat) (bias : Bool) (Ms : Option (NArr V))
  | eig (numEig : Option Nat)
  | obs (expect : Bool) (l q : Option Nat) (Ds : Option (NArr V))
  | bias (b : Option (BiasParam V))

/-- `AffineHermitianMatrix.__init__` (affinehermitianmatrix.py:93-116). -/
def affineNew (herm : NArr V → Bool) (size : Option Nat) (bias : Bool) (Ms : Option (NArr V)) : Except PyErr (Md V) :=
  if size = some 0 then .error .valueError
  else match Ms with
    | none => .ok (.affine size bias none)
    | some M => match size, M.shape with
      | none, [] => .error .indexError
      | none, [_] => .error .indexError
      | none, p :: n :: r => if p :: n :: r = [p, n, n] then (if herm M then .ok (.affine (some n) bias (some M)) else .error .valueError) else .error .valueError
      | some _, [] => .error .indexError
      | some n, p :: r => if p :: r = [p, n, n] then (if herm M then .ok (.affine (some n) bias (some M)) else .error .valueError) else .error .valueError

/-- `Eigenvectors.__init__` (eigenvectors.py:79-101). -/
def eigNew (numEig : Option Nat) (whichOk : Bool) : Except PyErr (Md V) :=
  if numEig = some 0 then .error .valueError else if whichOk then .ok (.eig numEig) else .error .valueError

/-- `__init__` of the two modules for observables (expectationvaluesum.py:81-145, transitionamplitudesum.py:81-145). -/
def obsNew (herm : NArr V → Bool) (expect : Bool) (l q : Option Nat) (Ds : Option (NArr V)) : Except PyErr (Md V) :=
  match Ds with
  | none => .ok (.obs expect l q none)
  | some D => match D.shape with
    | [a, b, c, d] =>
      if c ≠ d then .error .valueError
      else if !herm D then .error .valueError
      else if l.isSome && l != some b then .error .valueError
      else if q.isSome && q != some a then .error .valueError
      else .ok (.obs expect (some b) (some a) (some D))
    | _ => .error .valueError

/-- The modules that `compile` builds (affineobservablepmm.py:253-299): what `self.modules` is afterwards (`none`: as before) and the exception, if any. The list is assigned before the module for the
observables is made. -/
def build (herm : NArr V → Bool) (h : Hyper V) : Option (List (Md V)) × Option PyErr :=
  match affineNew herm h.size h.affineBias h.Ms with
  | .error e => (none, some e)
  | .ok a => match eigNew (V := V) h.numEig h.whichOk with
    | .error e => (none, some e)
    | .ok e => match obsNew herm h.expect h.secondaries h.out h.Ds with
      | .error err => (some [a, e], some err)
      | .ok o => (some (if h.biasTerm then [a, e, o, .bias none] else [a, e, o]), none)

/-- `compile` of a module: the number of the module, its new state (affinehermitianmatrix.py:212-252, eigen_util.py:10-26, expectationvaluesum.py:210-273, transitionamplitudesum.py:211-274,
bias.py:149-248). -/
def Md.compile (draw : Nat → List Nat → List Nat → V) (i : Nat) (m : Md V) (s : Tree (List Nat)) : Except PyErr (Md V) :=
  match m with
  | .affine size hasBias Ms => match singleLeaf 1 s with
    | .error e => .error e
    | .ok none => .error .valueError
    | .ok (some sh) =>
      let p := if hasBias then sh.headD 0 + 1 else sh.headD 0
      match Ms with
      | some M => if M.shape.headD 0 = p then .ok m else .error .valueError
      | none => match size with
        | none => .error .typeError
        | some n => .ok (.affine size hasBias (some ⟨[p, n, n], draw i [p, n, n]⟩))
  | .eig k => if (treeFlattenShape s).all (fun o => match o with
      | some [a, b] => decide (a = b) && decide (k.getD 0 ≤ a)
      | _ => false) then .ok m else .error .valueError
  | .obs ex l q Ds => match l, q with
    | some l', some q' => match singleLeaf 2 s with
      | .error e => .error e
      | .ok none => .error .valueError
      | .ok (some sh) =>
        let n := sh.headD 0
        match Ds with
        | some D => if D.shape.getD 2 0 = n ∧ D.shape.getD 3 0 = n then .ok m else .error .valueError
        | none => .ok (.obs ex l q (some ⟨[q', l', n, n], draw i [q', l', n, n]⟩))
    | _, _ => .error .valueError
  | .bias none => .ok (.bias (some (biasInit (draw i) false s)))
  | .bias (some b) => match biasCheck b s with
    | .ok _ => .ok m
    | .error e => .error e

/-- `get_output_shape` of a compiled module (affinehermitianmatrix.py:255-268, eigenvectors.py:154-163, expectationvaluesum.py:275-289, transitionamplitudesum.py:276-290, bias.py:250-251). (The checks of
`compile` are made again, on the same shape, and pass.) -/
def Md.shape (m : Md V) (s : Tree (List Nat)) : Tree (List Nat) :=
  match m with
  | .affine size _ _ => Tree.map (fun _ => [size.getD 0, size.getD 0]) s.norm
  | .eig k => Tree.map (fun sh => [sh.headD 0, k.getD (sh.headD 0)]) s.norm
  | .obs _ _ q _ => Tree.map (fun _ => [q.getD 0]) s.norm
  | .bias _ => s

/-- Compiling one module after the other (sequentialmodel.py:134-147): the modules afterwards and the shape of the output. -/
def subCompile (draw : Nat → List Nat → List Nat → V) : Nat → List (Md V) → Tree (List Nat) → List (Md V) × Except PyErr (Tree (List Nat))
  | _, [], s => ([], .ok s)
  | i, m :: ms, s => match m.compile draw i s with
    | .error _ => (m :: ms, .error .runtimeError)
    | .ok m' => match subCompile draw (i + 1) ms (m'.shape s) with
      | (ms', r) => (m' :: ms', r)

/-- The model: its arguments, its modules (none after `__init__`), the shapes of the last compilation (affineobservablepmm.py:114-228). -/
structure Mdl (V : Type) where
  hyper : Hyper V
  modules : List (Md V)
  inShape : Option (Tree (List Nat))
  outShape : Option (Tree (List Nat))

/-- `SequentialModel.compile` (sequentialmodel.py:124-155). (The test for an empty output shape is left out; there is one array.) -/
def superCompile (draw : Nat → List Nat → List Nat → V) (m : Mdl V) (s : Tree (List Nat)) : Mdl V × Option PyErr :=
  match subCompile draw 0 m.modules s with
  | (ms, .error e) => ({ m with modules := ms, inShape := some s }, some e)
  | (ms, .ok o) => ({ m with modules := ms, inShape := some s, outShape := some o }, none)

/-- `compile` (affineobservablepmm.py:230-301). Shapes are compared with `!=`, which does not look at the order of dictionaries. -/
def compile (herm : NArr V → Bool) (draw : Nat → List Nat → List Nat → V) (m : Mdl V) (s : Tree (List Nat)) : Mdl V × Option PyErr :=
  if (treeFlattenShape s).length ≠ 1 then (m, some .valueError)
  else if m.inShape.map Tree.norm = some s.norm then superCompile draw m s
  else match build herm m.hyper with
    | (ms, some e) => ({ m with modules := ms.getD m.modules }, some e)
    | (ms, none) => superCompile draw { m with modules := ms.getD m.modules } s

/-- `get_output_shape` (affineobservablepmm.py:303-316). -/
def outputShape (m : Mdl V) (s : Tree (List Nat)) : Except PyErr (Tree (List Nat)) :=
  match m.hyper.out with
  | none => .error .valueError
  | some q => if (treeFlattenShape s).length ≠ 1 then .error .valueError else .ok (Tree.map (fun _ => [q]) s.norm)

end ObsPmm
end Verif
