import Verif.Model.AffineTensor

/-!
# Model of the life of modules with matrices

Mirrors the constructors, `compile`, `set_params`, `set_hyperparameters`, `get_output_shape` and the shape checks of the callables in
`/repo/parametricmatrixmodels/modules/affinehermitianmatrix.py`, `lowrankaffinehermitianmatrix.py`, `affinetensor.py`, `expectationvaluesum.py` and `transitionamplitudesum.py`.
Simplifications: arrays are represented by their shapes, and whether they are Hermitian is given with them; hyperparameters that play no role for shapes are left out, as is
`isinstance` on wrong Python types; a tree of data is represented by its single leaf when it is called.
-/

namespace Verif
namespace Lifecycle
open AffineTensor

/-- A module: its hyperparameters and the shapes of its parameters. The last class stands for `ExpectationValueSum` and `TransitionAmplitudeSum`
(affinehermitianmatrix.py:112-116; lowrankaffinehermitianmatrix.py:107-113; affinetensor.py:92-96; expectationvaluesum.py:138-144; transitionamplitudesum.py:138-144). -/
inductive Obj where
  | herm (size : Option Nat) (bias : Bool) (Ms : Option (List Nat))
  | lowRank (size rank : Option Nat) (bias : Bool) (params : Option (List Nat × List Nat))
  | tensor (shape : Option (List Nat)) (bias : Bool) (Ms : Option (List Nat))
  | obs (num out : Option Nat) (Ds : Option (List Nat))
  deriving DecidableEq

/-- `AffineHermitianMatrix(matrix_size, bias_term=, Ms=)` (affinehermitianmatrix.py:93-116). -/
def newHerm (size : Option Nat) (bias : Bool) (Ms : Option (List Nat × Bool)) : Except PyErr Obj :=
  if size = some 0 then .error .valueError
  else match Ms with
    | none => .ok (.herm size bias none)
    | some (sh, hermitian) => match (match size with
        | some n => some n
        | none => sh[1]?) with
      | none => .error .indexError
      | some n => match sh with
        | [] => .error .indexError
        | p :: _ => if sh ≠ [p, n, n] then .error .valueError else if !hermitian then .error .valueError else .ok (.herm (some n) bias (some sh))

/-- `LowRankAffineHermitianMatrix(matrix_size, matrix_rank, bias_term=)` (lowrankaffinehermitianmatrix.py:91-113). -/
def newLowRank (size rank : Option Nat) (bias : Bool) : Except PyErr Obj :=
  if size = some 0 then .error .valueError
  else if rank = some 0 then .error .valueError
  else match size, rank with
    | some n, some r => if n < r then .error .valueError else .ok (.lowRank size rank bias none)
    | _, _ => .ok (.lowRank size rank bias none)

/-- `tensor_shape or Ms.shape[1:]` (affinetensor.py:85): an empty `tensor_shape` counts as not given. -/
def shapeOr (shape : Option (List Nat)) (ts : List Nat) : List Nat :=
  match shape with
  | some (a :: as) => a :: as
  | _ => ts

/-- `AffineTensor(tensor_shape, bias_term=, Ms=)` (affinetensor.py:75-96). -/
def newTensor (shape : Option (List Nat)) (bias : Bool) (Ms : Option (List Nat)) : Except PyErr Obj :=
  if (shape.getD []).any (· == 0) then .error .valueError
  else match Ms with
    | none => .ok (.tensor shape bias none)
    | some [] => .error .indexError
    | some (p :: ts) =>
      if p :: ts ≠ p :: shapeOr shape ts then .error .valueError else .ok (.tensor (some (shapeOr shape ts)) bias (some (p :: ts)))

/-- `ExpectationValueSum(num_observables, output_size, Ds)` and `TransitionAmplitudeSum` (expectationvaluesum.py:112-144; transitionamplitudesum.py:112-144). -/
def newObs (num out : Option Nat) (Ds : Option (List Nat × Bool)) : Except PyErr Obj :=
  match Ds with
  | none => .ok (.obs num out none)
  | some ([q, l, n, n'], hermitian) =>
    if n ≠ n' then .error .valueError
    else if !hermitian then .error .valueError
    else if num.isSome && num != some l then .error .valueError
    else if out.isSome && out != some q then .error .valueError
    else .ok (.obs (some l) (some q) (some [q, l, n, n']))
  | some _ => .error .valueError

/-- What a dictionary of hyperparameters contains (`none`: not in the dictionary) (basemodule.py:511-512). -/
structure Dict where
  size : Option (Option Nat) := none
  rank : Option (Option Nat) := none
  shape : Option (Option (List Nat)) := none
  num : Option (Option Nat) := none
  out : Option (Option Nat) := none
  bias : Option Bool := none

/-- `set_hyperparameters` (affinehermitianmatrix.py:278-284; lowrankaffinehermitianmatrix.py:284-290; affinetensor.py:234-240; expectationvaluesum.py:299-305; transitionamplitudesum.py:300-306;
basemodule.py:507-512). -/
def setHyper (d : Dict) : Obj → Except PyErr Obj
  | .herm size bias none => .ok (.herm (d.size.getD size) (d.bias.getD bias) none)
  | .lowRank size rank bias none => .ok (.lowRank (d.size.getD size) (d.rank.getD rank) (d.bias.getD bias) none)
  | .tensor shape bias none => .ok (.tensor (d.shape.getD shape) (d.bias.getD bias) none)
  | .obs num out none => .ok (.obs (d.num.getD num) (d.out.getD out) none)
  | _ => .error .valueError

/-- Is an array of this shape what is expected, `none` in the expected shape never being right (affinehermitianmatrix.py:295-301). -/
def asExpected (sh : List Nat) (expected : List (Option Nat)) : Bool := sh.map some == expected

/-- `set_params` with arrays of the given shapes (affinehermitianmatrix.py:289-311; lowrankaffinehermitianmatrix.py:295-332; affinetensor.py:245-262; expectationvaluesum.py:310-340;
transitionamplitudesum.py:311-341). -/
def setParams (arrays : List (List Nat)) (hermitian : Bool) : Obj → Except PyErr Obj
  | .herm size bias Ms => match arrays with
    | [sh] => match (match Ms with
        | none => sh[0]?
        | some M => M[0]?) with
      | none => .error .indexError
      | some p =>
        if !asExpected sh [some p, size, size] then .error .valueError
        else if !hermitian then .error .valueError
        else .ok (.herm size bias (some sh))
    | _ => .error .valueError
  | .lowRank size rank bias params => match arrays with
    | [ls, us] => match (match params with
        | none => us[0]?
        | some P => P.2[0]?) with
      | none => .error .indexError
      | some p =>
        if !asExpected us [some p, size, rank] then .error .valueError
        else match (match params with
          | none => ls[0]?
          | some P => P.1[0]?) with
        | none => .error .indexError
        | some p' => if !asExpected ls [some p', rank] then .error .valueError else .ok (.lowRank size rank bias (some (ls, us)))
    | _ => .error .valueError
  | .tensor shape bias Ms => match arrays with
    | [sh] => match (match Ms with
        | none => sh[0]?
        | some M => M[0]?) with
      | none => .error .indexError
      | some p => match shape with
        | none => .error .typeError
        | some ts => if sh ≠ p :: ts then .error .valueError else .ok (.tensor shape bias (some sh))
    | _ => .error .valueError
  | .obs num out _ => match arrays with
    | [[q, l, n, n']] =>
      if !asExpected [q, l, n, n'] [out, num, some n, some n] then .error .valueError
      else if !hermitian then .error .valueError
      else .ok (.obs num out (some [q, l, n, n']))
    | _ => .error .valueError

/-- The number of matrices for `f` features (affinehermitianmatrix.py:227; lowrankaffinehermitianmatrix.py:230; affinetensor.py:180). -/
def matrices (bias : Bool) (f : Nat) : Nat := if bias then f + 1 else f

/-- `compile` (affinehermitianmatrix.py:212-253; lowrankaffinehermitianmatrix.py:215-259; affinetensor.py:166-209; expectationvaluesum.py:210-273; transitionamplitudesum.py:211-274). A size that is
`None` makes the random numbers raise. -/
def compile (s : Tree (List Nat)) : Obj → Except PyErr Obj
  | .herm size bias Ms => match singleLeaf 1 s with
    | .error e => .error e
    | .ok none => .error .valueError
    | .ok (some sh) =>
      let p := matrices bias (sh.headD 0)
      match Ms with
      | some M => if M.headD 0 ≠ p then .error .valueError else .ok (.herm size bias Ms)
      | none => match size with
        | none => .error .typeError
        | some n => .ok (.herm size bias (some [p, n, n]))
  | .lowRank size rank bias params => match singleLeaf 1 s with
    | .error e => .error e
    | .ok none => .error .valueError
    | .ok (some sh) =>
      let p := matrices bias (sh.headD 0)
      match params with
      | some P => if P.2.headD 0 ≠ p then .error .valueError else .ok (.lowRank size rank bias params)
      | none => match size, rank with
        | some n, some r => .ok (.lowRank size rank bias (some ([p, r], [p, n, r])))
        | _, _ => .error .typeError
  | .tensor shape bias Ms => match singleLeaf 1 s with
    | .error e => .error e
    | .ok none => .error .valueError
    | .ok (some sh) =>
      let p := matrices bias (sh.headD 0)
      match Ms with
      | some M => if M.headD 0 ≠ p then .error .valueError else .ok (.tensor shape bias Ms)
      | none => match shape with
        | none => .error .typeError
        | some ts => .ok (.tensor shape bias (some (p :: ts)))
  | .obs num out Ds => match num, out with
    | some l, some q => match singleLeaf 2 s with
      | .error e => .error e
      | .ok none => .error .valueError
      | .ok (some sh) =>
        let n := sh.headD 0
        match Ds with
        | some D => if D.getD 2 0 ≠ n ∨ D.getD 3 0 ≠ n then .error .valueError else .ok (.obs num out Ds)
        | none => .ok (.obs num out (some [q, l, n, n]))
    | _, _ => .error .valueError

/-- The shape of a sample of the output that `get_output_shape` announces at the place of the input (affinehermitianmatrix.py:255-268; lowrankaffinehermitianmatrix.py:261-274;
affinetensor.py:211-224; expectationvaluesum.py:275-289; transitionamplitudesum.py:276-290); a size that is `None` stays in the shape. -/
def outputShape (s : Tree (List Nat)) : Obj → Except PyErr (List (Option Nat))
  | .herm size _ _ => match singleLeaf 1 s with
    | .error e => .error e
    | .ok none => .error .valueError
    | .ok (some _) => .ok [size, size]
  | .lowRank size _ _ _ => match singleLeaf 1 s with
    | .error e => .error e
    | .ok none => .error .valueError
    | .ok (some _) => .ok [size, size]
  | .tensor shape _ _ => match singleLeaf 1 s with
    | .error e => .error e
    | .ok none => .error .valueError
    | .ok (some _) => .ok ((shape.getD []).map some)
  | .obs _ out Ds => match singleLeaf 2 s with
    | .error e => .error e
    | .ok none => .error .valueError
    | .ok (some sh) => match Ds with
      | some D => if D.getD 2 0 ≠ sh.headD 0 then .error .valueError else .ok [out]
      | none => .ok [out]

/-- The shape of the result of a call on an array of shape `x`, batch axis first (affinehermitianmatrix.py:142-183; lowrankaffinehermitianmatrix.py:134-213; affinetensor.py:108-164;
expectationvaluesum.py:170-208; transitionamplitudesum.py:170-209). Matrices that are not square and, for observables, sizes that differ are taken to raise (`einsum` would let a
size of one pass). -/
def call (x : List Nat) : Obj → Except PyErr (List Nat)
  | .herm _ bias (some [p, n, n']) => match x with
    | [b, f] => if n = n' ∧ p = matrices bias f then .ok [b, n, n] else .error .typeError
    | _ => .error .typeError
  | .lowRank _ _ bias (some ([p', r'], [p, n, r])) => match x with
    | [b, f] => if p = p' ∧ r = r' ∧ p = matrices bias f then .ok [b, n, n] else .error .typeError
    | _ => .error .typeError
  | .tensor _ bias (some (p :: ts)) => match x with
    | [b, f] => if p = matrices bias f then .ok (b :: ts) else .error .typeError
    | _ => .error .typeError
  | .obs _ _ (some [q, _, n, n']) => match x with
    | [b, m, _] => if n = n' ∧ m = n then .ok [b, q] else .error .typeError
    | _ => .error .typeError
  | _ => .error .typeError

/-- What can be done with a module (basemodule.py:289-603). -/
inductive Op where
  | compile (s : Tree (List Nat))
  | params (arrays : List (List Nat)) (hermitian : Bool)
  | hyper (d : Dict)

/-- One operation (affinehermitianmatrix.py:212-311); one that raises leaves the module as it was. -/
def step (o : Obj) : Op → Obj
  | .compile s => match compile s o with
    | .ok o' => o'
    | .error _ => o
  | .params a h => match setParams a h o with
    | .ok o' => o'
    | .error _ => o
  | .hyper d => match setHyper d o with
    | .ok o' => o'
    | .error _ => o

/-- A history (affinehermitianmatrix.py:212-311). -/
def steps (o : Obj) (ops : List Op) : Obj := ops.foldl step o

end Lifecycle
end Verif
