import Verif.Model.TreeMap

/-!
# Model of `MixedScaler`

Mirrors `/repo/parametricmatrixmodels/preprocessing/mixed_scaler.py` lines 22-146. Scalers are objects, so the tree of scalers is a tree
of references into a heap; a place without a scaler holds `None`, which the code treats as a leaf (`is_leaf`), here `leaf none`. The
methods of the scalers in the tree are a parameter. The data annotation (`Data`, typing.py:102, checked by scaler.py:16-31) is that
all arrays, of the argument and the result together, have the same first axis.
-/

namespace Verif
namespace Mixed
open Tree

/-- The methods of a scaler with attributes of type `σ` on data with arrays of type `A` (scaler.py:33-92). -/
structure Ops (σ A : Type) where
  batch : A → Option Nat
  fit : σ → Tree A → Except PyErr σ
  transform : σ → Tree A → Except PyErr (Tree A)
  inverse : σ → Tree A → Except PyErr (Tree A)

variable {σ A : Type}

/-- The annotation: every array has a first axis and all have the same (scaler.py:27-29; typing.py:102). -/
def batchOk (ops : Ops σ A) (xs : List A) : Bool := match xs with
  | [] => true
  | x :: xs => (ops.batch x).isSome && xs.all fun y => decide (ops.batch y = ops.batch x)

/-- A `MixedScaler`: its tree of scalers (mixed_scaler.py:22-38). -/
abbrev Scalers := Option (Tree (Option Nat))

/-- `jax.tree.map(f, scalers, X)` (mixed_scaler.py:93-106, 131-144): the data is cut along the tree of scalers. -/
def eachPart (f : Nat → Tree A → Except PyErr (Tree A)) (S : Tree (Option Nat)) (X : Tree A) : Except PyErr (Tree A) :=
  jaxMap (fun o vs => match o, vs with
    | Option.none, [x] => .ok x
    | some r, [x] => f r x
    | _, _ => .error .typeError) S [X]

/-- The check of argument and result (scaler.py:27-29; typing.py:102). -/
def annotated (ops : Ops σ A) (X : Tree A) (run : Except PyErr (Tree A)) : Except PyErr (Tree A) :=
  if batchOk ops (jaxLeaves X) then
    match run with
    | .error e => .error e
    | .ok Y => if batchOk ops (jaxLeaves X ++ jaxLeaves Y) then .ok Y else .error .typeError
  else .error .typeError

/-- `MixedScaler.transform` (mixed_scaler.py:75-108). -/
def transform (ops : Ops σ A) (h : Nat → σ) (S : Scalers) (X : Tree A) : Except PyErr (Tree A) :=
  annotated ops X (match S with
    | Option.none => .ok X
    | some S => eachPart (fun r x => ops.transform (h r) x) S X)

/-- `MixedScaler.inverse_transform` (mixed_scaler.py:110-146). -/
def inverse (ops : Ops σ A) (h : Nat → σ) (S : Scalers) (X : Tree A) : Except PyErr (Tree A) :=
  annotated ops X (match S with
    | Option.none => .ok X
    | some S => eachPart (fun r x => ops.inverse (h r) x) S X)

/-- Fitting one after the other (mixed_scaler.py:59-72); every `fit` changes the scaler object. -/
def fitAll (ops : Ops σ A) : List (Option Nat × Tree A) → (Nat → σ) → Except PyErr (Nat → σ)
  | [], h => .ok h
  | (Option.none, _) :: l, h => fitAll ops l h
  | (some r, x) :: l, h => match ops.fit (h r) x with
    | .error e => .error e
    | .ok s => fitAll ops l (fun q => if q = r then s else h q)

/-- `MixedScaler.fit` (mixed_scaler.py:40-73): the heap and the tree afterwards. -/
def fit (ops : Ops σ A) (h : Nat → σ) (S : Scalers) (X : Tree A) : Except PyErr ((Nat → σ) × Scalers) :=
  if batchOk ops (jaxLeaves X) then
    match S with
    | Option.none => .ok (h, Option.none)
    | some S => match zipPre (norm S) X with
      | .error e => .error e
      | .ok r => match fitAll ops (flat r) h with
        | .error e => .error e
        | .ok h' => .ok (h', some (norm S))
  else .error .typeError

end Mixed
end Verif
