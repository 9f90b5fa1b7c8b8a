import Verif.Model.NdArr
import Verif.Model.TreeMap
import Mathlib.Data.List.Sort
import Mathlib.Data.List.Dedup
import Mathlib.Algebra.Ring.Defs

/-!
# Model of the one-hot encoder

Mirrors `/repo/parametricmatrixmodels/preprocessing/onehot.py` lines 18-138. Entries are elements of a linearly ordered semiring (no
NaN). Simplifications: the two fitted trees (`unique_vals_` and `original_shapes_`, always set together and of equal structure) are one
tree of pairs; data without rows is not modelled faithfully (`reshape` raises there).
-/

namespace Verif
namespace OneHot
open Tree

variable {K : Type} [LinearOrder K] [Semiring K]

/-- The annotation of the data (onehot.py:30, 65): at least two axes, the first the same everywhere; checked by scaler.py:16-31. -/
def inOk (X : Tree (NArr K)) : Bool := match jaxLeaves X with
  | [] => true
  | x :: xs => (x :: xs).all fun y => decide (2 ≤ y.shape.length) && decide (y.shape.head? = x.shape.head?)

/-- The annotation of the encoded data (onehot.py:67, 102): two axes, both the same everywhere. -/
def outOk (X : Tree (NArr K)) : Bool := match jaxLeaves X with
  | [] => true
  | x :: xs => (x :: xs).all fun y => decide (y.shape.length = 2) && decide (y.shape = x.shape)

/-- The number of columns of `x.reshape(x.shape[0], -1)` (onehot.py:55, 92). -/
def width (x : NArr K) : Nat := (NArr.indices x.shape.tail).length

/-- A row of `x.reshape(x.shape[0], -1)` (onehot.py:55, 92). -/
def row (x : NArr K) (r : Nat) : List K := (NArr.indices x.shape.tail).map fun j => x.val (r :: j)

/-- The rows of `x.reshape(x.shape[0], -1)` (onehot.py:54, 92). -/
def rows (x : NArr K) : List (List K) := (List.range (x.shape.headD 0)).map (row x)

/-- The lexicographic order of rows (onehot.py:55). -/
def lexLe : List K → List K → Bool
  | [], _ => true
  | _ :: _, [] => false
  | a :: l, b :: m => if a < b then true else if b < a then false else lexLe l m

/-- `np.unique(rows, axis=0)`: the distinct rows in lexicographic order (onehot.py:55). -/
def uniq (R : List (List K)) : List (List K) := R.dedup.insertionSort fun a b => lexLe a b = true

/-- `np.sort(rows, axis=0)`: every column is sorted on its own (onehot.py:54). -/
def colSort (w : Nat) (R : List (List K)) : List (List K) :=
  (List.range R.length).map fun i => (List.range w).map fun c => ((R.map fun r => r.getD c 0).insertionSort (· ≤ ·)).getD i 0

/-- What is stored for one array: the table of values and the shape of a sample (onehot.py:52-59). -/
structure Fitted (K : Type) where
  table : List (List K)
  shape : List Nat

/-- The number of columns of the table; `fit` makes it the number of entries of a sample (onehot.py:53-58). -/
def Fitted.width (u : Fitted K) : Nat := (NArr.indices u.shape).length

/-- `OneHot.fit` for one array (onehot.py:52-59). -/
def fitLeaf (x : NArr K) : Fitted K := ⟨colSort (width x) (uniq (rows x)), x.shape.tail⟩

/-- `OneHot.fit` (onehot.py:28-61). -/
def fit (X : Tree (NArr K)) : Except PyErr (Tree (Fitted K)) := if inOk X then .ok (map fitLeaf X.norm) else .error .typeError

/-- Equality of two rows with broadcasting (onehot.py:92-94). -/
def eqRow (a b : List K) : Bool :=
  if a.length = b.length then decide (a = b)
  else if a.length = 1 then b.all fun v => decide (v = a.headD 0)
  else a.all fun v => decide (v = b.headD 0)

/-- `OneHot.transform` for one array (onehot.py:90-96). -/
def encode (x : NArr K) : List (Tree (Fitted K)) → Except PyErr (Tree (NArr K))
  | [.leaf u] =>
    if width x = u.width ∨ width x = 1 ∨ u.width = 1 then
      .ok (.leaf ⟨[x.shape.headD 0, u.table.length], fun i => match i with
        | [r, k] => if eqRow (row x r) (u.table.getD k []) then 1 else 0
        | _ => 0⟩)
    else .error .typeError
  | _ => .error .typeError

/-- `OneHot.transform` (onehot.py:63-98). -/
def transform (s : Option (Tree (Fitted K))) (X : Tree (NArr K)) : Except PyErr (Tree (NArr K)) :=
  if inOk X then match s with
    | Option.none => .error .runtimeError
    | some s => match jaxMap encode X [s] with
      | .error e => .error e
      | .ok Y => if outOk Y then .ok Y else .error .typeError
  else .error .typeError

/-- `OneHot.inverse_transform` for one array (onehot.py:131-134): a matrix product, then every row is put into shape. -/
def decode (x : NArr K) : List (Tree (Fitted K)) → Except PyErr (Tree (NArr K))
  | [.leaf u] =>
    if x.shape[1]? = some u.table.length then
      .ok (.leaf ⟨x.shape.headD 0 :: u.shape, fun i => match i with
        | r :: j => ((List.range u.table.length).map fun k => x.val [r, k] * (u.table.getD k []).getD ((NArr.indices u.shape).idxOf j) 0).sum
        | [] => 0⟩)
    else .error .typeError
  | _ => .error .typeError

/-- `OneHot.inverse_transform` (onehot.py:100-138). -/
def inverse (s : Option (Tree (Fitted K))) (X : Tree (NArr K)) : Except PyErr (Tree (NArr K)) :=
  if outOk X then match s with
    | Option.none => .error .runtimeError
    | some s => match jaxMap decode X [s] with
      | .error e => .error e
      | .ok Y => if inOk Y then .ok Y else .error .typeError
  else .error .typeError

end OneHot
end Verif
