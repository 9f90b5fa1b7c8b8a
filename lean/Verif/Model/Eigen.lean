import Verif.Model.JaxTree
import Verif.Model.TreeMap
import Mathlib.Data.List.Sort
import Mathlib.Algebra.Order.Group.Unbundled.Abs

/-!
# Model of the eigenvalue modules

Mirrors `/repo/parametricmatrixmodels/eigen_util.py` and `modules/eigenvalues.py`, `eigenvectors.py`, `eigensystem.py`. Eigenvalues are
elements of an ordered group (exact arithmetic, no NaN); a matrix of eigenvectors is the list of its columns, of any type. The
decompositions `np.linalg.eigvalsh` and `np.linalg.eigh` are parameters.
-/

namespace Verif
namespace Eigen

/-- The slice `l[lo:hi]` for arbitrary integer bounds (eigen_util.py:129-151). -/
def pySlice {β : Type} (l : List β) (lo hi : Int) : List β :=
  let norm (i : Int) : Nat := if i < 0 then (i + l.length).toNat else i.toNat
  (l.take (norm hi)).drop (norm lo)

/-- The slice `l[lo:]` (eigen_util.py:131, 138). -/
def pyFrom {β : Type} (l : List β) (lo : Int) : List β := pySlice l lo l.length

/-- Which part of the ordered spectrum (eigen_util.py:128-153). -/
inductive Part | smallest | largest | exterior | interior
  deriving DecidableEq, Repr

/-- Ordered by value or by absolute value (eigen_util.py:122-125). -/
inductive Order | algebraic | magnitude
  deriving DecidableEq, Repr

/-- Parsing of `which` (eigen_util.py:104-117): only the first and the last letter of the lower-cased string matter. `str.lower` is
ASCII only. -/
def parseWhich (w : Str) : Except PyErr (Part × Order) :=
  let w := w.map Char.toLower
  let part : Option Part := match w.head? with
    | some 's' => some .smallest
    | some 'l' => some .largest
    | some 'e' => some .exterior
    | some 'i' => some .interior
    | _ => none
  let order : Option Order := match w.getLast? with
    | some 'a' => some .algebraic
    | some 'm' => some .magnitude
    | _ => none
  match part, order with
  | some p, some o => .ok (p, o)
  | _, _ => .error .valueError

variable {α γ : Type} [AddCommGroup α] [LinearOrder α]

/-- The sorting key: the value or its absolute value (eigen_util.py:122-125). -/
def key (o : Order) (a : α) : α := match o with
  | .algebraic => a
  | .magnitude => |a|

/-- `am_sort_fn` (eigen_util.py:121-125): `np.argsort`, stable. -/
def argsort (o : Order) (E : List α) : List Nat :=
  (List.range E.length).insertionSort fun i j => key o (E.getD i 0) ≤ key o (E.getD j 0)

/-- `idx_fn` (eigen_util.py:127-156). -/
def idxFn (p : Part) (o : Order) (E : List α) (k : Nat) : List Nat :=
  let sorted := argsort o E
  let kHalf := k / 2
  let kRem := k - kHalf
  match p with
  | .smallest => pySlice sorted 0 k
  | .largest => pyFrom sorted (-(k : Int))
  | .exterior => pySlice sorted 0 kHalf ++ pyFrom sorted (-(kRem : Int))
  | .interior =>
    let nHalf := E.length / 2
    pySlice sorted ((nHalf : Int) - kHalf) nHalf ++ pySlice sorted nHalf ((nHalf : Int) + kRem)

/-- `select_eigenpairs_by_fn` (eigen_util.py:29-67). The indices are always in range. -/
def selectByFn (E : List α) (V : Option (List γ)) (k : Option Nat) (idx : List Nat) : List α × Option (List γ) :=
  let k := k.getD E.length
  ((idx.filterMap (E[·]?)).take k, V.map fun V => (idx.filterMap (V[·]?)).take k)

/-- `select_eigenpairs_by_eigenvalue` (eigen_util.py:70-162). -/
def selectPairs (E : List α) (V : Option (List γ)) (k : Option Nat) (which : Str) : Except PyErr (List α × Option (List γ)) :=
  match parseWhich which with
  | .error e => .error e
  | .ok (p, o) => .ok (selectByFn E V (some (k.getD E.length)) (idxFn p o E (k.getD E.length)))

/-- `select_eigenvalues` (eigen_util.py:165-194). -/
def selectValues (E : List α) (k : Option Nat) (which : Str) : Except PyErr (List α) :=
  match selectPairs E (none : Option (List Unit)) k which with
  | .error e => .error e
  | .ok r => .ok r.1

/-- The attributes of the three modules (eigenvalues.py:94-95; eigenvectors.py:100-101; eigensystem.py:97-98). -/
structure Cfg where
  numEig : Option Nat
  which : Str
  deriving DecidableEq, Repr

/-- The names accepted by the constructors (eigenvalues.py:79-88). -/
def options : List Str := ["sa".toList, "la".toList, "sm".toList, "lm".toList, "ea".toList, "em".toList, "ia".toList, "im".toList]

/-- `__init__` (eigenvalues.py:75-95, eigenvectors.py:79-101, eigensystem.py:78-98). -/
def mkCfg (numEig : Option Int) (which : Str) : Except PyErr Cfg :=
  if numEig.any (fun k => decide (k ≤ 0)) then .error .valueError
  else if ¬ which.map Char.toLower ∈ options then .error .valueError
  else .ok ⟨numEig.map Int.toNat, which.map Char.toLower⟩

/-- A shape tree: every leaf is the shape of one array, without the batch axis (typing.py:133-139). -/
abbrev Shapes := Tree (List Nat)

/-- `is_valid_shape` (eigen_util.py:13-18). -/
def validShape (k : Option Nat) : List Nat → Bool
  | [a, b] => a == b && k.all fun k => decide (k ≤ a)
  | _ => false

/-- `validate_eigensystem_input_shape` (eigen_util.py:10-26). -/
def validate (s : Shapes) (k : Option Nat) : Except PyErr Unit :=
  if (Tree.flat s.norm).all (validShape k) then .ok () else .error .valueError

/-- The callable of `Eigenvalues` (eigenvalues.py:115-144): `eigvalsh` gives the eigenvalues of one matrix. -/
def valuesCallable {μ : Type} (eigvalsh : μ → List α) (c : Cfg) (data : Tree (List μ)) : Except PyErr (Tree (List (List α))) :=
  Tree.mapM (fun xs => match xs.mapM (fun A => selectValues (eigvalsh A) c.numEig c.which) with
    | .ok r => .ok (.leaf r)
    | .error e => .error e) data.norm

/-- One matrix: the selected pairs (eigen_util.py:70-162). -/
def pairsOf {μ : Type} (eigh : μ → List α × List γ) (c : Cfg) (A : μ) : Except PyErr (List α × List γ) :=
  match selectPairs (eigh A).1 (some (eigh A).2) c.numEig c.which with
  | .ok (E, some V) => .ok (E, V)
  | .ok (_, none) => .error .typeError
  | .error e => .error e

/-- The callable of `Eigenvectors` (eigenvectors.py:121-148): the second components. -/
def vectorsCallable {μ : Type} (eigh : μ → List α × List γ) (c : Cfg) (data : Tree (List μ)) : Except PyErr (Tree (List (List γ))) :=
  Tree.mapM (fun xs => match xs.mapM (pairsOf eigh c) with
    | .ok r => .ok (.leaf (r.map Prod.snd))
    | .error e => .error e) data.norm

/-- `get_eigensystem` (eigensystem.py:120-127) on one array: the two values of the dictionary. -/
def systemLeaf {μ : Type} (eigh : μ → List α × List γ) (c : Cfg) (xs : List μ) : Except PyErr (Tree (List (List α) × List (List γ))) :=
  match xs.mapM (pairsOf eigh c) with
  | .ok r => .ok (.leaf (r.map Prod.fst, r.map Prod.snd))
  | .error e => .error e

/-- The leaves of the transposed tree from left to right: the dictionary at every place contributes its values in the order of its keys (eigensystem.py:130-153). -/
def interleave {β δ : Type} (l : List (β × δ)) : List (β ⊕ δ) := l.flatMap fun x => [.inl x.1, .inr x.2]

/-- Every second element, from the first (eigensystem.py:130-153). -/
def evens {β : Type} : List β → List β
  | [] => []
  | [a] => [a]
  | a :: _ :: l => a :: evens l

/-- Every second element, from the second (eigensystem.py:130-153). -/
def odds {β : Type} : List β → List β
  | [] => []
  | [_] => []
  | _ :: b :: l => b :: odds l

/-- The callable of `Eigensystem` (eigensystem.py:129-153): `jax.tree.transpose` cuts the leaves into rows of two, transposes, and
rebuilds the structure of the data for each key. The leaves of the intermediate tree are pairs here, standing for the dictionaries. -/
def systemCallable {μ : Type} (eigh : μ → List α × List γ) (c : Cfg) (data : Tree (List μ)) :
    Except PyErr (Tree (List (List α) ⊕ List (List γ))) :=
  match Tree.mapM (systemLeaf eigh c) data.norm with
  | .error e => .error e
  | .ok t =>
    let flat := interleave (Tree.flat t)
    match Tree.unflatten data (evens flat), Tree.unflatten data (odds flat) with
    | .ok a, .ok b => .ok (.dict [("eigenvalues".toList, a), ("eigenvectors".toList, b)])
    | .error e, _ => .error e
    | _, .error e => .error e

/-- `Eigenvectors.get_output_shape` (eigenvectors.py:154-163). -/
def vectorsShape (c : Cfg) (s : Shapes) : Except PyErr Shapes :=
  match validate s c.numEig with
  | .error e => .error e
  | .ok () => .ok (Tree.map (fun sh => [sh.headD 0, c.numEig.getD (sh.headD 0)]) s.norm)

/-- `Eigensystem.get_output_shape` (eigensystem.py:161-212). -/
def systemShape (c : Cfg) (s : Shapes) : Except PyErr Shapes :=
  match validate s c.numEig with
  | .error e => .error e
  | .ok () => .ok (.dict [("eigenvalues".toList, Tree.map (fun sh => [c.numEig.getD (sh.getLastD 0)]) s.norm),
      ("eigenvectors".toList, Tree.map (fun sh => [sh.getLastD 0, c.numEig.getD (sh.getLastD 0)]) s.norm)])

/-- `Eigenvalues.get_output_shape` (eigenvalues.py:150-158). Without `num_eig` the entry is `input_shape[0]` of the whole input shape:
a number only if the input shape is a single array, else the first component of the container. -/
def valuesShape (c : Cfg) (s : Shapes) : Except PyErr (Tree (List (Nat ⊕ Shapes))) :=
  match validate s c.numEig with
  | .error e => .error e
  | .ok () =>
    let entry : Except PyErr (Nat ⊕ Shapes) := match c.numEig with
      | some k => .ok (.inl k)
      | none => match s with
        | .leaf (a :: _) => .ok (.inl a)
        | .leaf [] => .error .indexError
        | .none => .error .typeError
        | .list (t :: _) => .ok (.inr t)
        | .tuple (t :: _) => .ok (.inr t)
        | .list [] => .error .indexError
        | .tuple [] => .error .indexError
        | .dict _ => .error .keyError
    if (Tree.flat s.norm).isEmpty then .ok (Tree.map (fun _ => []) s.norm)
    else match entry with
      | .error e => .error e
      | .ok x => .ok (Tree.map (fun _ => [x]) s.norm)

end Eigen
end Verif
