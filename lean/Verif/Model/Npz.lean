import Verif.Model.NdArr
import Verif.Model.TreeMap

/-!
# Values in a `.npz` file

What `onp.savez` and `onp.load` do to a value, as used by `/repo/parametricmatrixmodels/preprocessing/scaler.py` lines 146-213. NumPy is not part of the repository; this is its
documented behaviour: every value becomes an array (`np.asanyarray`), lists and tuples of values of equal shape are stacked, lists and tuples of values of different shapes are
refused, and everything that is neither a number, a text, a list nor a tuple is kept as an object. Simplifications: the entries of a stacked array keep their kinds, and sequences
nested deeper than the number of axes NumPy supports are not refused.
-/

namespace Verif
namespace Tree
variable {α β : Type}

mutual
/-- `jax.tree.map(f, t)` for a function whose values are trees; `t` is already normalised (mixed_scaler.py:167-188). -/
def bind (f : α → Tree β) : Tree α → Tree β
  | .leaf a => f a
  | .none => .none
  | .list ts => .list (bindL f ts)
  | .tuple ts => .tuple (bindL f ts)
  | .dict kvs => .dict (bindD f kvs)
/-- `bind` of members (mixed_scaler.py:167-188). -/
def bindL (f : α → Tree β) : List (Tree α) → List (Tree β)
  | [] => []
  | t :: ts => bind f t :: bindL f ts
/-- `bind` of values (mixed_scaler.py:167-188). -/
def bindD (f : α → Tree β) : List (Str × Tree α) → List (Str × Tree β)
  | [] => []
  | (k, t) :: ts => (k, bind f t) :: bindD f ts
end

end Tree

namespace Npz
open Tree

/-- An entry of an array: a number, an integer, a switch or a text (scaler.py:158, 192-209). -/
inductive Entry (R : Type) where
  | num (x : R)
  | int (n : Nat)
  | flag (b : Bool)
  | text (s : Str)

/-- A Python value: a tree of arrays. A single number, switch or text is an array without axes (scaler.py:158, 192-209). -/
abbrev Val (R : Type) := Tree (NArr (Entry R))

variable {R : Type}

mutual
/-- The shape `np.asanyarray` finds for a value (scaler.py:158). -/
def shapeOf : Val R → Except PyErr (List Nat)
  | .leaf x => .ok x.shape
  | .none => .ok []
  | .dict _ => .ok []
  | .list ts => match shapeOfL ts with
    | .error e => .error e
    | .ok s => .ok (ts.length :: s)
  | .tuple ts => match shapeOfL ts with
    | .error e => .error e
    | .ok s => .ok (ts.length :: s)
/-- The common shape of the members (scaler.py:158). -/
def shapeOfL : List (Val R) → Except PyErr (List Nat)
  | [] => .ok []
  | t :: ts => match shapeOf t with
    | .error e => .error e
    | .ok s => match ts with
      | [] => .ok s
      | _ :: _ => match shapeOfL ts with
        | .error e => .error e
        | .ok s' => if s = s' then .ok s else .error .valueError
end

mutual
/-- Something in the lists and tuples is an object (scaler.py:158). -/
def hasObj : Val R → Bool
  | .leaf _ => false
  | .none => true
  | .dict _ => true
  | .list ts => hasObjL ts
  | .tuple ts => hasObjL ts
/-- `hasObj` of some member (scaler.py:158). -/
def hasObjL : List (Val R) → Bool
  | [] => false
  | t :: ts => hasObj t || hasObjL ts
end

mutual
/-- The entry of the stacked array (scaler.py:158). -/
def entryOf : Val R → List Nat → Entry R
  | .leaf x, i => x.val i
  | .list ts, i :: is => entryOfL ts i is
  | .tuple ts, i :: is => entryOfL ts i is
  | _, _ => .int 0
/-- The entry of member `i` (scaler.py:158). -/
def entryOfL : List (Val R) → Nat → List Nat → Entry R
  | [], _, _ => .int 0
  | t :: _, 0, is => entryOf t is
  | _ :: ts, i + 1, is => entryOfL ts i is
end

/-- `ndarray.tolist` of an array of numbers, for an array with axes `s` (scaler.py:202). -/
def expand : List Nat → (List Nat → Entry R) → Val R
  | [], f => .leaf ⟨[], f⟩
  | n :: s, f => .list ((List.range n).map fun i => expand s fun is => f (i :: is))

mutual
/-- `ndarray.tolist` of an array of objects: lists instead of tuples and arrays (scaler.py:202). -/
def toList : Val R → Val R
  | .leaf x => expand x.shape x.val
  | .none => .none
  | .dict kvs => .dict kvs
  | .list ts => .list (toListL ts)
  | .tuple ts => .list (toListL ts)
/-- `toList` of the members (scaler.py:202). -/
def toListL : List (Val R) → List (Val R)
  | [] => []
  | t :: ts => toList t :: toListL ts
end

/-- An array in the file: of numbers or texts, a single object, or objects (already as lists) (scaler.py:158, 192). -/
inductive Stored (R : Type) where
  | array (x : NArr (Entry R))
  | one (v : Val R)
  | objects (v : Val R)

/-- The array for a sequence (scaler.py:158). -/
def storeSeq (v : Val R) : Except PyErr (Stored R) :=
  match shapeOf v with
  | .error e => .error e
  | .ok s => if hasObj v then .ok (.objects (toList v)) else .ok (.array ⟨s, entryOf v⟩)

/-- `onp.savez` for one value (scaler.py:158). -/
def store (v : Val R) : Except PyErr (Stored R) :=
  match v with
  | .leaf x => .ok (.array x)
  | .none => .ok (.one .none)
  | .dict kvs => .ok (.one (.dict kvs))
  | .list ts => storeSeq (.list ts)
  | .tuple ts => storeSeq (.tuple ts)

/-- A text (scaler.py:195-207). -/
def Entry.isText : Entry R → Bool
  | .text _ => true
  | _ => false

/-- Reading one value (scaler.py:194-209): single values are unpacked, objects become lists, and the arrays of NumPy become arrays of JAX, which refuses texts. -/
def fetch (s : Stored R) : Except PyErr (Val R) :=
  match s with
  | .array x => if x.shape = [] then .ok (.leaf x) else if x.entries.any Entry.isText then .error .typeError else .ok (.leaf x)
  | .one v => .ok v.norm
  | .objects v => .ok v.norm

/-- A dictionary with the contents of an object (scaler.py:155, 195-209). -/
abbrev Record (R : Type) := List (Str × Val R)

/-- `onp.savez(filepath, **data)` (scaler.py:155-158, 170-173). -/
def storeAll : Record R → Except PyErr (List (Str × Stored R))
  | [] => .ok []
  | (k, v) :: d => match store v with
    | .error e => .error e
    | .ok s => match storeAll d with
      | .error e => .error e
      | .ok r => .ok ((k, s) :: r)

/-- `onp.load` and the conversion (scaler.py:190-211). -/
def fetchAll : List (Str × Stored R) → Except PyErr (Record R)
  | [] => .ok []
  | (k, s) :: d => match fetch s with
    | .error e => .error e
    | .ok v => match fetchAll d with
      | .error e => .error e
      | .ok r => .ok ((k, v) :: r)

/-! ## Files -/

/-- The argument `filepath`: a text or a `pathlib.Path` (scaler.py:146, 177). -/
inductive FilePath where
  | str (s : Str)
  | path (s : Str)

/-- The ending (scaler.py:156-157, 190-191). -/
def npzExt : Str := ".npz".toList

/-- The name with the ending, if it is missing (scaler.py:156-157, 190-191). -/
def withExt (s : Str) : Str := if npzExt.isSuffixOf s then s else s ++ npzExt

/-- The file that is written (scaler.py:156-158, 171-173); `onp.savez` itself also adds the ending. -/
def FilePath.written : FilePath → Str
  | .str s => withExt (withExt s)
  | .path s => withExt s

/-- The file that is read (scaler.py:190-192); `onp.load` adds no ending. -/
def FilePath.read : FilePath → Str
  | .str s => withExt s
  | .path s => s

/-- The files of the disk (scaler.py:158, 192). -/
abbrev Disk (R : Type) := Str → Option (List (Str × Stored R))

/-- `Scaler.save` (scaler.py:145-173) of an object with these contents. -/
def save (d : Record R) (fp : FilePath) (disk : Disk R) : Except PyErr (Disk R) :=
  match storeAll d with
  | .error e => .error e
  | .ok r => .ok fun n => if n = fp.written then some r else disk n

/-- The contents `Scaler.load` (scaler.py:175-211) hands to `deserialize`. (A missing file is `FileNotFoundError`, here `runtimeError`.) -/
def load (fp : FilePath) (disk : Disk R) : Except PyErr (Record R) :=
  match disk fp.read with
  | Option.none => .error .runtimeError
  | some r => fetchAll r

/-- `state[key]` (minmax_scaler.py:205-225; robust_scaler.py:275-282). -/
def field (d : Record R) (k : Str) : Except PyErr (Val R) :=
  match d.lookup k with
  | some v => .ok v
  | Option.none => .error .keyError

/-- `a, b = v`: lists and tuples of two members and arrays with two rows (minmax_scaler.py:64; robust_scaler.py:103). -/
def unpack2 (v : Val R) : Except PyErr (Val R × Val R) :=
  match v with
  | .list [a, b] => .ok (a, b)
  | .tuple [a, b] => .ok (a, b)
  | .leaf x => match x.shape with
    | 2 :: s => .ok (.leaf ⟨s, fun i => x.val (0 :: i)⟩, .leaf ⟨s, fun i => x.val (1 :: i)⟩)
    | _ => .error .valueError
  | _ => .error .valueError

end Npz
end Verif
