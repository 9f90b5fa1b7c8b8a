import Verif.Model.Tree

/-!
# Model of the printed form of modules and models

Mirrors `/repo/parametricmatrixmodels/tree_util.py` lines 1345-1508 (`strfmt_pytree`), `modules/basemodule.py` lines 175-201, `model.py` lines 73-83 and `nonsequentialmodel.py` lines 273-290 (`__repr__`).

The leaves of a tree are given by their `repr`. The argument `is_leaf` is left out (the library does not give it).
-/

namespace Verif
namespace Repr
open Tree

/-- The arguments `indentation` (a negative number of spaces is none), `max_leaf_chars` and `base_indent_str` (tree_util.py:1345-1352). -/
structure Fmt where
  indentation : Nat
  maxChars : Option Int
  base : Str

/-- `s[:k]` (tree_util.py:1387). -/
def slice (s : Str) (k : Int) : Str := if 0 ≤ k then s.take k.toNat else s.take (s.length - (-k).toNat)

/-- `truncate_leaf` of one line (tree_util.py:1386-1388). -/
def truncLine (m : Int) (s : Str) : Str := if m < s.length then slice s (m - 3) ++ "...".toList else s

/-- `truncate_leaf` (tree_util.py:1377-1388). -/
def truncate (m : Option Int) (s : Str) : Str := match m with
  | Option.none => s
  | some m => if '\n' ∈ s then joinWith '\n' ((splitOn '\n' s).map (truncLine m)) else truncLine m s

/-- `" " * n * indentation` (tree_util.py:1374-1375). -/
def pad (f : Fmt) (n : Nat) : Str := List.replicate (n * f.indentation) ' '

/-- `",\n".join` (tree_util.py:1429, 1465, 1498). -/
def joinComma : List Str → Str
  | [] => []
  | [x] => x
  | x :: y :: r => x ++ (",\n".toList ++ joinComma (y :: r))

/-- What stands in front of an item of level `n` (tree_util.py:1375, 1415, 1419, 1424, 1454, 1461). -/
def lead (f : Fmt) (n : Nat) : Str := f.base ++ pad f (n + 1)

/-- The text of several lines, all indented (tree_util.py:1414-1417, 1453-1456, 1488-1491). -/
def indentAll (f : Fmt) (n : Nat) (s : Str) : Str := joinWith '\n' ((splitOn '\n' s).map (lead f n ++ ·))

/-- An item of a list or tuple (tree_util.py:1452-1462, 1487-1495). -/
def item (f : Fmt) (n : Nat) (s : Str) : Str := if '\n' ∈ s then indentAll f n s else lead f n ++ s

/-- An item of a dictionary (tree_util.py:1413-1426). -/
def entry (f : Fmt) (n : Nat) (k s : Str) : Str := if '\n' ∈ s then lead f n ++ k ++ ":\n".toList ++ indentAll f n s else lead f n ++ k ++ ": ".toList ++ s

/-- At the top the text begins with the base indentation (tree_util.py:1396-1400, 1505-1508). -/
def top (f : Fmt) (n : Nat) (s : Str) : Str := if n = 0 then f.base ++ s else s

/-- A container that is not empty (tree_util.py:1428-1430, 1464-1466, 1497-1499). -/
def container (f : Fmt) (n : Nat) (o c : Char) (items : List Str) : Str := o :: '\n' :: (joinComma items ++ (",\n".toList ++ (f.base ++ (pad f n ++ [c]))))

mutual
/-- `strfmt_pytree` (tree_util.py:1345-1508). -/
def fmt (f : Fmt) (n : Nat) : Tree Str → Str
  | .leaf s => top f n (truncate f.maxChars s)
  | .none => top f n (truncate f.maxChars "None".toList)
  | .dict kvs => top f n (if kvs.isEmpty then "{}".toList else container f n '{' '}' (fmtD f n kvs))
  | .list ts => top f n (if ts.isEmpty then "[]".toList else container f n '[' ']' (fmtL f n ts))
  | .tuple ts => top f n (if ts.isEmpty then "()".toList else container f n '(' ')' (fmtL f n ts))
/-- The items of a list or tuple (tree_util.py:1440-1462, 1476-1495). -/
def fmtL (f : Fmt) (n : Nat) : List (Tree Str) → List Str
  | [] => []
  | t :: ts => item f n (fmt f (n + 1) t) :: fmtL f n ts
/-- The items of a dictionary (tree_util.py:1402-1426). -/
def fmtD (f : Fmt) (n : Nat) : List (Str × Tree Str) → List Str
  | [] => []
  | (k, t) :: kvs => entry f n k (fmt f (n + 1) t) :: fmtD f n kvs
end

/-- What `repr` of a module looks at: its name, the number of trainable floats if known, whether it is ready and whether it is trainable (basemodule.py:186-195). -/
structure Info where
  name : Str
  floats : Option Nat
  ready : Bool
  trainable : Bool

/-- A comma after every three characters (basemodule.py:193, 197). -/
def group3 : Str → Str
  | a :: b :: c :: d :: r => a :: b :: c :: ',' :: group3 (d :: r)
  | l => l

/-- `f"{n:,}"` (basemodule.py:193, 197). -/
def num (n : Nat) : Str := (group3 (ofNat n).reverse).reverse

/-- `BaseModule.__repr__` (basemodule.py:175-201). -/
def moduleRepr (i : Info) : Str :=
  match i.floats, i.ready with
  | some n, true =>
    if n = 0 then i.name
    else if i.trainable = false then i.name ++ (" (trainable floats: ".toList ++ (num n ++ ") [frozen])".toList))
    else i.name ++ (" (trainable floats: ".toList ++ (num n ++ ")".toList))
  | _, false => i.name ++ " (uninitialized)".toList
  | Option.none, true => i.name

/-- `Model.__repr__` (model.py:73-83). -/
def modelRepr (name : Str) (modules : Tree Str) : Str := name ++ ("(\n".toList ++ (fmt ⟨1, Option.none, "  ".toList⟩ 0 modules ++ "\n)".toList))

/-- The text of a path (nonsequentialmodel.py:283-287). Simplification: a list inside a list is printed as nothing (the code prints its `repr`). -/
def pathStr : Tree Str → Str
  | .leaf s => s
  | _ => []

/-- The lines of one connection (nonsequentialmodel.py:282-288). -/
def connLines (c : Str × Tree Str) : List Str := match c.2 with
  | .list ts | .tuple ts => ts.map fun t => c.1 ++ (" -> ".toList ++ pathStr t)
  | t => [c.1 ++ (" -> ".toList ++ pathStr t)]

/-- `NonSequentialModel.__repr__` (nonsequentialmodel.py:273-290). -/
def nonSeqRepr (name : Str) (modules : Tree Str) (conns : List (Str × Tree Str)) : Str :=
  modelRepr name modules ++ ("\nConnections:\n".toList ++ if conns.isEmpty then "No connections defined.".toList else joinWith '\n' (conns.flatMap connLines))

end Repr
end Verif
