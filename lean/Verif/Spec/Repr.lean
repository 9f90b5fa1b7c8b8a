import Verif.Model.Tree

/-!
# What the printed form of a tree has to show
-/

namespace Verif
namespace ReprSpec
open Tree

/-- The text without the spaces in front. -/
def lstrip : Str → Str
  | [] => []
  | c :: s => if c = ' ' then lstrip s else c :: s

/-- `c` at the end of the last line. -/
def suffix (c : Str) : List Str → List Str
  | [] => []
  | [x] => [x ++ c]
  | x :: y :: r => x :: suffix c (y :: r)

/-- The key in front of the lines of a value: on the same line if there is only one. -/
def keyed (k : Str) : List Str → List Str
  | [x] => [k ++ ": ".toList ++ x]
  | l => (k ++ ":".toList) :: l

mutual
/-- The lines to be shown for a tree, apart from indentation: an opening bracket, the items each followed by a comma, a closing bracket; `show` gives the lines of a leaf; `c` comes at the end. -/
def lines («show» : Str → List Str) (c : Str) : Tree Str → List Str
  | .leaf s => suffix c («show» s)
  | .none => suffix c («show» "None".toList)
  | .dict kvs => if kvs.isEmpty then ["{}".toList ++ c] else ['{'] :: (linesD «show» kvs ++ ['}' :: c])
  | .list ts => if ts.isEmpty then ["[]".toList ++ c] else ['['] :: (linesL «show» ts ++ [']' :: c])
  | .tuple ts => if ts.isEmpty then ["()".toList ++ c] else ['('] :: (linesL «show» ts ++ [')' :: c])
/-- The lines for the members of a list or tuple. -/
def linesL («show» : Str → List Str) : List (Tree Str) → List Str
  | [] => []
  | t :: ts => lines «show» [','] t ++ linesL «show» ts
/-- The lines for the members of a dictionary. -/
def linesD («show» : Str → List Str) : List (Str × Tree Str) → List Str
  | [] => []
  | (k, t) :: kvs => keyed k (lines «show» [','] t) ++ linesD «show» kvs
end

/-- A line with a text of its own: not empty, one line, and does not begin with a space or a bracket. -/
def PlainLeaf (s : Str) : Prop := s ≠ [] ∧ '\n' ∉ s ∧ s ≠ "None".toList ∧ ∀ c ∈ s.head?, c ∉ " {}[]()".toList

/-- A key with a text of its own: one line, without colon, and does not begin with a space or a closing brace. -/
def PlainKey (s : Str) : Prop := '\n' ∉ s ∧ ':' ∉ s ∧ ∀ c ∈ s.head?, c ∉ " }".toList

mutual
/-- All leaves and keys have texts of their own. -/
def Plain : Tree Str → Prop
  | .leaf s => PlainLeaf s
  | .none => True
  | .dict kvs => PlainD kvs
  | .list ts => PlainL ts
  | .tuple ts => PlainL ts
def PlainL : List (Tree Str) → Prop
  | [] => True
  | t :: ts => Plain t ∧ PlainL ts
def PlainD : List (Str × Tree Str) → Prop
  | [] => True
  | (k, t) :: kvs => PlainKey k ∧ Plain t ∧ PlainD kvs
end

mutual
/-- No key has a line break. -/
def KeysOneLine : Tree Str → Prop
  | .leaf _ => True
  | .none => True
  | .dict kvs => KeysOneLineD kvs
  | .list ts => KeysOneLineL ts
  | .tuple ts => KeysOneLineL ts
def KeysOneLineL : List (Tree Str) → Prop
  | [] => True
  | t :: ts => KeysOneLine t ∧ KeysOneLineL ts
def KeysOneLineD : List (Str × Tree Str) → Prop
  | [] => True
  | (k, t) :: kvs => '\n' ∉ k ∧ KeysOneLine t ∧ KeysOneLineD kvs
end

/-- The connections one by one. -/
def edges (conns : List (Str × Tree Str)) : List (Str × Tree Str) := conns.flatMap fun c => match c.2 with
  | .list ts | .tuple ts => ts.map fun t => (c.1, t)
  | t => [(c.1, t)]

end ReprSpec
end Verif
