/-!
# Strings and separator-joined paths

Python strings are lists of characters. The separator is a single character (simplification: `separator` may be any
string in the code; the default is `"."`). `str.isdigit` is restricted to ASCII digits (simplification: Python also
accepts other Unicode digits).
-/

namespace Verif

/-- A Python `str` (tree_util.py:182-289). -/
abbrev Str := List Char

/-- Python exceptions raised by the modelled functions (e.g. tree_util.py:258-283; graph_util.py:757-764). -/
inductive PyErr where
  | keyError | indexError | typeError | valueError | runtimeError | zeroDivision | assertionError
  deriving DecidableEq, Repr

/-- `s.split(sep)` for a one-character separator (used at tree_util.py:265, 329, 472; graph_util.py:50). -/
def splitOn (sep : Char) : Str → List Str
  | [] => [[]]
  | c :: cs =>
    if c = sep then [] :: splitOn sep cs
    else match splitOn sep cs with
      | [] => [[c]]
      | w :: ws => (c :: w) :: ws

/-- `sep.join(parts)` (used at tree_util.py:474; graph_util.py:97). -/
def joinWith (sep : Char) : List Str → Str
  | [] => []
  | [w] => w
  | w :: w' :: ws => w ++ sep :: joinWith sep (w' :: ws)

/-- `key.isdigit()` (ASCII) (tree_util.py:269, 342). -/
def isDigit (s : Str) : Bool := !s.isEmpty && s.all Char.isDigit

/-- `int(key)` for a digit string (tree_util.py:273, 346). -/
def toInt (s : Str) : Nat := s.foldl (fun n c => 10 * n + (c.toNat - '0'.toNat)) 0

/-- `str(n)` for a natural number (graph_util.py:93). -/
def ofNat (n : Nat) : Str := Nat.toDigits 10 n

end Verif
