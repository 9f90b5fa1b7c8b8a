import Verif.Model.Concretize
import Verif.Model.Tree

/-!
# Model of the connection processing of non-sequential models

Mirrors `/repo/parametricmatrixmodels/graph_util.py` lines 101-682 at the level of strings. The connections dictionary
has already been brought to the form `{key: [values]}` (lines 449-454). The separator is one character.
-/

namespace Verif
namespace Conn

/-- `s.removeprefix(p)` (graph_util.py:482, 508, 660). -/
def removePrefix (p s : Str) : Str := if p.isPrefixOf s then s.drop p.length else s
/-- `s.removesuffix(x)` (graph_util.py:498, 527). -/
def removeSuffix (x s : Str) : Str := if x.isSuffixOf s then s.take (s.length - x.length) else s
/-- `s.lstrip(sep)` for a one-character argument (graph_util.py:482, 508). -/
def lstrip (sep : Char) (s : Str) : Str := s.dropWhile (· = sep)
/-- `s.rstrip(sep)` (graph_util.py:498). -/
def rstrip (sep : Char) (s : Str) : Str := (s.reverse.dropWhile (· = sep)).reverse
/-- `s.strip(sep)` (graph_util.py:289-290, 660, 670). -/
def strip (sep : Char) (s : Str) : Str := rstrip sep (lstrip sep s)

/-- `double_sep in s` (graph_util.py:460, 466). -/
def hasDouble (sep : Char) : Str → Bool
  | a :: b :: r => (a == sep && b == sep) || hasDouble sep (b :: r)
  | _ => false

/-- `s.split(double_sep)`: occurrences are found from the left and do not overlap (graph_util.py:222, 367, 371). -/
def splitDouble (sep : Char) : Str → List Str
  | [] => [[]]
  | [c] => [[c]]
  | a :: b :: r =>
    if a = sep ∧ b = sep then [] :: splitDouble sep r
    else match splitDouble sep (b :: r) with
      | [] => [[a]]
      | w :: ws => (a :: w) :: ws

/-- `s.replace(double_sep, separator)` (graph_util.py:289-290). -/
def replaceDouble (sep : Char) : Str → Str
  | [] => []
  | [c] => [c]
  | a :: b :: r => if a = sep ∧ b = sep then sep :: replaceDouble sep r else a :: replaceDouble sep (b :: r)

/-- `inKey`, `outKey` and the separator (graph_util.py:378-385, 537-543). -/
structure Cfg where
  sep : Char
  inKey : Str
  outKey : Str

/-- The arguments used by the library: `"."`, `"input"`, `"output"` (nonsequentialmodel.py:74, 304-310, 543-550). -/
def Cfg.default : Cfg := ⟨'.', "input".toList, "output".toList⟩

variable {β : Type}

/-- `getitem_by_strpath(tree, s, allow_early_return=True, return_remainder=True)`: the remainder (graph_util.py:490-496,
519-525). -/
def remainder (cfg : Cfg) (tree : Tree β) (s : Str) : Except PyErr Str :=
  match Tree.getPath (fun _ => false) true tree (splitOn cfg.sep s) with
  | .ok (_, rem) => .ok (joinWith cfg.sep rem)
  | .error e => .error e

/-- `s.startswith(k + separator) or s == k` (graph_util.py:478, 484, 504, 512). -/
def isKey (cfg : Cfg) (k s : Str) : Bool := (k ++ [cfg.sep]).isPrefixOf s || s == k

/-- The new key for a source string (graph_util.py:478-501). -/
def partKey (cfg : Cfg) (tree : Tree β) (key : Str) : Except PyErr Str :=
  if isKey cfg cfg.inKey key then
    .ok (cfg.inKey ++ [cfg.sep, cfg.sep] ++ lstrip cfg.sep (removePrefix cfg.inKey key))
  else if isKey cfg cfg.outKey key then .error .valueError
  else match remainder cfg tree key with
    | .ok rem => .ok (rstrip cfg.sep (removeSuffix rem key) ++ [cfg.sep, cfg.sep] ++ rem)
    | .error e => .error e

/-- The new value for a target string (graph_util.py:504-531). -/
def partVal (cfg : Cfg) (tree : Tree β) (v : Str) : Except PyErr Str :=
  if isKey cfg cfg.outKey v then
    .ok (cfg.outKey ++ [cfg.sep, cfg.sep] ++ lstrip cfg.sep (removePrefix cfg.outKey v))
  else if isKey cfg cfg.inKey v then .error .valueError
  else match remainder cfg tree v with
    | .ok rem => .ok (removeSuffix [cfg.sep] (removeSuffix rem v) ++ [cfg.sep, cfg.sep] ++ rem)
    | .error e => .error e

/-- The loop over the entries (graph_util.py:477-532), accumulating the new dictionary. -/
def partLoop (cfg : Cfg) (tree : Tree β) :
    List (Str × List Str) → List (Str × List Str) → Except PyErr (List (Str × List Str))
  | acc, [] => .ok acc
  | acc, (key, vs) :: rest =>
    match partKey cfg tree key with
    | .error e => .error e
    | .ok nk =>
      match vs.mapM (partVal cfg tree) with
      | .error e => .error e
      | .ok nvs => partLoop cfg tree (dictSet acc nk nvs) rest

/-- `partition_connections_by_tree` (graph_util.py:378-534). -/
def partition (cfg : Cfg) (tree : Tree β) (conn : List (Str × List Str)) : Except PyErr (List (Str × List Str)) :=
  if conn.any (fun kv => hasDouble cfg.sep kv.1 || kv.2.any (hasDouble cfg.sep)) then .error .valueError  -- 459-471
  else partLoop cfg tree [] conn

/-! ### Module-level graph -/

/-- `OrderedSet.add` (graph_util.py:372). -/
def setAdd (xs : List Str) (x : Str) : List Str := if x ∈ xs then xs else xs ++ [x]

/-- `a, b = s.split(double_sep)` (graph_util.py:222, 367, 371). -/
def unpack (sep : Char) (s : Str) : Except PyErr (Str × Str) :=
  match splitDouble sep s with
  | [a, b] => .ok (a, b)
  | _ => .error .valueError

/-- The stripped key (graph_util.py:362-367). The reserved words are literals in the code. -/
def outerKey (cfg : Cfg) (key : Str) : Except PyErr Str :=
  if "input".toList.isPrefixOf key || "output".toList.isPrefixOf key then
    .ok ((splitOn cfg.sep key).headD [])
  else match unpack cfg.sep key with
    | .ok (a, _) => .ok a
    | .error e => .error e

/-- The loop of `get_outer_connections_by_tree` (graph_util.py:361-372). -/
def outerLoop (cfg : Cfg) : List (Str × List Str) → List (Str × List Str) → Except PyErr (List (Str × List Str))
  | acc, [] => .ok acc
  | acc, (key, vs) :: rest =>
    match outerKey cfg key with
    | .error e => .error e
    | .ok sk =>
      match vs.mapM (unpack cfg.sep) with
      | .error e => .error e
      | .ok pairs =>
        outerLoop cfg (dictSet acc sk ((pairs.map Prod.fst).foldl setAdd ((acc.lookup sk).getD []))) rest

/-- `get_outer_connections_by_tree` (graph_util.py:296-375). -/
def outerConnections (cfg : Cfg) (tree : Tree β) (conn : List (Str × List Str)) :
    Except PyErr (List (Str × List Str)) :=
  match partition cfg tree conn with
  | .error e => .error e
  | .ok p => outerLoop cfg [] p

/-! ### Concrete connections -/

/-- An item of `outer_to_inner_w_key` (graph_util.py:220-225): outer path, inner path, key. -/
abbrev Item := Str × Str × Str

/-- The items in the order they are met (graph_util.py:220-225). -/
def itemsOf (cfg : Cfg) : List (Str × List Str) → Except PyErr (List Item)
  | [] => .ok []
  | (key, vs) :: rest =>
    match vs.mapM (unpack cfg.sep) with
    | .error e => .error e
    | .ok pairs =>
      match itemsOf cfg rest with
      | .error e => .error e
      | .ok r => .ok (pairs.map (fun p => (p.1, p.2, key)) ++ r)

/-- `concretize_paths(inner_paths)` on strings (graph_util.py:50, 97, 233-236). -/
def concreteInner (cfg : Cfg) (fresh : Nat → Nat → Str) (inner : List Str) : Except PyErr (List Str) :=
  match Concretize.concretizePaths fresh (inner.map fun p => if p = [] then [] else splitOn cfg.sep p) with
  | some ps => .ok (ps.map (joinWith cfg.sep))
  | none => .error .valueError

/-- The numbering of duplicates (graph_util.py:239-264): `seen` holds the paths already emitted. -/
def numberDups (cfg : Cfg) (all : List Str) : List Str → List Str → List Str
  | _, [] => []
  | seen, p :: ps =>
    (if all.count p > 1 then
      (if p = [] then ofNat (seen.count p) else p ++ [cfg.sep] ++ ofNat (seen.count p))
     else p) :: numberDups cfg all (seen ++ [p]) ps

/-- One outer path: concrete inner paths paired with the keys again (graph_util.py:233-272), and the new values with
their keys (276-283). -/
def rebuildGroup (cfg : Cfg) (fresh : Nat → Nat → Str) (outer : Str) (items : List Item) :
    Except PyErr (List (Str × Str)) :=
  match concreteInner cfg fresh (items.map fun it => it.2.1) with
  | .error e => .error e
  | .ok inner =>
    .ok (List.zipWith (fun i (it : Item) => (it.2.2, outer ++ [cfg.sep, cfg.sep] ++ i))
      (numberDups cfg inner [] inner) items)

/-- `concretize_connections` (graph_util.py:101-293). The identifiers drawn for each outer path are a parameter. -/
def concretizeConnections (cfg : Cfg) (fresh : Str → Nat → Nat → Str) (tree : Tree β)
    (conn : List (Str × List Str)) : Except PyErr (List (Str × List Str)) :=
  match partition cfg tree conn with
  | .error e => .error e
  | .ok p =>
    match itemsOf cfg p with
    | .error e => .error e
    | .ok items =>
      match (groupItems (fun it : Item => it.1) items).mapM (fun g => rebuildGroup cfg (fresh g.1) g.1 g.2) with
      | .error e => .error e
      | .ok gs =>
        let regrouped := groupItems (fun e : Str × Str => e.1) gs.flatten                             -- 274-283
        .ok (regrouped.foldl (fun d g => dictSet d (strip cfg.sep (replaceDouble cfg.sep g.1))
          (g.2.map fun e => strip cfg.sep (replaceDouble cfg.sep e.2))) [])                            -- 288-293

/-! ### Placing the sources in trees -/

/-- `reversed_conn` (graph_util.py:629-632). -/
def reverseConn (conn : List (Str × List Str)) : List (Str × List Str) :=
  (groupItems (fun e : Str × Str => e.2) (conn.flatMap fun kv => kv.2.map fun v => (kv.1, v))).map
    fun g => (g.1, g.2.map Prod.fst)

/-- `place_connections_in_tree` (graph_util.py:537-682): the tree of module inputs and the tree of outputs, both with
source strings as leaves. -/
def place (cfg : Cfg) (fresh : Str → Nat → Nat → Str) (tree : Tree β) (conn : List (Str × List Str)) :
    Except PyErr (Tree Str × Tree Str) :=
  match concretizeConnections cfg fresh tree conn with
  | .error e => .error e
  | .ok cc =>
    let rev := reverseConn cc
    if rev.any (fun kv => kv.2.length > 1) then .error .runtimeError                                    -- 636-641
    else
      let rev1 := rev.map fun kv => (kv.1, kv.2.headD [])                                               -- 643
      let outs := rev1.filter fun kv => cfg.outKey.isPrefixOf kv.1                                      -- 647
      let eqv : Tree Str → Tree Str → Bool := fun a b => match a, b with
        | .leaf x, .leaf y => x == y
        | _, _ => false
      let output : Except PyErr (Tree Str) :=
        if outs.map Prod.fst = [cfg.outKey] then .ok (.leaf ((outs.map Prod.snd).headD []))             -- 651-655
        else Tree.extend eqv .none (outs.map fun kv =>
          (splitOn cfg.sep (strip cfg.sep (removePrefix (cfg.outKey ++ [cfg.sep]) kv.1)), .leaf kv.2))  -- 657-665
      match output with
      | .error e => .error e
      | .ok o =>
        match Tree.extend eqv .none ((rev1.filter fun kv => !(cfg.outKey ++ [cfg.sep]).isPrefixOf kv.1).map fun kv =>
          (splitOn cfg.sep (strip cfg.sep kv.1), .leaf kv.2)) with                                      -- 667-680
        | .error e => .error e
        | .ok t => .ok (t, o)

end Conn
end Verif
