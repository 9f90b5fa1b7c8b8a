import Verif.Model.Str

/-!
# Model of `graph_util.concretize_paths`

Mirrors `/repo/parametricmatrixmodels/graph_util.py` lines 10-98. A path is the list of its components (the empty
string is the empty list, line 50). Simplification: paths are grouped by the list of the first `cur_len` components
instead of by that list joined to a string (line 61).
`uuid.uuid4().hex` is an arbitrary function `fresh level index`: each pair of level and path index draws at most one.
-/

namespace Verif

/-- `if k not in d: d[k] = []` followed by `d[k].append(x)` (graph_util.py:62-64, 223-225, 281-283). -/
def dictAppend {κ ι : Type} [DecidableEq κ] : List (κ × List ι) → κ → ι → List (κ × List ι)
  | [], k, x => [(k, [x])]
  | (k', xs) :: d, k, x => if k' = k then (k', xs ++ [x]) :: d else (k', xs) :: dictAppend d k x

/-- A loop that files every item under its key (graph_util.py:59-64). -/
def groupItems {κ ι : Type} [DecidableEq κ] (key : ι → κ) (items : List ι) : List (κ × List ι) :=
  items.foldl (fun d x => dictAppend d (key x) x) []

namespace Concretize

/-- `prefix_to_paths` (graph_util.py:59-64): groups of `(path, index)` with the same first `c` components. The remainder
`p[cur_len:]` of the code is `p.drop c`. -/
def groupsAt (c : Nat) (paths : List (List Str)) : List (List Str × List (List Str × Nat)) :=
  groupItems (fun it : List Str × Nat => it.1.take c) paths.zipIdx

/-- The keys assigned inside one group (graph_util.py:69-94), as `(path index, new key)` pairs in order.
`none` means that `next(available_indices)` is exhausted (`StopIteration`). -/
def assign (fresh : Nat → Nat → Str) (c : Nat) (grp : List (List Str × Nat)) : Option (List (Nat × Str)) :=
  let empties := grp.filter (fun it => it.1.drop c = [])
  if grp.length ≤ 1 ∨ empties = [] then some []                                   -- 70-71
  else
    let existing := grp.filterMap (fun it => (it.1.drop c).head?)                 -- 73
    if existing.any (fun k => !isDigit k) then                                    -- 74-80
      some (empties.map fun it => (it.2, fresh c it.2))
    else                                                                          -- 81-94
      let available := (List.range grp.length).filter (fun n => n ∉ existing.map toInt)
      if available.length < empties.length then none
      else some (List.zipWith (fun it n => (it.2, ofNat n)) empties available)

/-- `paths[i] = paths[i] + [key]` (graph_util.py:80, 94). -/
def applyKeys (paths : List (List Str)) (us : List (Nat × Str)) : List (List Str) :=
  us.foldl (fun ps u => ps.modify u.1 (· ++ [u.2])) paths

/-- One round of the `while` loop (graph_util.py:56-95). The groups are computed first; then each group updates
`paths`. -/
def level (fresh : Nat → Nat → Str) (paths : List (List Str)) (c : Nat) : Option (List (List Str)) :=
  (groupsAt c paths).foldlM (fun ps g => (assign fresh c g.2).map (applyKeys ps)) paths

/-- `min(len(p) for p in paths)` and `max(...)` (graph_util.py:53-54) of a nonempty list. -/
def minLen (paths : List (List Str)) : Nat := (paths.map List.length).foldl min ((paths.map List.length).headD 0)
/-- See `minLen` (graph_util.py:54). -/
def maxLen (paths : List (List Str)) : Nat := (paths.map List.length).foldl max 0

/-- `concretize_paths` (graph_util.py:10-98). `none`: the function raises (empty input: `min()` of nothing). -/
def concretizePaths (fresh : Nat → Nat → Str) (paths : List (List Str)) : Option (List (List Str)) :=
  if paths = [] then none
  else (List.range' (minLen paths) (maxLen paths + 1 - minLen paths)).foldlM (level fresh) paths

end Concretize
end Verif
