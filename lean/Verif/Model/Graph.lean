/-!
# Model of `graph_util.resolve_connections`

Mirrors `/repo/parametricmatrixmodels/graph_util.py` lines 685-786.

Conventions: a Python `dict` is an association list in insertion order; a `defaultdict` is a total function; a Python
list used as a stack is a list whose *head* is the Python list's *last* element; `while` loops take a fuel argument and
return `none` when it runs out (the theorems show that this never happens with the fuel used here).
Node names (Python strings) are elements of an arbitrary type `α` with decidable equality.
-/

namespace Verif.Graph

variable {α : Type} [DecidableEq α]

/-- `graph: Dict[str, List[str]]` (graph_util.py:686), in insertion order. -/
abbrev Graph (α : Type) := List (α × List α)

/-- `graph.get(node, [])` (graph_util.py:723, 750). -/
def nbrs (g : Graph α) (u : α) : List α := (g.lookup u).getD []

/-- All `(node, neighbor)` pairs in the order of the nested loops at graph_util.py:702-703 and 707-708. -/
def edges (g : Graph α) : List (α × α) := g.flatMap fun p => p.2.map fun v => (p.1, v)

/-- Assignment to one key of a `defaultdict` (graph_util.py:697-699). -/
def upd {β : Type} (f : α → β) (k : α) (b : β) : α → β := fun x => if x = k then b else f x

/-- The loop building `reverse_graph` (graph_util.py:702-704). `reverse_in_degree` (705) is never read and not modelled. -/
def reverseGraph (g : Graph α) : α → List α :=
  (edges g).foldl (fun r e => upd r e.2 (r e.2 ++ [e.1])) (fun _ => [])

/-- The loop building `in_degree` (graph_util.py:707-709). -/
def inDegree (g : Graph α) : α → Int :=
  (edges g).foldl (fun d e => upd d e.2 (d e.2 + 1)) (fun _ => 0)

/-- The inner loop pushing unvisited neighbours (graph_util.py:723-725 and 738-740). -/
def pushAll (visited : List α) (stack : List α) : List α → List α
  | [] => stack
  | w :: ws => pushAll visited (if w ∈ visited then stack else w :: stack) ws

/-- The depth-first search loop (graph_util.py:716-725; again 731-740 on the reverse graph). The result is `visited`
(equal to `reachable` / `reverse_reachable`, which receive the same additions at 720-721 / 735-736). -/
def dfs (adj : α → List α) : Nat → List α → List α → Option (List α)
  | 0, _, _ => none
  | _ + 1, visited, [] => some visited
  | f + 1, visited, node :: stack =>
    if node ∈ visited then dfs adj f visited stack
    else
      let visited' := visited ++ [node]
      dfs adj f visited' (pushAll visited' stack (adj node))

/-- The inner loop of Kahn's algorithm over the neighbours of the node just scheduled (graph_util.py:750-755). -/
def relax (allNodes : List α) : List α → List α → (α → Int) → List α × (α → Int)
  | [], queue, deg => (queue, deg)
  | w :: ws, queue, deg =>
    if w ∉ allNodes then relax allNodes ws queue deg
    else
      let deg' := upd deg w (deg w - 1)
      relax allNodes ws (if deg' w = 0 then queue ++ [w] else queue) deg'

/-- The queue loop (graph_util.py:745-755): scheduled order, queue, in-degrees. -/
def kahn (g : Graph α) (allNodes : List α) : Nat → List α → List α → (α → Int) → Option (List α)
  | 0, _, _, _ => none
  | _ + 1, order, [], _ => some order
  | f + 1, order, node :: queue, deg =>
    let r := relax allNodes (nbrs g node) queue deg
    kahn g allNodes f (order ++ [node]) r.1 r.2

/-- The ways `resolve_connections` can end abnormally. `timeout` stands for a loop that never ends (graph_util.py:757-764, 777-786). -/
inductive Err where
  | wrongLength | wrongStart | wrongEnd | timeout
  deriving DecidableEq, Repr

/-- `validate_resolution` (graph_util.py:769-786). -/
def validate (order allNodes : List α) (start fin : α) : Except Err Unit :=
  if order.length ≠ allNodes.length then .error .wrongLength
  else if order.head? ≠ some start then .error .wrongStart
  else if order.getLast? ≠ some fin then .error .wrongEnd
  else .ok ()

/-- Fuel that always suffices for the loops (not part of the Python code) (graph_util.py:685-766). -/
def fuel (g : Graph α) : Nat := (edges g).length + 2

/-- `resolve_connections` (graph_util.py:685-766). Returns the topological order and the set `visited`, which at 766
holds the nodes that can reach `end_key`. -/
def resolve (g : Graph α) (start fin : α) : Except Err (List α × List α) :=
  match dfs (nbrs g) (fuel g) [] [start] with
  | none => .error .timeout
  | some reachable =>
    match dfs (reverseGraph g) (fuel g) [] [fin] with
    | none => .error .timeout
    | some revReachable =>
      let allNodes := reachable.filter (· ∈ revReachable)
      match kahn g allNodes (fuel g) [] [start] (inDegree g) with
      | none => .error .timeout
      | some order =>
        match validate order allNodes start fin with
        | .error e => .error e
        | .ok () => .ok (order, revReachable)

end Verif.Graph
