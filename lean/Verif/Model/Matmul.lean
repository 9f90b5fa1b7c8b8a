import Verif.Model.Einsum
import Verif.Model.Tree

/-!
# Model of `MatMul`

Mirrors `/repo/parametricmatrixmodels/modules/matmul.py`: the subscripts and sizes handed to `Einsum`. The separator is one character. Shapes are a tree of lists, as in the model
of `Einsum`.
-/

namespace Verif
namespace Matmul
open Tree Einsum

/-- `output_shape` (matmul.py:65-72): `None`, an integer, or a tuple of integers and `None`. -/
inductive OutShape where
  | none
  | int (n : Nat)
  | dims (l : List (Option Nat))
  deriving DecidableEq, Repr

/-- The arguments of the constructor that are not the parameter matrix (matmul.py:62-78). -/
structure Cfg where
  outShape : OutShape
  pathOrder : Option (List Str)
  trainable : Bool
  sep : Char

/-- `".."` (matmul.py:131). -/
def Cfg.param (cfg : Cfg) : Str := [cfg.sep, cfg.sep]

/-- One entry of `shape_list` (matmul.py:191-203). (Simplification: a path that leads to a container raises at once.) -/
def shapeAt (cfg : Cfg) (shapes : Tree (List Nat)) (path : Str) : Except PyErr (Option (List Nat)) :=
  if path = cfg.param then .ok Option.none
  else match Tree.get shapes (splitOn cfg.sep path) with
    | .error e => .error e
    | .ok (.leaf s) => .ok (some s)
    | .ok _ => .error .typeError

/-- `shape_list` (matmul.py:178-213): the shapes of the factors in the order of the product, `None` for the parameter matrix. -/
def shapeList (cfg : Cfg) (hasParam : Bool) (shapes : Tree (List Nat)) : Except PyErr (List (Option (List Nat))) :=
  match cfg.pathOrder with
  | Option.none => .ok ((if cfg.trainable || hasParam then [Option.none] else []) ++ (jaxLeaves shapes).map some)
  | some po =>
    if !decide po.Nodup then .error .valueError
    else match po.mapM (shapeAt cfg shapes) with
      | .error e => .error e
      | .ok l => if (jaxLeaves shapes).length ≠ l.length - l.count Option.none then .error .valueError else .ok l

/-- `shape_list[j][c]` (matmul.py:241, 252-278). -/
def dimAt (sl : List (Option (List Nat))) (j c : Nat) : Except PyErr Nat :=
  match sl[j]? with
  | some (some s) => match s[c]? with
    | some d => .ok d
    | Option.none => .error .indexError
  | _ => .error .indexError

/-- The shape of a parameter matrix still to be created, at position `k` (matmul.py:225-279). (Simplification: where the code puts `None` in the shape, we raise `TypeError`,
as the code does when it creates the array.) -/
def paramShape (out : OutShape) (sl : List (Option (List Nat))) (k : Nat) : Except PyErr (List Nat) :=
  if k = 0 then
    match out with
    | .none => .error .valueError
    | .int n => (dimAt sl 1 0).map fun d => [n, d]
    | .dims [] => .error .indexError
    | .dims (Option.none :: _) => .error .typeError
    | .dims (some n :: _) => (dimAt sl 1 0).map fun d => [n, d]
  else if k = sl.length - 1 then
    match out with
    | .none => (dimAt sl (sl.length - 2) 1).map fun d => [d]
    | .int n => match dimAt sl 0 0 with
      | .error e => .error e
      | .ok r => if n ≠ r then .error .valueError else (dimAt sl (sl.length - 2) 1).map fun d => [d]
    | .dims [] => .error .indexError
    | .dims (d0 :: rest) => match dimAt sl 0 0 with
      | .error e => .error e
      | .ok r =>
        if d0 ≠ some r then .error .valueError
        else match dimAt sl (sl.length - 2) 1, rest with
          | .error e, _ => .error e
          | .ok _, [] => .error .indexError
          | .ok _, Option.none :: _ => .error .typeError
          | .ok d, some m :: _ => .ok [d, m]
  else match dimAt sl (k - 1) 1, dimAt sl (k + 1) 0 with
    | .ok a, .ok b => .ok [a, b]
    | .error e, _ => .error e
    | _, .error e => .error e

/-- Position and shape of the parameter matrix (matmul.py:215-294); `param` is the shape of a given one. -/
def paramPos (cfg : Cfg) (param : Option (List Nat)) (sl : List (Option (List Nat))) : Except PyErr (Option (Nat × List Nat)) :=
  match param with
  | some sh => if Option.none ∈ sl then .ok (some (sl.idxOf Option.none, sh)) else .error .valueError
  | Option.none =>
    if cfg.trainable then
      if Option.none ∈ sl then (paramShape cfg.outShape sl (sl.idxOf Option.none)).map fun sh => some (sl.idxOf Option.none, sh) else .error .valueError
    else if Option.none ∈ sl then .error .valueError else .ok Option.none

/-- `shape_list[param_idx] = param_shape` (matmul.py:296-298); no `None` is left afterwards. -/
def fillShapes (sl : List (Option (List Nat))) (pos : Option (Nat × List Nat)) : List (List Nat) :=
  match pos with
  | Option.none => sl.map (·.getD [])
  | some (k, sh) => (sl.set k (some sh)).map (·.getD [])

/-- Vectors only at the end (matmul.py:300-308). -/
def vectorsLast (full : List (List Nat)) : Bool :=
  (List.range full.length).all fun i => (full.getD i []).length ≠ 1 || i = full.length - 1

/-- The check of `output_shape` (matmul.py:310-338). -/
def checkOut (out : OutShape) (full : List (List Nat)) : Except PyErr Unit :=
  match full.head?, full.getLast? with
  | some (r :: _), some l =>
    let inferred := r :: (if l.length = 2 then [l.getD 1 0] else [])
    match out with
    | .none => .ok ()
    | .int n => if n ≠ r then .error .valueError else .ok ()
    | .dims ds =>
      if ds.length ≠ inferred.length then .error .valueError
      else if (ds.zip inferred).all fun p => p.1 = Option.none || p.1 = some p.2 then .ok () else .error .valueError
  | _, _ => .error .indexError

/-- The subscript of factor `i` (matmul.py:347-354). -/
def term (i : Nat) (sh : List Nat) : Except PyErr Str :=
  if sh.length = 2 then
    match letters[i]?, letters[i + 1]? with
    | some a, some b => .ok [a, b]
    | _, _ => .error .indexError
  else match letters[i]? with
    | some a => .ok [a]
    | Option.none => .error .indexError

/-- All subscripts, in the order of the product (matmul.py:347-356). -/
def terms : Nat → List (List Nat) → Except PyErr (List Str)
  | _, [] => .ok []
  | i, sh :: l => match term i sh with
    | .error e => .error e
    | .ok t => match terms (i + 1) l with
      | .error e => .error e
      | .ok ts => .ok (t :: ts)

/-- The sizes for `Einsum` (matmul.py:350-356). (Simplification: a later size for the same letter replaces nothing, the letters are different.) -/
def sizes (pos : Option (Nat × List Nat)) : List (Char × Nat) :=
  match pos with
  | some (k, [a, b]) => [(letters.getD k 'a', a), (letters.getD (k + 1) 'a', b)]
  | some (k, a :: _) => [(letters.getD k 'a', a)]
  | _ => []

/-- Python's `==` of two fill values (tree_util.py:366-576; matmul.py:373-375). -/
def natEqv (a b : Tree Nat) : Bool :=
  match a, b with
  | .leaf m, .leaf n => m == n
  | _, _ => false

/-- `perm` (matmul.py:358-385): for every leaf of the input the position in the product, behind the position of the parameter matrix. -/
def perm (cfg : Cfg) (pos : Option (Nat × List Nat)) (n : Nat) : Except PyErr (List Nat) :=
  match cfg.pathOrder with
  | Option.none => .ok (List.range n)
  | some po =>
    let pths := (po.zip (List.range po.length)).filter fun p => p.1 ≠ cfg.param
    match extend natEqv .none (pths.map fun p => (splitOn cfg.sep p.1, .leaf p.2)) with
    | .error e => .error e
    | .ok t => .ok ((pos.map Prod.fst).toList ++ jaxLeaves t)

/-- `_get_einsum_str_and_dim_map` (matmul.py:159-390); `param` is the shape of the parameter matrix, if there is one. -/
def plan (cfg : Cfg) (param : Option (List Nat)) (shapes : Tree (List Nat)) : Except PyErr (Str × List (Char × Nat)) :=
  if !(jaxLeaves shapes).all (fun s => s.length = 1 || s.length = 2) then .error .valueError
  else if 1 < (jaxLeaves shapes).countP (fun s => s.length = 1) then .error .valueError
  else match shapeList cfg param.isSome shapes with
    | .error e => .error e
    | .ok sl => match paramPos cfg param sl with
      | .error e => .error e
      | .ok pos =>
        let full := fillShapes sl pos
        if !vectorsLast full then .error .valueError
        else match checkOut cfg.outShape full with
          | .error e => .error e
          | .ok _ => match terms 0 full with
            | .error e => .error e
            | .ok ts => match perm cfg pos ts.length with
              | .error e => .error e
              | .ok pm => .ok (joinWith ',' (pm.map fun i => ts.getD i []), sizes pos)

/-- The parameter matrix as parameters of `Einsum` (matmul.py:115-131). -/
def toParams {K : Type} : Option (NArr K) → Params K
  | Option.none => .none
  | some x => .arr x

/-- `compile` (matmul.py:151-155): the parameters and the subscripts afterwards. -/
def compile {K : Type} (draw : Nat → List Nat → K) (cfg : Cfg) (p : Option (NArr K)) (shapes : Tree (List Nat)) : Except PyErr (Params K × Str) :=
  match plan cfg (p.map NArr.shape) shapes with
  | .error e => .error e
  | .ok (s, dm) => match Einsum.compile draw (.leaf s) dm cfg.trainable (toParams p) shapes with
    | .error e => .error e
    | .ok q => .ok (q, s)

/-- `get_output_shape` (matmul.py:144-149). -/
def outputShape {K : Type} (cfg : Cfg) (p : Option (NArr K)) (shapes : Tree (List Nat)) : Except PyErr (List Nat) :=
  match plan cfg (p.map NArr.shape) shapes with
  | .error e => .error e
  | .ok (s, dm) => Einsum.outputShape (.leaf s) dm (toParams p) shapes

/-- The compiled module applied to data: the callable of `Einsum` (einsum.py:626-680) with the subscripts of `compile`. -/
def call {K : Type} [CommSemiring K] (c : Params K × Str) (shapes : Tree (List Nat)) (data : Tree (NArr K)) : Except PyErr (NArr K) :=
  Einsum.call (.leaf c.2) c.1 shapes data

end Matmul
end Verif
