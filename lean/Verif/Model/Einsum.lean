import Verif.Model.NdArr
import Verif.Model.TreeMap
import Mathlib.Algebra.BigOperators.Group.Finset.Basic
import Mathlib.Algebra.Ring.Defs
import Mathlib.Data.List.Sort
import Mathlib.Data.Finset.Range
import Mathlib.Data.List.Dedup

/-!
# Model of `Einsum`

Mirrors `/repo/parametricmatrixmodels/modules/einsum.py`. A subscript string is a list of characters. The code joins all subscripts to one string and splits it again later;
here they stay separate, except for the input subscripts, where joining loses information. Shapes are a tree of lists (simplification: no `None` and no empty containers, which
`is_shape_leaf` takes for leaves). `np.einsum` is modelled by its definition. Dtypes are not modelled, random initial parameters are an input.
-/

namespace Verif
namespace Einsum
open Tree

/-- `"abc…zABC…Z"` (einsum.py:493, matmul.py:325). -/
def letters : List Char := "abcdefghijklmnopqrstuvwxyzABCDEFGHIJKLMNOPQRSTUVWXYZ".toList

/-- The parameters: `None`, one array, or a tuple of arrays (einsum.py:119-121, 642-663). -/
inductive Params (K : Type) where
  | none
  | arr (x : NArr K)
  | tuple (xs : List (NArr K))

/-- The arrays in front of the input arrays (einsum.py:640-670). -/
def Params.arrays {K : Type} : Params K → List (NArr K)
  | .none => []
  | .arr x => [x]
  | .tuple xs => xs

/-- `self.params is None or self.params == ()` (einsum.py:476). -/
def Params.absent {K : Type} : Params K → Bool
  | .none => true
  | .arr _ => false
  | .tuple xs => xs.isEmpty

/-- `s.split("->")` into exactly two parts (einsum.py:424): `none` if there is no arrow. -/
def splitArrow : Str → Option (Str × Str)
  | [] => Option.none
  | [_] => Option.none
  | a :: b :: s => if a = '-' ∧ b = '>' then some ([], s) else (splitArrow (b :: s)).map fun p => (a :: p.1, p.2)

/-- Subscripts in three parts (einsum.py:340-415): leading string, input strings, output string, and whether the input strings have the structure of the input. A part that
should be a string but is none raises (later, in the code). -/
def parts (spec : Tree Str) (shapes : Tree (List Nat)) : Except PyErr (Option Str × Tree Str × Option Str × Bool) :=
  if sameStruct spec.norm shapes.norm then .ok (Option.none, spec, Option.none, true)
  else match spec with
    | .tuple [.leaf l, i, .leaf o] => .ok (some l, i, some o, false)
    | .tuple [.none, i, .leaf o] => .ok (Option.none, i, some o, false)
    | .tuple [.leaf l, i, .none] => .ok (some l, i, Option.none, false)
    | .tuple [.none, i, .none] => .ok (Option.none, i, Option.none, false)
    | .tuple [_, _, _] => .error .typeError
    | .tuple [.leaf _, .leaf _] => .error .valueError
    | .tuple [.leaf l, i] => .ok (some l, i, Option.none, false)
    | .tuple [i, .leaf o] => .ok (Option.none, i, some o, false)
    | .leaf s => .ok (Option.none, .leaf s, Option.none, false)
    | _ => .error .valueError

/-- The output inside a bare string (einsum.py:417-424). -/
def splitOutput (input : Tree Str) (out : Option Str) : Except PyErr (Tree Str × Option Str) :=
  match out, input with
  | Option.none, .leaf s => match splitArrow s with
    | Option.none => .ok (input, Option.none)
    | some (i, o) => if (splitArrow o).isSome then .error .valueError else .ok (.leaf i, some o)
  | o, i => .ok (i, o)

/-- The leading strings inside a bare string (einsum.py:426-442). -/
def splitLeading (lead : Option Str) (input : Tree Str) (count : Nat) : Option Str × Tree Str :=
  match lead, input with
  | Option.none, .leaf s =>
    let l := splitOn ',' s
    if count < l.length then (some (joinWith ',' (l.take (l.length - count))), .leaf (joinWith ',' (l.drop (l.length - count))))
    else (Option.none, input)
  | l, i => (l, i)

/-- `validate_chars` (einsum.py:492-510). -/
def validChars (s : Str) : Bool := s.all fun c => decide (c ∈ letters ∨ c = ',')

/-- `lambda _, s: s` (einsum.py:444-481). -/
def second (_ : List Nat) : List (Tree Str) → Except PyErr (Tree Str)
  | [u] => .ok u
  | _ => .error .typeError

/-- The strings as a list in the order of the input arrays (einsum.py:446-481, 512-527). -/
def inputList (input : Tree Str) (shapes : Tree (List Nat)) (wasTree : Bool) : Except PyErr (List Str) :=
  match input with
  | .leaf s =>
    if !validChars s then .error .valueError
    else if wasTree then
      match jaxMap second shapes [.list ((splitOn ',' s).map .leaf)] with
      | .error e => .error e
      | .ok t => .ok (jaxLeaves t)
    else .ok (splitOn ',' s)
  | t =>
    if !(jaxLeaves t).all fun s => !s.isEmpty && s.all fun c => decide (c ∈ letters) then .error .valueError
    else match jaxMap second shapes [t] with
      | .error e => .error e
      | .ok t => .ok (jaxLeaves t)

/-- Joining the input strings (einsum.py:529-540): an empty string in front is lost. -/
def reduceInputs (l : List Str) : Str := l.foldl (fun carry s => if carry = [] then s else carry ++ ',' :: s) []

/-- The inferred output (einsum.py:542-565): the indices that occur exactly once, sorted by code point. -/
def inferOutput (s : Str) : Str := ((s.filter fun c => c ≠ ',').dedup.filter fun c => s.count c = 1).insertionSort (· ≤ ·)

/-- The concrete subscripts. The batch index is in front of every input and of the output (einsum.py:295-612). -/
structure Concrete where
  leading : List Str
  inputs : List Str
  out : Str
  batch : Char
  deriving DecidableEq, Repr

/-- `_get_concrete_einsum_str` (einsum.py:295-612). -/
def concretise (spec : Tree Str) (hasParams : Bool) (shapes : Tree (List Nat)) : Except PyErr Concrete :=
  match parts spec shapes with
  | .error e => .error e
  | .ok (lead, input, out, wasTree) => match splitOutput input out with
    | .error e => .error e
    | .ok (input, out) =>
      let (lead, input) := splitLeading lead input (jaxLeaves shapes).length
      if lead = Option.none ∧ hasParams = true then .error .valueError                    -- 456-465
      else if !(out.getD []).all (fun c => decide (c ∈ letters)) then .error .valueError  -- 467-475, 497
      else if !validChars (lead.getD []) then .error .valueError                          -- 495
      else match inputList input shapes wasTree with
        | .error e => .error e
        | .ok l =>
          let s := reduceInputs l
          let o := out.getD (inferOutput (lead.getD [] ++ s))
          let used := lead.getD [] ++ s ++ o
          match letters.find? fun c => !used.contains c with                              -- 564-583
          | Option.none => .error .valueError
          | some b =>
            let ins := splitOn ',' s
            if (ins.zip (jaxLeaves shapes)).all fun p => p.1.length = p.2.length then     -- 585-602
              .ok ⟨(lead.map (splitOn ',')).getD [], ins, o, b⟩
            else .error .valueError

/-- The text of subscripts, the usual way to write them: `"ij,jk->ik"` (einsum.py:112-118). -/
def text (l : List Str) (o : Option Str) : Str := joinWith ',' l ++ match o with
  | .none => []
  | .some o => '-' :: '>' :: o

/-! ### Sizes -/

/-- Recording sizes of indices (einsum.py:233-243, 267-277). -/
def record : List (Char × Nat) → List (Char × Nat) → Except PyErr (List (Char × Nat))
  | m, [] => .ok m
  | m, (c, d) :: l => match m.lookup c with
    | Option.none => record (m ++ [(c, d)]) l
    | some d' => if d' = d then record m l else .error .valueError

/-- Recording the sizes of arrays (einsum.py:226-243, 260-277). -/
def recordAll : List (Char × Nat) → List (Str × List Nat) → Except PyErr (List (Char × Nat))
  | m, [] => .ok m
  | m, (s, sh) :: l =>
    if s.length ≠ sh.length then .error .valueError
    else match record m (s.zip sh) with
      | .error e => .error e
      | .ok m' => recordAll m' l

/-- Sizes from the parameters (einsum.py:244-277). For a tuple the code takes the arrays themselves for their shapes: the length of the array is compared with the length of the
subscript, then its rows with the sizes (simplification: this comparison always fails here; in the code it succeeds if the row has a single entry and that entry is the size). -/
def recordParams {K : Type} (m : List (Char × Nat)) (leading : List Str) (p : Params K) : Except PyErr (List (Char × Nat)) :=
  match p with
  | .none => .ok m
  | .arr x => if leading.length ≠ 1 then .error .valueError else recordAll m (leading.zip [x.shape])
  | .tuple xs =>
    if leading.length ≠ xs.length then .error .valueError
    else if xs = [] then .ok m
    else if (leading.zip xs).all fun q => q.2.shape.head? = some q.1.length then .error .typeError
    else .error .valueError

/-- `_get_dimension_map` (einsum.py:182-293) with the user's `dim_map`. -/
def dimMap {K : Type} (user : List (Char × Nat)) (c : Concrete) (shapes : List (List Nat)) (p : Params K) : Except PyErr (List (Char × Nat)) :=
  let all := c.leading ++ c.inputs
  let k := if shapes.length = 0 then 0 else all.length - shapes.length
  match recordAll user ((all.drop k).zip shapes) with
  | .error e => .error e
  | .ok m => match recordParams m (all.take k) p with
    | .error e => .error e
    | .ok m => if (all.flatten ++ c.out).all fun x => (m.lookup x).isSome then .ok m else .error .valueError

/-- The size of an index (einsum.py:182-293). -/
def dim (m : List (Char × Nat)) (c : Char) : Nat := (m.lookup c).getD 0

/-- `get_output_shape` (einsum.py:778-787). -/
def outputShape {K : Type} (spec : Tree Str) (user : List (Char × Nat)) (p : Params K) (shapes : Tree (List Nat)) : Except PyErr (List Nat) :=
  match concretise spec (!p.absent) shapes with
  | .error e => .error e
  | .ok c => match dimMap user c (jaxLeaves shapes) p with
    | .error e => .error e
    | .ok m => .ok (c.out.map (dim m))

/-- `compile` (einsum.py:682-776): the parameters afterwards. `draw` stands for the random numbers of array `k`. -/
def compile {K : Type} (draw : Nat → List Nat → K) (spec : Tree Str) (user : List (Char × Nat)) (trainable : Bool) (p : Params K) (shapes : Tree (List Nat)) :
    Except PyErr (Params K) :=
  match concretise spec (!p.absent) shapes with
  | .error e => .error e
  | .ok c => match dimMap user c (jaxLeaves shapes) p with
    | .error e => .error e
    | .ok m =>
      let all := c.leading ++ c.inputs
      let leading := if (jaxLeaves shapes).length = 0 then [] else all.take (all.length - (jaxLeaves shapes).length)
      let expected := leading.map fun s => s.map (dim m)
      match p with
      | .none =>
        if leading = [] then .ok .none
        else if !trainable then .error .valueError
        else match expected with
          | [sh] => .ok (.arr ⟨sh, draw 0⟩)
          | shs => .ok (.tuple ((List.range shs.length).map fun k => ⟨shs.getD k [], draw k⟩))
      | p => if expected = p.arrays.map NArr.shape then .ok p else .error .valueError

/-! ### `np.einsum` -/

/-- The sum over all values of the listed indices (einsum.py:676). -/
def sumOver {K : Type} [AddCommMonoid K] : List (Char × Nat) → ((Char → Nat) → K) → (Char → Nat) → K
  | [], F, σ => F σ
  | (c, d) :: l, F, σ => ∑ k ∈ Finset.range d, sumOver l F (Function.update σ c k)

/-- The values of the output indices (einsum.py:676). -/
def assign : Str → List Nat → Char → Nat
  | c :: s, k :: i => Function.update (assign s i) c k
  | _, _ => fun _ => 0

/-- The product of the entries of all arrays at the given values of the indices (einsum.py:676). -/
def product {K : Type} [CommSemiring K] (ops : List (Str × NArr K)) (σ : Char → Nat) : K := (ops.map fun p => p.2.val (p.1.map σ)).prod

/-- `np.einsum(subscripts, *arrays)`: arrays and subscripts must fit, every index has one size (simplification: NumPy also broadcasts size 1), the output indices are distinct
and occur in the inputs. An entry is the sum, over all values of the other indices, of the products of the entries (einsum.py:676). -/
def einsum {K : Type} [CommSemiring K] (subs : List Str) (arrays : List (NArr K)) (out : Str) : Except PyErr (NArr K) :=
  if subs.length ≠ arrays.length then .error .valueError
  else match recordAll [] (subs.zip (arrays.map NArr.shape)) with
    | .error e => .error e
    | .ok m =>
      if out.Nodup ∧ ∀ c ∈ out, c ∈ subs.flatten then
        let rest := subs.flatten.dedup.filter fun c => c ∉ out
        .ok ⟨out.map (dim m), fun i => sumOver (rest.map fun c => (c, dim m c)) (product (subs.zip arrays)) (assign out i)⟩
      else .error .valueError

/-- The callable (einsum.py:626-680). -/
def call {K : Type} [CommSemiring K] (spec : Tree Str) (p : Params K) (shapes : Tree (List Nat)) (data : Tree (NArr K)) : Except PyErr (NArr K) :=
  match concretise spec (!p.absent) shapes with
  | .error e => .error e
  | .ok c => einsum (c.leading ++ c.inputs.map fun s => c.batch :: s) (p.arrays ++ jaxLeaves data) (c.batch :: c.out)

end Einsum
end Verif
