import Verif.Model.TreeMap
import Verif.Model.NdArr
import Verif.Model.Loss

/-!
# Model of the tree arithmetic

Mirrors `/repo/parametricmatrixmodels/tree_util.py` lines 579-870. An entry is a number (ℝ or ℂ) or `none` for "not a finite
number". The functions are decorated with `jaxtyped`: `" T"` makes the two trees have equal structure and `" *d"` (without `?`) makes
all leaves have the same shape; violations raise a type error. Simplification: dtypes are not modelled.
-/

namespace Verif
namespace TreeArith
open Tree Loss

variable {𝕜 : Type} [RCLike 𝕜] {A B C : Type}

/-- A leafwise binary operation on trees of the same structure (tree_util.py:602-689). -/
def bin (f : A → B → C) (t : Tree (NArr A)) (u : Tree (NArr B)) : Except PyErr (Tree (NArr C)) :=
  if sameStruct t.norm u.norm then
    jaxMap (fun x vs => match vs with
      | [.leaf y] => match NArr.bop f x y with
        | .ok z => .ok (.leaf z)
        | .error e => .error e
      | _ => .error .typeError) t [u]
  else .error .typeError

/-- `add` (tree_util.py:602-621). -/
def add : Tree (NArr (Option 𝕜)) → Tree (NArr (Option 𝕜)) → Except PyErr (Tree (NArr (Option 𝕜))) := bin (lift2 (· + ·))

/-- `sub` (tree_util.py:624-644). -/
def sub : Tree (NArr (Option 𝕜)) → Tree (NArr (Option 𝕜)) → Except PyErr (Tree (NArr (Option 𝕜))) := bin (lift2 (· - ·))

/-- `mul` (tree_util.py:647-667). -/
def mul : Tree (NArr (Option 𝕜)) → Tree (NArr (Option 𝕜)) → Except PyErr (Tree (NArr (Option 𝕜))) := bin (lift2 (· * ·))

/-- `div` (tree_util.py:670-689): division by zero is not a finite number. -/
noncomputable def div : Tree (NArr (Option 𝕜)) → Tree (NArr (Option 𝕜)) → Except PyErr (Tree (NArr (Option 𝕜))) := bin fdiv

/-- A leafwise unary operation (tree_util.py:692-821). -/
def una (f : A → B) (t : Tree (NArr A)) : Tree (NArr B) := map (NArr.uop f) t.norm

/-- `neg` (tree_util.py:692-710). -/
def neg : Tree (NArr (Option 𝕜)) → Tree (NArr (Option 𝕜)) := una (Option.map (- ·))

/-- `abs` (tree_util.py:713-732). -/
noncomputable def abs : Tree (NArr (Option 𝕜)) → Tree (NArr (Option ℝ)) := una (Option.map fun x => ‖x‖)

/-- `abs_sqr` (tree_util.py:735-754). -/
noncomputable def absSqr : Tree (NArr (Option 𝕜)) → Tree (NArr (Option ℝ)) := una (Option.map fun x => ‖x‖ ^ 2)

/-- `abs_sqrt` (tree_util.py:778-797). -/
noncomputable def absSqrt : Tree (NArr (Option 𝕜)) → Tree (NArr (Option ℝ)) := una (Option.map fun x => Real.sqrt ‖x‖)

/-- All leaves have the same shape (the annotation `PyTree[Num[Array, " *d"]]`) (tree_util.py:579-599). -/
def equalShapes (t : Tree (NArr A)) : Bool := match jaxLeaves t with
  | [] => true
  | x :: xs => xs.all fun y => decide (y.shape = x.shape)

/-- `scalar_add` (tree_util.py:824-845). -/
def scalarAdd (t : Tree (NArr (Option 𝕜))) (a : 𝕜) : Except PyErr (Tree (NArr (Option 𝕜))) :=
  if equalShapes t then .ok (una (Option.map (· + a)) t) else .error .typeError

/-- `scalar_mul` (tree_util.py:848-869). -/
def scalarMul (t : Tree (NArr (Option 𝕜))) (a : 𝕜) : Except PyErr (Tree (NArr (Option 𝕜))) :=
  if equalShapes t then .ok (una (Option.map (· * a)) t) else .error .typeError

/-- `np.sum` of an array (tree_util.py:579-599). -/
def sum (x : NArr (Option 𝕜)) : Option 𝕜 := x.entries.foldl (lift2 fun a b : 𝕜 => a + b) (some 0)

/-- `mean` (tree_util.py:579-599): Python's `sum` starts from the integer 0; without leaves this is `0 / 0`, a
`ZeroDivisionError`. -/
noncomputable def mean (t : Tree (NArr (Option 𝕜))) : Except PyErr (Option 𝕜) :=
  if equalShapes t then
    let leaves := jaxLeaves t
    let n := leaves.foldl (fun (n : Nat) x => n + x.size) 0
    let total := leaves.foldl (fun a x => lift2 (fun a b : 𝕜 => a + b) a (sum x)) (some 0)
    if leaves.isEmpty then .error .zeroDivision else .ok (fdiv total (some (n : 𝕜)))
  else .error .typeError

end TreeArith
end Verif
