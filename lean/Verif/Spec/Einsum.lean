import Verif.Model.NdArr
import Mathlib.Algebra.BigOperators.Group.List.Basic
import Mathlib.Algebra.Ring.Defs
import Mathlib.Data.List.Dedup

/-!
# Specification of index contractions
-/

namespace Verif
namespace EinsumSpec

/-- The value of index `c` if the indices `cs` have the values `v`. -/
def valueOf (cs : List Char) (v : List Nat) (c : Char) : Nat := ((cs.zip v).lookup c).getD 0

/-- The indices summed over: those of the arrays that are not in the output. -/
def summed (subs : List (List Char)) (out : List Char) : List Char := subs.flatten.dedup.filter fun c => c ∉ out

/-- Entry `i` of a contraction of arrays with the given subscripts: the sum, over all values `v` of the indices that are not in the output, of the product of the entries. The
index `c` has the values `0, …, f c - 1`. -/
def entry {K : Type} [CommSemiring K] (f : Char → Nat) (ops : List (List Char × (List Nat → K))) (out : List Char) (i : List Nat) : K :=
  let rest := summed (ops.map Prod.fst) out
  ((NArr.indices (rest.map f)).map fun v => (ops.map fun p => p.2 (p.1.map (valueOf (out ++ rest) (i ++ v)))).prod).sum

/-- Subscripts a user may write: letters only, at least one input, and the first input is not the empty string unless it is the only one. -/
structure Subscripts (ls is : List (List Char)) (o : Option (List Char)) : Prop where
  leading : ∀ s ∈ ls, ∀ c ∈ s, c.isAlpha = true
  inputs : ∀ s ∈ is, ∀ c ∈ s, c.isAlpha = true
  out : ∀ s, o = some s → ∀ c ∈ s, c.isAlpha = true
  nonempty : is ≠ []
  first : is.length ≤ 1 ∨ is.headD [] ≠ []

/-- The output subscript: the given one, or all indices that occur once, in the order of their code points. -/
def IsOutput (ls is : List (List Char)) (o : Option (List Char)) (out : List Char) : Prop :=
  match o with
  | some s => out = s
  | none => out.Pairwise (· ≤ ·) ∧ out.Nodup ∧ ∀ c, c ∈ out ↔ (ls ++ is).flatten.count c = 1

end EinsumSpec
end Verif
