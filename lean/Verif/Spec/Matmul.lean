import Verif.Model.NdArr
import Verif.Model.TreeMap
import Verif.Spec.Forward
import Verif.Spec.Tree
import Verif.Spec.Concretize
import Mathlib.Algebra.BigOperators.Group.Finset.Basic
import Mathlib.Algebra.Ring.Defs
import Mathlib.Data.Finset.Range

/-!
# Specification of matrix products
-/

namespace Verif
namespace MatmulSpec

/-- Entry `i` of the product of matrices, in the given order; the last factor may be a vector. -/
def prodEntry {K : Type} [CommSemiring K] : List (NArr K) → List Nat → K
  | [], _ => 1
  | [x], i => x.val i
  | x :: y :: xs, r :: i => ∑ k ∈ Finset.range (x.shape.getD 1 0), x.val [r, k] * prodEntry (y :: xs) (k :: i)
  | _ :: _ :: _, [] => 0

/-- The shapes can be multiplied in this order: neighbours have a common size, and only the last may be a vector. -/
def Chain : List (List Nat) → Prop
  | [] => False
  | [s] => s.length = 1 ∨ s.length = 2
  | s :: t :: l => s.length = 2 ∧ s.getD 1 0 = t.getD 0 0 ∧ Chain (t :: l)

/-- The shape of the product. -/
def prodShape (l : List (List Nat)) : List Nat := (l.headD []).take 1 ++ (l.getLastD []).drop 1

/-- Sample `n` of a batch. -/
def sampleOf {K : Type} (n : Nat) (x : NArr K) : NArr K := ⟨x.shape.tail, fun j => x.val (n :: j)⟩

/-- The factors in the order the user asked for: the parameter, if there is one, followed by the leaves, or the leaves at the given paths, with `".."` for the parameter. -/
def operands {γ : Type} (sep : Char) (order : Option (List Str)) (param : Option γ) (t : Tree γ) : Option (List γ) :=
  match order with
  | none => some (param.toList ++ t.jaxLeaves)
  | some po => po.mapM fun path =>
    if path = [sep, sep] then param
    else match Tree.get t (splitOn sep path) with
      | .ok (.leaf x) => some x
      | _ => none

/-- Where the parameter stands in the product. -/
def paramPlace (sep : Char) (order : Option (List Str)) : Nat :=
  match order with
  | none => 0
  | some po => po.idxOf [sep, sep]

/-- The paths are written as the library prints paths, without empty components and leading zeros, and no dictionary has a number as a key. -/
def OrderOk {γ : Type} (sep : Char) (order : Option (List Str)) (t : Tree γ) : Prop :=
  ∀ po, order = some po → (∀ path ∈ po, path ≠ [sep, sep] → TreeSpec.Proper (splitOn sep path) ∧ PathSpec.Canonical (splitOn sep path)) ∧
    ∀ q g k, ForwardSpec.At t q g → .key k ∈ q → isDigit k = false

end MatmulSpec
end Verif
