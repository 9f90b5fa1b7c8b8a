import Verif.Model.Tree

/-! # Specification vocabulary for trees and paths -/

namespace Verif.TreeSpec

/-- Two path components that address the same child: equal, or decimal numbers with the same value
(`"1"` and `"01"` both mean index 1 of a list). -/
def SameKey (k₁ k₂ : Str) : Prop := k₁ = k₂ ∨ (isDigit k₁ = true ∧ isDigit k₂ = true ∧ toInt k₁ = toInt k₂)

instance (k₁ k₂ : Str) : Decidable (SameKey k₁ k₂) := by unfold SameKey; infer_instance

/-- A path none of whose components is empty. -/
def Proper (p : List Str) : Prop := ∀ k ∈ p, k ≠ []

instance (p : List Str) : Decidable (Proper p) := by unfold Proper; infer_instance

/-- The paths have a common beginning and then address different children. -/
def Diverge (p q : List Str) : Prop :=
  ∃ c k₁ r₁ k₂ r₂, p = c ++ k₁ :: r₁ ∧ q = c ++ k₂ :: r₂ ∧ ¬ SameKey k₁ k₂

variable {β : Type}

mutual
/-- The leaves of a tree, left to right. -/
def leaves : Tree β → List β
  | .leaf b => [b]
  | .none => []
  | .list ts => leavesL ts
  | .tuple ts => leavesL ts
  | .dict kvs => leavesD kvs
/-- Leaves of a list of trees. -/
def leavesL : List (Tree β) → List β
  | [] => []
  | t :: ts => leaves t ++ leavesL ts
/-- Leaves of a dictionary of trees. -/
def leavesD : List (Str × Tree β) → List β
  | [] => []
  | (_, t) :: ts => leaves t ++ leavesD ts
end

mutual
/-- Does a tuple occur anywhere in the tree? -/
def hasTuple : Tree β → Bool
  | .leaf _ => false
  | .none => false
  | .list ts => hasTupleL ts
  | .tuple _ => true
  | .dict kvs => hasTupleD kvs
/-- `hasTuple` for some member of a list. -/
def hasTupleL : List (Tree β) → Bool
  | [] => false
  | t :: ts => hasTuple t || hasTupleL ts
/-- `hasTuple` for some value of a dictionary. -/
def hasTupleD : List (Str × Tree β) → Bool
  | [] => false
  | (_, t) :: ts => hasTuple t || hasTupleD ts
end

mutual
/-- The tree with every tuple, at every depth, replaced by the list of its (replaced) items. -/
def detuple : Tree β → Tree β
  | .leaf b => .leaf b
  | .none => .none
  | .list ts => .list (detupleL ts)
  | .tuple ts => .list (detupleL ts)
  | .dict kvs => .dict (detupleD kvs)
/-- `detuple` on a list. -/
def detupleL : List (Tree β) → List (Tree β)
  | [] => []
  | t :: ts => detuple t :: detupleL ts
/-- `detuple` on a dictionary. -/
def detupleD : List (Str × Tree β) → List (Str × Tree β)
  | [] => []
  | (k, t) :: ts => (k, detuple t) :: detupleD ts
end

end Verif.TreeSpec
