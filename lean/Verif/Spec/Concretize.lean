import Verif.Model.Str

/-! # Specification vocabulary for concrete paths -/

namespace Verif.PathSpec

/-- No path equals, or is the beginning of, another one of the list. -/
def PrefixFree (paths : List (List Str)) : Prop := paths.Pairwise fun p q => ¬ p <+: q ∧ ¬ q <+: p

/-- Position by position, `b` has the path of `a` possibly followed by further components. -/
def Extends (a b : List (List Str)) : Prop :=
  b.length = a.length ∧ ∀ (i : Nat) (p q : List Str), a[i]? = some p → b[i]? = some q → p <+: q

/-- Every component written with digits is the usual decimal notation (no leading zeros). -/
def Canonical (p : List Str) : Prop := ∀ k ∈ p, isDigit k = true → ofNat (toInt k) = k

end Verif.PathSpec
