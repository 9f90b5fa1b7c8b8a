import Verif.Model.NdArr

/-! # Specification vocabulary for arrays -/

namespace Verif.NdSpec

/-- `i` is an index of the shape `s`. -/
def InB (s i : List Nat) : Prop := i.length = s.length ∧ ∀ (k d j : Nat), s[k]? = some d → i[k]? = some j → j < d

/-- `s` is the NumPy broadcast of `s₁` and `s₂`: aligned at the last axis, where both have an axis the lengths agree or one of
them is 1, and an axis of length 1 (or a missing one) is stretched. `s.length - 1 - k` counts axes from the back. -/
def Broadcast (s₁ s₂ s : List Nat) : Prop :=
  s.length = max s₁.length s₂.length ∧
  ∀ k, k < s.length →
    ((s₁.reverse[k]? = none ∧ s.reverse[k]? = s₂.reverse[k]?) ∨ (s₂.reverse[k]? = none ∧ s.reverse[k]? = s₁.reverse[k]?) ∨
      ∃ a b d, s₁.reverse[k]? = some a ∧ s₂.reverse[k]? = some b ∧ s.reverse[k]? = some d ∧
        ((a = b ∧ d = a) ∨ (a = 1 ∧ d = b) ∨ (b = 1 ∧ d = a)))

/-- The index `j` of an array of shape `s` that provides the entry at index `i` of the broadcast array: leading axes are dropped and
axes of length 1 are read at 0. -/
def Reads (s i j : List Nat) : Prop :=
  j.length = s.length ∧ s.length ≤ i.length ∧
  ∀ (k : Nat) (d x : Nat), s[k]? = some d → i[i.length - s.length + k]? = some x →
    j[k]? = some (if d = 1 then 0 else x)

end Verif.NdSpec
