import Verif.Spec.NdArr
import Mathlib.Order.Basic
import Mathlib.Data.Set.Card

/-! # Specification vocabulary for the one-hot encoder -/

namespace Verif.OneHotSpec
open NdSpec

variable {K : Type}

/-- Row `r` of `x` has the same values as row `q` of `y`. -/
def SameRow (x : NArr K) (r : Nat) (y : NArr K) (q : Nat) : Prop := ∀ j, InB x.shape.tail j → x.val (r :: j) = y.val (q :: j)

/-- Any two rows are comparable: the values of one are all at most those of the other. Always so if a sample is a single number. -/
def Chain [LE K] (x : NArr K) (n : Nat) : Prop :=
  ∀ r < n, ∀ q < n, (∀ j, InB x.shape.tail j → x.val (r :: j) ≤ x.val (q :: j)) ∨ ∀ j, InB x.shape.tail j → x.val (q :: j) ≤ x.val (r :: j)

open Classical in
/-- The samples among the first `n` rows. -/
def Samples (x : NArr K) (n : Nat) : Set (List Nat → Option K) :=
  {f | ∃ r < n, ∀ j, f j = if InB x.shape.tail j then some (x.val (r :: j)) else none}

end Verif.OneHotSpec
