import Verif.Model.Tree

/-! Specification of sequence edits, independent of the model's index arithmetic. -/

namespace Verif.EditSpec

variable {α : Type}

/-- The Python index `i` refers to position `p` of a sequence of length `n`. -/
def Refers (n : Nat) (i : Int) (p : Nat) : Prop := p < n ∧ (i = p ∨ i + n = p)

/-- Python's `insert(i, ·)` into a sequence of length `n` puts the new item at position `p`. -/
def InsertsAt (n : Nat) (i : Int) (p : Nat) : Prop :=
  p ≤ n ∧ (i = p ∨ (i < 0 ∧ i + n = p) ∨ ((n : Int) ≤ i ∧ p = n) ∨ (i + n < 0 ∧ p = 0))

/-- `l'` is `l` with `x` inserted at position `p`. -/
def Inserted (l : List α) (p : Nat) (x : α) (l' : List α) : Prop :=
  ∃ a b, l = a ++ b ∧ a.length = p ∧ l' = a ++ x :: b

/-- `l'` is `l` with the entry `x` at position `p` removed. -/
def Removed (l : List α) (p : Nat) (x : α) (l' : List α) : Prop := Inserted l' p x l

/-- `l'` is `l` with the entry at position `p` replaced by `x`. -/
def Replaced (l : List α) (p : Nat) (x : α) (l' : List α) : Prop :=
  ∃ a y b, l = a ++ y :: b ∧ a.length = p ∧ l' = a ++ x :: b

mutual
/-- The references in a tree, in the order in which its containers hold them. -/
inductive Holds : Tree α → List α → Prop
  | leaf (a : α) : Holds (.leaf a) [a]
  | none : Holds .none []
  | list {ts : List (Tree α)} {xs : List α} : HoldsL ts xs → Holds (.list ts) xs
  | tuple {ts : List (Tree α)} {xs : List α} : HoldsL ts xs → Holds (.tuple ts) xs
  | dict {kvs : List (Str × Tree α)} {xs : List α} : HoldsL (kvs.map Prod.snd) xs → Holds (.dict kvs) xs
/-- `Holds` for the entries of a container. -/
inductive HoldsL : List (Tree α) → List α → Prop
  | nil : HoldsL [] []
  | cons {t : Tree α} {ts : List (Tree α)} {xs ys : List α} : Holds t xs → HoldsL ts ys → HoldsL (t :: ts) (xs ++ ys)
end

end Verif.EditSpec
