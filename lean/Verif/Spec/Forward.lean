import Verif.Model.Tree
import Mathlib.Data.List.Forall2

/-!
# Specification vocabulary for forward passes

Places in a tree are described without the string notation: an index of a list or tuple, or a dictionary key.
-/

namespace Verif.ForwardSpec

/-- One step down into a tree. -/
inductive Step where
  | idx (i : Nat)
  | key (k : Str)
deriving DecidableEq, Repr

/-- The value `a` sits at the place `p` of the tree. -/
inductive At {α : Type} : Tree α → List Step → α → Prop
  | leaf (a) : At (.leaf a) [] a
  | list {ts : List (Tree α)} {i : Nat} {t p a} : ts[i]? = some t → At t p a → At (.list ts) (.idx i :: p) a
  | tuple {ts : List (Tree α)} {i : Nat} {t p a} : ts[i]? = some t → At t p a → At (.tuple ts) (.idx i :: p) a
  | dict {kvs : List (Str × Tree α)} {k t p a} : (k, t) ∈ kvs → At t p a → At (.dict kvs) (.key k :: p) a

/-- Left-to-right order of places: indices by number, dictionary keys alphabetically (by code point). -/
inductive Precedes : List Step → List Step → Prop
  | idx {i j p q} : i < j → Precedes (.idx i :: p) (.idx j :: q)
  | key {k k' p q} : k < k' → Precedes (.key k :: p) (.key k' :: q)
  | tail {s p q} : Precedes p q → Precedes (s :: p) (s :: q)

/-- The component `k` of a string path means the step `s`. -/
def Spell (k : Str) (s : Step) : Prop := s = .key k ∨ (isDigit k = true ∧ s = .idx (toInt k))

/-- The string path means the steps. -/
def Spells (p : List Str) (q : List Step) : Prop := List.Forall₂ Spell p q

/-- Below a common nonempty beginning the two paths go on with two numbers or with two names. -/
def Uniform (p q : List Str) : Prop :=
  ∀ c k₁ r₁ k₂ r₂, c ≠ [] → p = c ++ k₁ :: r₁ → q = c ++ k₂ :: r₂ → isDigit k₁ = isDigit k₂

mutual
/-- No dictionary of the tree repeats a key (always true of a Python object). -/
def KeysOk {α : Type} : Tree α → Prop
  | .leaf _ => True
  | .none => True
  | .list ts => KeysOkL ts
  | .tuple ts => KeysOkL ts
  | .dict kvs => (kvs.map Prod.fst).Nodup ∧ KeysOkD kvs
/-- `KeysOk` for all members. -/
def KeysOkL {α : Type} : List (Tree α) → Prop
  | [] => True
  | t :: ts => KeysOk t ∧ KeysOkL ts
/-- `KeysOk` for all values. -/
def KeysOkD {α : Type} : List (Str × Tree α) → Prop
  | [] => True
  | (_, t) :: ts => KeysOk t ∧ KeysOkD ts
end

/-- One module of a sequential model during a call: its place, the module, its parameters, its state before and after. -/
structure Row (M P S : Type) where
  place : List Step
  mod : M
  params : P
  state : S
  state' : S

/-- The column `f` of the rows is exactly the content of the tree `t`. -/
def Column {M P S α : Type} (rows : List (Row M P S)) (f : Row M P S → α) (t : Tree α) : Prop :=
  ∀ p a, At t p a ↔ ∃ r ∈ rows, r.place = p ∧ f r = a

/-- `call` applied along the rows turns `x` into `y`: the output of each module is the input of the next one, each module
gets its own parameters, state and key and leaves its new state. -/
inductive Passes {M P S K D E : Type} (call : M → P → D → S → K → Except E (D × S)) :
    List (Row M P S) → List K → D → D → Prop
  | nil (x) : Passes call [] [] x x
  | cons {r rows k ks x y z} : call r.mod r.params x r.state k = .ok (y, r.state') → Passes call rows ks y z →
      Passes call (r :: rows) (k :: ks) x z

end Verif.ForwardSpec
