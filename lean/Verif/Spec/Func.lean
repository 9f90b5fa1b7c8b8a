import Verif.Model.Func

/-!
# What a function module may rely on
-/

namespace Verif
namespace FuncSpec

variable {V : Type}

/-- A batch: every array has a first axis. -/
def Batched (x : Tree (NArr V)) : Prop := ∀ a ∈ x.flat, a.shape ≠ []

mutual
/-- No `None` and no empty tuple among the data. -/
def Plain {α : Type} : Tree α → Prop
  | .leaf _ => True
  | .none => False
  | .list ts => PlainL ts
  | .tuple ts => ts ≠ [] ∧ PlainL ts
  | .dict kvs => PlainD kvs
/-- Of members. -/
def PlainL {α : Type} : List (Tree α) → Prop
  | [] => True
  | t :: ts => Plain t ∧ PlainL ts
/-- Of entries. -/
def PlainD {α : Type} : List (Str × Tree α) → Prop
  | [] => True
  | (_, t) :: ts => Plain t ∧ PlainD ts
end

/-- The shapes of the samples and the order of the dictionaries are all that matters for whether `f` returns and for the shapes of the samples it returns. -/
def ByShape (f : Tree (NArr V) → Except PyErr (Tree (NArr V))) : Prop :=
  ∀ x x' y, Batched x → Batched x' → Tree.map (fun a => a.shape.tail) x.norm = Tree.map (fun a => a.shape.tail) x'.norm → f x = .ok y →
    ∃ y', f x' = .ok y' ∧ Tree.map (fun a => a.shape.tail) y'.norm = Tree.map (fun a => a.shape.tail) y.norm

end FuncSpec
end Verif
