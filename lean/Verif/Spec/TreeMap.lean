import Verif.Spec.Forward

/-! # Specification vocabulary for leafwise operations on trees -/

namespace Verif.ForwardSpec

variable {α : Type}

/-- The subtree `u` sits at the place `p` of the tree. -/
inductive Sub : Tree α → List Step → Tree α → Prop
  | here (t) : Sub t [] t
  | list {ts : List (Tree α)} {i : Nat} {t p u} : ts[i]? = some t → Sub t p u → Sub (.list ts) (.idx i :: p) u
  | tuple {ts : List (Tree α)} {i : Nat} {t p u} : ts[i]? = some t → Sub t p u → Sub (.tuple ts) (.idx i :: p) u
  | dict {kvs : List (Str × Tree α)} {k t p u} : (k, t) ∈ kvs → Sub t p u → Sub (.dict kvs) (.key k :: p) u

end Verif.ForwardSpec
