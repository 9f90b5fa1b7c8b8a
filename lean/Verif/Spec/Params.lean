import Verif.Model.Params
import Verif.Spec.TreeMap

/-!
# Specification vocabulary for reading and setting parameters

Nothing here refers to the functions that read and set; only the tree of modules and the tree of values are compared.
-/

namespace Verif.ParamsSpec
open Tree Params ForwardSpec

variable {A : Type}

/-- The objects of a module, in order of storage. -/
def refs : (n : Nat) → Node n → List Nat
  | 0, r => [r]
  | _ + 1, .inl r => [r]
  | n + 1, .inr t => (flat t).flatMap (refs n)

/-- No dictionary of modules repeats a key (always true of a Python object). -/
def KeysAll : (n : Nat) → Node n → Prop
  | 0, _ => True
  | _ + 1, .inl _ => True
  | n + 1, .inr t => KeysOk t ∧ ∀ q o, At t q o → KeysAll n o

/-- The tree is the other one with every leaf replaced by some tree, up to the order of the entries of dictionaries. -/
def Prefix {α : Type} (t : Tree α) (p : Tree A) : Prop := ∃ r : Tree (α × Tree A), map Prod.fst r = norm t ∧ norm (Tree.bind Prod.snd r) = norm p

/-- The object `r` is given the part `v` of the tree `p`: the part sits where the object sits. A state `None` gives nothing to the modules of a model. -/
def Gets (w : What) : (n : Nat) → Node n → Tree A → Nat → Tree A → Prop
  | 0, r', p, r, v => r' = r ∧ p = v
  | _ + 1, .inl r', p, r, v => r' = r ∧ p = v
  | n + 1, .inr t, p, r, v => ¬(w = .state ∧ p = .none) ∧ ∃ q o u, At t q o ∧ Sub p q u ∧ Gets w n o u r v

/-- The tree `p` has a part for every module, at all levels. -/
def Fits (w : What) : (n : Nat) → Node n → Tree A → Prop
  | 0, _, _ => True
  | _ + 1, .inl _, _ => True
  | n + 1, .inr t, p => (w = .state ∧ p = .none) ∨ Prefix t p ∧ ∀ q o u, At t q o → Sub p q u → Fits w n o u

end Verif.ParamsSpec
