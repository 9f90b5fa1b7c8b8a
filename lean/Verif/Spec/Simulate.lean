import Verif.Model.Nested
import Verif.Spec.Samplewise

/-!
# What it means that two models stand in the same relation as their modules

Two models correspond if they are built in the same way from corresponding modules. Nothing here refers to how models compute.
-/

namespace Verif
namespace SimSpec
open Nested Samplewise

variable {M M' P P' S S' : Type}

/-- The same containers with the same keys, whatever the values. -/
abbrev Alike {A B : Type} (t : Tree A) (u : Tree B) : Prop := Related (fun _ _ => True) t u

/-- Two models, with parameters, are built alike from modules that correspond by `J`: the same classes, the same connections, the same containers, and what is in the same position (or at the
same path) corresponds. -/
def Corresponds (J : M → P → M' → P' → Prop) : ∀ n, ModAt M n → ValAt P n → ModAt M' n → ValAt P' n → Prop
  | 0 => J
  | n + 1 => fun m p m' p' => match m, p, m', p' with
    | .inl m, .inl p, .inl m', .inl p' => J m p m' p'
    | .inr m, .inr p, .inr m', .inr p' => m'.kind = m.kind ∧ Alike m.modules m'.modules ∧ Alike p p' ∧ match m.kind with
      | .seq => ∀ (i : Nat) a b a' b', m.modules.jaxLeaves[i]? = some a → p.jaxLeaves[i]? = some b → m'.modules.jaxLeaves[i]? = some a' → p'.jaxLeaves[i]? = some b' →
          Corresponds J n a b a' b'
      | .nonseq _ _ => ∀ q a b a' b', Tree.get m.modules q = .ok (.leaf a) → Tree.get p q = .ok (.leaf b) → Tree.get m'.modules q = .ok (.leaf a') → Tree.get p' q = .ok (.leaf b') →
          Corresponds J n a b a' b'
    | _, _, _, _ => False

/-- The same for modules without their parameters. -/
def CorrespondsM (R : M → M' → Prop) : ∀ n, ModAt M n → ModAt M' n → Prop
  | 0 => R
  | n + 1 => fun m m' => match m, m' with
    | .inl m, .inl m' => R m m'
    | .inr m, .inr m' => m'.kind = m.kind ∧ Related (CorrespondsM R n) m.modules m'.modules
    | _, _ => False

/-- The states of two models correspond place by place. -/
def CorrespondsV (R : S → S' → Prop) : ∀ n, ValAt S n → ValAt S' n → Prop
  | 0 => R
  | n + 1 => fun s s' => match s, s' with
    | .inl s, .inl s' => R s s'
    | .inr s, .inr s' => Related (CorrespondsV R n) s s'
    | _, _ => False

end SimSpec
end Verif
