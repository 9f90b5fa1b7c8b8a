import Verif.Model.Nested
import Verif.Spec.Dataflow

/-! # Specification of nested models: the modules one after another, however they are grouped -/

namespace Verif.NestedSpec
open Nested Forward ForwardSpec DataflowSpec Tree

variable {M P S : Type}

/-- The modules in the order in which nested sequential models run them. -/
def mods : ∀ n, ModAt M n → List M
  | 0, m => [m]
  | _ + 1, .inl m => [m]
  | n + 1, .inr nm => nm.modules.jaxLeaves.flatMap (mods n)

/-- The parameters, or the states, in this order. -/
def vals : ∀ n, ValAt P n → List P
  | 0, p => [p]
  | _ + 1, .inl p => [p]
  | n + 1, .inr t => t.jaxLeaves.flatMap (vals n)

/-- All nested models are sequential, their dictionaries have no key twice, and the parameters and the state have the structure of the modules. -/
def Fits : ∀ n, ModAt M n → ValAt P n → ValAt S n → Prop
  | 0, _, _, _ => True
  | _ + 1, .inl _, .inl _, .inl _ => True
  | n + 1, .inr nm, .inr p, .inr s => nm.kind = .seq ∧ KeysOk nm.modules ∧ sameStruct nm.modules.norm p.norm = true ∧ sameStruct nm.modules.norm s.norm = true ∧
      ∀ (i : Nat) m p' s', nm.modules.jaxLeaves[i]? = some m → p.jaxLeaves[i]? = some p' → s.jaxLeaves[i]? = some s' → Fits n m p' s'
  | _ + 1, _, _, _ => False

/-- All nested models are sequential. -/
def AllSeq : ∀ n, ModAt M n → Prop
  | 0, _ => True
  | _ + 1, .inl _ => True
  | n + 1, .inr nm => nm.kind = .seq ∧ ∀ m ∈ nm.modules.jaxLeaves, AllSeq n m

/-- All connections of nested models are well named. -/
def WellNamed : ∀ n, ModAt M n → Prop
  | 0, _ => True
  | _ + 1, .inl _ => True
  | n + 1, .inr nm => (∀ sep conn, nm.kind = .nonseq sep conn → Names sep nm.modules conn) ∧ ∀ m ∈ nm.modules.flat, WellNamed n m

/-- All dictionaries of the states of nested models are in the order of their keys, as `jax` returns them. -/
def Ordered : ∀ n, ValAt S n → Prop
  | 0, _ => True
  | _ + 1, .inl _ => True
  | n + 1, .inr t => t.norm = t ∧ ∀ s ∈ t.flat, Ordered n s

end Verif.NestedSpec
