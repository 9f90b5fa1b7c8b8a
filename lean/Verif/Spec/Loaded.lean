import Verif.Model.Loaded
import Verif.Spec.ModelLib

/-!
# Saving and loading again and again
-/

namespace Verif
namespace LoadedSpec
open Tree Ser ModelSer ModelSpec

variable {σ D A : Type}

/-- `M'` is what `M` has become after any number of times of saving it and loading the file into a new model of its class. -/
inductive Rounds (ops : Ops σ D) (w r : Str) (M : Mdl σ A) : Mdl σ A → Prop
  | start : Rounds ops w r M M
  | again {M' M₀ M'' : Mdl σ A} {d : MData D A} {strict : Bool} : Rounds ops w r M M' → save ops w M' = .ok d → createModel (kindCls M'.kind) = .ok M₀ → (strict = true → w = r) →
      load ops r strict M₀ d = .ok M'' → Rounds ops w r M M''

/-- A model that can be saved to a file and loaded from it, whose modules, with models inside models up to depth `n`, come back unchanged. -/
structure Storable (ops : Ops σ D) (w r : Str) (n : Nat) (M : Mdl (Obj σ A n) A) : Prop where
  writable : Writable (opsAt ops w r n) M
  modules : ∀ m ∈ M.modules.flat, AllWritable ops w r id n m
  shape : ∃ s, HasShape M.modules s
  noTuple : NoTuple M.modules

/-- The value of a connection as the user writes it, and the list of places it leads to: one text, or a list or tuple of texts. -/
inductive ConnTo : Tree Str → List Str → Prop
  | one (s : Str) : ConnTo (.leaf s) [s]
  | list (l : List Str) : ConnTo (.list (l.map .leaf)) l
  | tuple (l : List Str) : ConnTo (.tuple (l.map .leaf)) l

/-- The dictionary of connections as the user writes it, and as a list of places and the places they lead to, in the same order. -/
def Wired (conns : Tree Str) (conn : List (Str × List Str)) : Prop :=
  ∃ kvs, conns = .dict kvs ∧ List.Forall₂ (fun (x : Str × Tree Str) (y : Str × List Str) => x.1 = y.1 ∧ ConnTo x.2 y.2) kvs conn

end LoadedSpec
end Verif
