import Verif.Model.Keys
import Verif.Spec.Nested

/-!
# Specification: independent random keys
-/

namespace Verif.KeysSpec
open Verif Keys Forward Nested NestedSpec

/-- `x` is `k` or was split off from it, in one or more steps. -/
inductive Below (k : Key) : Key → Prop
  | refl : Below k k
  | child {x : Key} (i : Nat) : Below k x → Below k (.child x i)

/-- What is drawn with the two keys is unrelated: neither is the other or was split off from it. -/
def Independent (x y : Key) : Prop := ¬ Below x y ∧ ¬ Below y x

/-- All keys of a list are independent of each other. -/
def Fresh (l : List Key) : Prop := l.Pairwise Independent

variable {M : Type}

/-- Compiling with a key that is independent of all keys used so far leaves all keys independent, and new ones come from the
given key. -/
def OwnKeys (compile : M → Key → Tree Shape → Except PyErr M) (drawn : M → List Key) : Prop :=
  ∀ m k s m', compile m k s = .ok m' → Fresh (drawn m) → (∀ x ∈ drawn m, Independent k x) →
    Fresh (drawn m') ∧ ∀ x ∈ drawn m', x ∈ drawn m ∨ Below k x

/-- The keys used by all modules in a module of any nesting. -/
def drawnAt (drawn : M → List Key) (n : Nat) (m : ModAt M n) : List Key := (mods n m).flatMap drawn

/-- A call hands out keys that come from the given key and are independent of each other. `used` tells from the state after the
call which keys were handed out. -/
def OwnCalls {P S A : Type} (call : M → P → Tree A → Bool → S → Key → Except PyErr (Tree A × S)) (used : S → List Key) : Prop :=
  ∀ m p x t s k y s', call m p x t s k = .ok (y, s') → Fresh (used s') ∧ ∀ q ∈ used s', Below k q

/-- The `i`-th of the keys that are left when a key is split again and again and the second half is used each time. -/
def keptKey (k : Key) : Nat → Key
  | 0 => k
  | i + 1 => .child (keptKey k i) 0

/-- The key that is used at step `i`. -/
def usedKey (k : Key) (i : Nat) : Key := .child (keptKey k i) 1

end Verif.KeysSpec
