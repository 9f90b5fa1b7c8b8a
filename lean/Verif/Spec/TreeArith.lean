import Verif.Spec.NdArr
import Verif.Spec.Forward
import Mathlib.Analysis.RCLike.Basic

/-! # Specification vocabulary for leafwise arithmetic -/

namespace Verif.ArithSpec
open ForwardSpec NdSpec

variable {A B C : Type}

/-- The array `z` is the elementwise `f` of `x` and `y` with NumPy broadcasting. -/
def Elementwise (f : A → B → C) (x : NArr A) (y : NArr B) (z : NArr C) : Prop :=
  Broadcast x.shape y.shape z.shape ∧
  ∀ i j k, InB z.shape i → Reads x.shape i j → Reads y.shape i k → z.val i = f (x.val j) (y.val k)

/-- The tree `r` has an array exactly where `t` has one; there `u` has one too and `r` holds their elementwise `f`. -/
def Leafwise (f : A → B → C) (t : Tree (NArr A)) (u : Tree (NArr B)) (r : Tree (NArr C)) : Prop :=
  (∀ p, (∃ x, At t p x) ↔ ∃ z, At r p z) ∧
  ∀ p x z, At t p x → At r p z → ∃ y, At u p y ∧ Elementwise f x y z

/-- Numbers and "not finite": an operation with a number that is not finite is not finite. -/
inductive Lifted {𝕜 : Type} (f : 𝕜 → 𝕜 → Option 𝕜) : Option 𝕜 → Option 𝕜 → Option 𝕜 → Prop
  | left (y) : Lifted f none y none
  | right (x) : Lifted f x none none
  | both (x y) : Lifted f (some x) (some y) (f x y)

/-- Every array of the tree, with its place, exactly once. -/
def Lists (t : Tree A) (l : List (List Step × A)) : Prop := (l.map Prod.fst).Nodup ∧ ∀ p a, (p, a) ∈ l ↔ At t p a

end Verif.ArithSpec
