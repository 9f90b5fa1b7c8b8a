import Verif.Spec.Samplewise

/-! # Specification: one call after another on consecutive samples -/

namespace Verif.BatchArrSpec
open Samplewise

variable {V S D : Type}

/-- `f` is called on the data `xs` one after the other, each call with the state the one before returned; `ys` are the results and `s'` is the
last state. -/
inductive Threaded (f : D → S → Except PyErr (D × S)) : List D → S → List D → S → Prop
  | nil (s) : Threaded f [] s [] s
  | cons {x xs s y s' ys s''} : f x s = .ok (y, s') → Threaded f xs s' ys s'' → Threaded f (x :: xs) s (y :: ys) s''

/-- The trees `bs` hold consecutive samples of the `n` samples of `d`, beginning with sample `a`, as many as `ls` tells. -/
def Blocks (n : Nat) (d : Tree (NArr V)) : Nat → List Nat → List (Tree (NArr V)) → Prop
  | _, [], [] => True
  | a, l :: ls, b :: bs => Related (Picked (fun i => i + a) n l) d b ∧ Blocks n d (a + l) ls bs
  | _, _, _ => False

/-- The sizes of the batches for `n` samples and the limit `m`: full batches, then the remainder, at once or one by one. -/
def sizes (avoid : Bool) (n m : Nat) : List Nat :=
  List.replicate (n / m) m ++ if n % m = 0 then [] else if avoid then List.replicate (n % m) 1 else [n % m]

end Verif.BatchArrSpec
