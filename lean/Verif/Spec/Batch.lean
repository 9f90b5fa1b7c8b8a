import Verif.Model.Batch

/-! # Specification vocabulary for batching -/

namespace Verif.BatchSpec
open Batch

variable {α γ S : Type}

/-- There is at least one leaf and every leaf has `n` samples. -/
def Uniform (n : Nat) (X : Leaves α) : Prop := X ≠ [] ∧ ∀ x ∈ X, x.length = n

/-- `X` is the leafwise concatenation of the batches `bs`, in order. -/
def JoinOf (bs : List (Leaves α)) (X : Leaves α) : Prop :=
  (∀ b ∈ bs, b.length = X.length) ∧
  ∀ (k : Nat) (x : List α), X[k]? = some x → x = (bs.map fun b => (b[k]?).getD []).flatten

/-- Running `f` on the batches `bs` from state `s`: the outputs and the final state, each call getting the state returned
by the previous one. -/
inductive Runs (f : Leaves α → S → Leaves γ × S) : List (Leaves α) → S → List (Leaves γ) → S → Prop
  | nil (s) : Runs f [] s [] s
  | cons {b bs s ys s'} : Runs f bs (f b s).2 ys s' → Runs f (b :: bs) s ((f b s).1 :: ys) s'

/-- The number of output leaves depends on the number of input leaves only (the output structure of a JAX function is
static). -/
def StaticWidth (f : Leaves α → S → Leaves γ × S) : Prop :=
  ∀ X Y s s', X.length = Y.length → (f X s).1.length = (f Y s').1.length

/-- `f` treats samples independently and keeps its state: on a batch that is put together from two batches it gives the two
outputs put together. -/
structure PerSample (f : Leaves α → S → Leaves γ × S) : Prop where
  state : ∀ X s, (f X s).2 = s
  join : ∀ X Y Z s n m, 0 < n → 0 < m → Uniform n Y → Uniform m Z → JoinOf [Y, Z] X →
    JoinOf [(f Y s).1, (f Z s).1] (f X s).1

/-- The values of sample `i` in all leaves. -/
def sampleAt (X : Leaves α) (i : Nat) : List (Option α) := X.map fun x => x[i]?

/-- All samples, in order. -/
def samples (n : Nat) (X : Leaves α) : List (List (Option α)) := (List.range n).map (sampleAt X)

end Verif.BatchSpec
