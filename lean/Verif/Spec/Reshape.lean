import Verif.Model.NdArr
import Mathlib.Data.List.Forall2
import Mathlib.Algebra.Ring.Int.Defs

/-! # What a reshaped sample should look like -/

namespace Verif
namespace ReshapeSpec

/-- A shape meets a target: every dimension other than −1 is the one asked for. -/
def Meets (t : List Int) (s : List Nat) : Prop := List.Forall₂ (fun (d : Int) (n : Nat) => d = -1 ∨ d = (n : Int)) t s

/-- Number of entries of an array of a given shape. -/
def count : List Nat → Nat
  | [] => 1
  | n :: s => n * count s

/-- The entries of sample `k` of a batch, in row-major order. -/
def sample {V : Type} (x : NArr V) (k : Nat) : List V := (NArr.indices x.shape.tail).map fun i => x.val (k :: i)

end ReshapeSpec
end Verif
