import Verif.Model.Lifecycle

/-! # Specification: modules that were compiled can be called -/

namespace Verif.Lifecycle

/-- A module as a constructor returns it. -/
inductive New : Obj → Prop where
  | herm {size bias Ms o} : newHerm size bias Ms = .ok o → New o
  | lowRank {size rank bias o} : newLowRank size rank bias = .ok o → New o
  | tensor {shape bias Ms o} : newTensor shape bias Ms = .ok o → New o
  | obs {num out Ds o} : newObs num out Ds = .ok o → New o

/-- Is the module a `LowRankAffineHermitianMatrix`? -/
def Obj.IsLowRank : Obj → Prop
  | .lowRank .. => True
  | _ => False

/-- Is the module an `ExpectationValueSum` or a `TransitionAmplitudeSum`? -/
def Obj.IsObs : Obj → Bool
  | .obs .. => true
  | _ => false

/-- The arrays for a low-rank module are for equally many matrices. -/
def Op.SameCount : Op → Prop
  | .params [ls, us] _ => ls.head? = us.head?
  | _ => True

/-- The observables are for vectors with `n` components. -/
def Op.Fits (n : Nat) : Op → Prop
  | .params [[_, _, m, _]] _ => m = n
  | _ => True

/-- The module does in a call on a batch of samples of shape `sh` what it announces. -/
def Obj.Works (o : Obj) (s : Tree (List Nat)) (sh out : List Nat) : Prop :=
  outputShape s o = .ok (out.map some) ∧ ∀ b, call (b :: sh) o = .ok (b :: out)

end Verif.Lifecycle
