import Verif.Model.Precision

/-! # Specification vocabulary for precision -/

namespace Verif.PrecisionSpec
open Precision

variable {V : Type}

mutual
/-- Every module, at every depth, is ready. -/
def AllReady : PrecMod V → Prop
  | .base r _ _ => r = true
  | .model c subs => c = true ∧ AllReadyL subs
/-- Every module of the list, at every depth, is ready. -/
def AllReadyL : List (Bool × PrecMod V) → Prop
  | [] => True
  | (_, m) :: l => AllReady m ∧ AllReadyL l
end

mutual
/-- All modules of all models inside are executed, as in sequential models. -/
def AllExecuted : PrecMod V → Prop
  | .base _ _ _ => True
  | .model _ subs => AllExecutedL subs
/-- All modules of the list are executed. -/
def AllExecutedL : List (Bool × PrecMod V) → Prop
  | [] => True
  | (b, m) :: l => b = true ∧ AllExecuted m ∧ AllExecutedL l
end

mutual
/-- The module with all its arrays changed by `g`. -/
def mapArr (g : Arr V → Arr V) : PrecMod V → PrecMod V
  | .base r ps ss => .base r (ps.map g) (ss.map g)
  | .model c subs => .model c (mapArrL g subs)
/-- The modules of the list with all their arrays changed by `g`. -/
def mapArrL (g : Arr V → Arr V) : List (Bool × PrecMod V) → List (Bool × PrecMod V)
  | [] => []
  | (b, m) :: l => (b, mapArr g m) :: mapArrL g l
end

mutual
/-- All arrays, at every depth: parameters and states. -/
def arrays : PrecMod V → List (Arr V)
  | .base _ ps ss => ps ++ ss
  | .model _ subs => arraysL subs
/-- All arrays of the list. -/
def arraysL : List (Bool × PrecMod V) → List (Arr V)
  | [] => []
  | (_, m) :: l => arrays m ++ arraysL l
end

/-- The type with `p` bits per real number: complex numbers stay complex, all others become floating point numbers. -/
def target (p : Nat) : DType → DType
  | .complex _ => .complex (2 * p)
  | _ => .float p

/-- Numbers of `p` bits. -/
def HasBits (p : Nat) (d : DType) : Prop := d = .float p ∨ d = .complex (2 * p)

end Verif.PrecisionSpec
