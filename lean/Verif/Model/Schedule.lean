import Verif.Model.Str

/-! # The learning rate (training.py) -/

namespace Verif
namespace Schedule

variable {R : Type}

/-- The learning rates that can be given: a number, a function of the epoch, or something else such as an array of numbers (training.py:113-116). -/
inductive Rate (R : Type) where
  | number (x : R)
  | function (f : Nat → R)
  | other

/-- `make_schedule` (training.py:113-124): `f32` is the rounding to single precision. -/
def make (f32 : R → R) : Rate R → Except PyErr (Nat → R)
  | .function f => .ok fun i => f32 (f i)
  | .number x => .ok fun _ => f32 x
  | .other => .error .typeError

end Schedule
end Verif
