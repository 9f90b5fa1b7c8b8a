import Verif.Model.Loss
import Verif.Model.TrainArgs

/-!
# Which loss function training calls, and with what

Mirrors the treatment of `loss_fn` and `val_loss_fn` in `Model.train` (`/repo/parametricmatrixmodels/model.py` lines 1115-1184), `make_loss_fn` (`/repo/parametricmatrixmodels/training.py` lines
1741-1971) and `clean_loss_fn` in `training.train` (training.py:1433-1495). Python functions take a list of arguments here. The values of the named losses are those of `Verif/Model/Loss.lean`, the
checks of the data those of `Verif/Model/TrainArgs.lean`; both are parameters or separate functions.
-/

namespace Verif
namespace LossCall
open TrainArgs

/-- An argument of a call: the epoch, data (features, targets, uncertainties, predictions), `None`, parameters, the flag `training`, the state of the model, a random key (training.py:1753, 1804). -/
inductive Arg (D P S K : Type) where
  | epoch (n : Nat)
  | data (d : D)
  | none
  | params (p : P)
  | flag (b : Bool)
  | state (s : S)
  | key (k : K)

/-- A Python function with positional arguments (training.py:1433-1490; model.py:1115-1171). -/
abbrev Fn (D P S K R : Type) := List (Arg D P S K) → Except PyErr R

/-- `loss_fn` and `val_loss_fn`: a name or a function (model.py:1115-1184). -/
inductive LossArg (D P S K F : Type) where
  | named (name : Str)
  | fn (f : Fn D P S K F)

/-- What the losses are made of: the model as a function of parameters, features, `training`, state and key; Python's `float`; the values of the named losses of predictions, targets and uncertainties (training.py:1741-1971; model.py:1173-1184). -/
structure Env (D P S K F : Type) where
  model : P → D → Bool → S → K → Except PyErr (D × S)
  parse : Str → Except PyErr ℝ
  value : Loss.Kind → D → D → Option D → Except PyErr F

variable {D P S K F σ : Type} [DecidableEq σ]

/-- The named losses that are given uncertainties (training.py:1803-1916: the `loss_fn` with 8 parameters). -/
def takesUnc : Loss.Kind → Bool
  | .mseUnc | .maeUnc | .mreUnc | .mrdUnc => true
  | _ => false

/-- `make_loss_fn` (training.py:1741-1971): a function of 6, 7 or 8 arguments. A call with another number of arguments is a `TypeError`. (No call is made with the right number of arguments of wrong kinds.) -/
def makeLoss (env : Env D P S K F) (name : Str) : Except PyErr (Fn D P S K (F × S)) := do
  let (k, unsup) ← Loss.kindOf env.parse name
  if unsup then
    return fun
      | [.epoch _, .data x, .params p, .flag t, .state s, .key r] => do
        let (pred, s') ← env.model p x t s r
        return (← env.value k pred x Option.none, s')
      | _ => .error .typeError
  else if takesUnc k then
    return fun
      | [.epoch _, .data x, .data y, .data u, .params p, .flag t, .state s, .key r] => do
        let (pred, s') ← env.model p x t s r
        return (← env.value k pred y (some u), s')
      | _ => .error .typeError
  else
    return fun
      | [.epoch _, .data x, .data y, .params p, .flag t, .state s, .key r] => do
        let (pred, s') ← env.model p x t s r
        return (← env.value k pred y Option.none, s')
      | _ => .error .typeError

/-- `clean_loss_fn` of `Model.train` (model.py:1115-1171); `y` and `u` tell whether targets and uncertainties were given. -/
def wrap (env : Env D P S K F) (l : LossArg D P S K F) (y u : Bool) : Except PyErr (Fn D P S K (F × S)) := match l with
  | .named name => makeLoss env name
  | .fn f => match y, u with
    | true, true => .ok fun
      | [.epoch e, .data x, .data y, .data u, .params p, .flag t, .state s, .key r] => do
        let (pred, s') ← env.model p x t s r
        return (← f [.epoch e, .data x, .data y, .data u, .data pred], s')
      | _ => .error .typeError
    | true, false => .ok fun
      | [.epoch e, .data x, .data y, .params p, .flag t, .state s, .key r] => do
        let (pred, s') ← env.model p x t s r
        return (← f [.epoch e, .data x, .data y, .data pred], s')
      | _ => .error .typeError
    | false, false => .ok fun
      | [.epoch e, .data x, .params p, .flag t, .state s, .key r] => do
        let (pred, s') ← env.model p x t s r
        return (← f [.epoch e, .data x, .data pred], s')
      | _ => .error .typeError
    | false, true => .error .valueError

/-- First half of `clean_loss_fn` of `training.train` (training.py:1442-1465): a function that ignores the targets. -/
def dropY (f : Fn D P S K (F × S)) : Fn D P S K (F × S)
  | [e, x, _, p, t, s, r] => f [e, x, p, t, s, r]
  | _ => .error .typeError

/-- Second half of `clean_loss_fn` of `training.train` (training.py:1467-1488): a function that ignores the uncertainties. -/
def dropU (f : Fn D P S K (F × S)) : Fn D P S K (F × S)
  | [e, x, y, _, p, t, s, r] => f [e, x, y, p, t, s, r]
  | _ => .error .typeError

/-- `clean_loss_fn` of `training.train` (training.py:1433-1490). -/
def clean (f : Fn D P S K (F × S)) (y u : Bool) : Fn D P S K (F × S) :=
  let f := if y then f else dropY f
  if u then f else dropU f

/-- The two losses that the training loop calls, and the data it calls them with (model.py:1173-1184; training.py:1492-1495). -/
def losses (env : Env D P S K F) (l : LossArg D P S K F) (v : Option (LossArg D P S K F)) (a : Args σ) : Except PyErr (Fn D P S K (F × S) × Fn D P S K (F × S) × Plan σ) := do
  let lf ← wrap env l a.Y.isSome a.Yunc.isSome
  let vf ← match v with
    | Option.none => .ok lf
    | some w => wrap env w a.Yval.isSome a.YvalUnc.isSome
  let p ← validate a
  return (clean lf a.Y.isSome a.Yunc.isSome, clean vf p.Yval.isSome p.YvalUnc.isSome, p)

/-- Data that may be `None` (training.py:413-430). -/
def opt : Option D → Arg D P S K
  | some d => .data d
  | Option.none => .none

/-- The call of a loss on a batch: the arguments of `_train_step` and of the batched validation loss after the parameters were put together (training.py:303-370, 518-675, 1574-1604). -/
def callOn (f : Fn D P S K (F × S)) (e : Nat) (x : D) (y u : Option D) (p : P) (t : Bool) (s : S) (r : K) : Except PyErr (F × S) :=
  f [.epoch e, .data x, opt y, opt u, .params p, .flag t, .state s, .key r]

end LossCall
end Verif
