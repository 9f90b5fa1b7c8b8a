import Verif.Model.Training

/-!
# Model of the termination signals

Mirrors `/repo/parametricmatrixmodels/training.py` lines 96-110 (`GracefulKiller`), 511-516 (where one is made), 808-811 and 829-861 (where it is asked) and 1105-1118 (where it is switched off).

`_train` is compiled by `jax.jit` (373-395). Its Python body, which makes the killer and at its end switches it off, runs while it is traced; the loop over the epochs runs afterwards, and only asks the killer
through `jax.pure_callback`. Every call of `train` is traced anew, since the functions it hands over are new ones. Simplifications: the signals arrive at the points where Python's interpreter looks at them, while
tracing or before the condition of the loop is evaluated; a killer whose training is over is not looked at any more, so that only the one that the handlers belong to is kept. The two signals are treated alike
by the killer.
-/

namespace Verif
namespace Interrupt
open Train

/-- `GracefulKiller` (training.py:96-98). -/
structure Killer where
  killNow : Bool
  active : Bool

/-- Who handles the signals: nobody (`none`, what Python does by itself), or a killer (training.py:100-102). -/
abbrev Proc := Option Killer

/-- What a signal does: Python's or the system's own reaction (`KeyboardInterrupt` or the end of the process), the `KeyboardInterrupt` of the killer, or nothing but a note (training.py:104-110). -/
inductive Effect where
  | default
  | raised
  | noted
  deriving DecidableEq

/-- `exit_gracefully` (training.py:104-110). -/
def signal : Proc → Proc × Effect
  | none => (none, .default)
  | some k => if k.killNow && k.active then (some k, .raised) else (some { k with killNow := true }, .noted)

/-- `n` signals one after another, until one is not just noted (training.py:104-110). -/
def signals : Nat → Proc → Proc × Effect
  | 0, p => (p, .noted)
  | n + 1, p => match signal p with
    | (p', .noted) => signals n p'
    | r => r

/-- `killer.kill_now` (training.py:808-811). -/
def asked : Proc → Bool
  | none => false
  | some k => k.killNow

/-- `killer = GracefulKiller()`, if `verbose` (training.py:100-102, 511-512). -/
def make (verbose : Bool) (p : Proc) : Proc := if verbose then some ⟨false, true⟩ else p

/-- `killer.active = False`, if `verbose` (training.py:1105-1118). -/
def switchOff (verbose : Bool) (p : Proc) : Proc := if verbose then p.map fun k => { k with active := false } else p

/-- How a call of `train` ends: normally or with an exception of its own, by the reaction to a signal without a killer, or by the killer (training.py:1100-1128). -/
inductive Outcome (A : Type) where
  | finished (r : Except PyErr A)
  | default
  | raised

variable {α P S K F : Type} (c : Cfg α P S K F)

/-- `epoch_cond_fn` with the answer of the killer (training.py:829-861). -/
def cond (stop : Bool) (s : TState P S K F) : Bool :=
  (!(c.verbose && stop)) && decide (s.epoch < c.epochs) && c.lt c.target s.best.loss && decide (0 < s.patience)

/-- The loop over the epochs (training.py:1100-1103); `arrive i` signals arrive before the condition is evaluated for epoch `i`. -/
def loop (arrive : Nat → Nat) : Nat → TState P S K F → Proc → Proc × Outcome (TState P S K F)
  | 0, s, p => (p, .finished (.ok s))
  | n + 1, s, p => match signals (arrive s.epoch) p with
    | (p, .default) => (p, .default)
    | (p, .raised) => (p, .raised)
    | (p, .noted) =>
      if cond c (asked p) s then match epochBody c s with
        | .error e => (p, .finished (.error e))
        | .ok s' => loop arrive n s' p
      else (p, .finished (.ok s))

/-- `_train` (training.py:397-1128): `tracing` signals arrive while it is traced. -/
def train (tracing : Nat) (arrive : Nat → Nat) (batchRng : K) (adam : List (OptState P)) (state : S) (rng : K) (p : Proc) : Proc × Outcome (TState P S K F) :=
  match signals tracing (make c.verbose p) with
  | (p, .default) => (p, .default)
  | (p, .raised) => (p, .raised)
  | (p, .noted) => match initial c batchRng adam state rng with
    | .error e => (p, .finished (.error e))
    | .ok s => loop c arrive c.epochs s (switchOff c.verbose p)

end Interrupt
end Verif
