import Verif.Model.Training
import Verif.Model.ProgressBar

/-!
# Model of what a verbose training shows

Mirrors `/repo/parametricmatrixmodels/training.py` lines 511-516 (the progress bar), 677-708 (the callbacks), 752-760, 900-904 and 1025-1031 (where they are called, and their results
added to the number of the epoch) and 1105-1118 (the summary). The training itself is that of `Training`, with the number of the epoch passed through the callbacks.

Simplifications: `jax.pure_callback` calls its function once, in the order of the program; the texts of floating point numbers (`:.4e`) are a parameter; the summary is a record of
the three numbers that it shows.
-/

namespace Verif
namespace Display
open Batch Train

variable {α P S K F : Type}

/-- What is shown: the beginning of an epoch, a batch, the end of an epoch, the summary (training.py:677-708, 1105-1118). -/
inductive Event (F : Type) where
  | start (epoch : Nat)
  | update (batch : Nat) (val best : F)
  | finish (val best : F)
  | summary (epochs bestEpoch : Nat) (best : F)
  deriving DecidableEq

/-- `start_progress_bar_callback` (training.py:677-684): the result and what is shown. -/
def startCb (epoch : Nat) : Nat × List (Event F) := (0, [.start epoch])

/-- `update_progress_bar_callback` (training.py:686-697). -/
def updateCb (batch : Nat) (val best : F) : Nat × List (Event F) := (0, [.update batch val best])

/-- `end_progress_bar_callback` (training.py:699-708). -/
def endCb (val best : F) : Nat × List (Event F) := (0, [.finish val best])

variable (c : Cfg α P S K F)

/-- The loop over the full batches, from batch `idx` on (training.py:710-799, 919-921): what was trained, the number of the epoch, what was shown. -/
def batchLoop (val best : F) : Nat → List (Data α) → Nat → Inner P S K → Except PyErr (Inner P S K × Nat × List (Event F))
  | _, [], epoch, i => .ok (i, epoch, [])
  | idx, b :: bs, epoch, i => do
    let (r, ev) := if c.verbose then updateCb idx val best else (0, [])
    let i' ← trainStep c (epoch + r) i b
    let (j, e, evs) ← batchLoop val best (idx + 1) bs (epoch + r) i'
    return (j, e, ev ++ evs)

/-- `epoch_body_fn` with what it shows (training.py:863-1065). -/
def epochBody (s : TState P S K F) : Except PyErr (TState P S K F × List (Event F)) := do
  let (k1, e1) := c.split s.batchRng
  let bs ← batches (c.train.shuffle c.perm c.splitN e1) c.batchSize
  let n ← numSamples c.train.X
  let (r0, ev0) := if c.verbose then startCb s.epoch else (0, [])
  let (i1, ep, ev1) ← batchLoop c s.valLoss s.best.loss 0 (bs.take (n / c.batchSize)) (s.epoch + r0) s.inner
  let inner ← (bs.drop (n / c.batchSize)).foldlM (trainStep c ep) i1
  let (k2, e2) := c.split k1
  let loss ← batchedValLoss c inner e2 ep
  let best := if c.lt loss s.best.loss then loss else s.best.loss
  let (r2, ev2) := if c.verbose then endCb loss best else (0, [])
  let s' ← epochFinish c { s with epoch := ep + r2 } k2 ⟨loss, ep, inner⟩
  return (s', ev0 ++ ev1 ++ ev2)

/-- The loop over the epochs with what it shows (training.py:1100-1103). -/
def loop : Nat → TState P S K F → Except PyErr (TState P S K F × List (Event F))
  | 0, s => .ok (s, [])
  | n + 1, s =>
    if epochCond c s then do
      let (s', ev) ← epochBody c s
      let (t, evs) ← loop n s'
      return (t, ev ++ evs)
    else .ok (s, [])

/-- `_train` with what it shows (training.py:397-1128). -/
def run (batchRng : K) (adam : List (OptState P)) (state : S) (rng : K) : Except PyErr (TState P S K F × List (Event F)) := do
  let s ← initial c batchRng adam state rng
  let (t, evs) ← loop c c.epochs s
  return (t, evs ++ (if c.verbose then [.summary t.epoch t.best.epoch t.best.loss] else []))

/-! ## The texts -/

open ProgressBar

/-- What the progress bar writes for an event, with two readings of the clock (training.py:683, 696, 707): its new state and the text. The summary is not written by the bar. -/
def write (fmt : F → Str) (epochs : Nat) (b : Bar) (t0 t1 : Rat) : Event F → Bar × Option Str
  | .start e => (start b (ofNat (e + 1) ++ ['/'] ++ ofNat epochs), none)
  | .update i v w => update b t0 t1 i (fmt v ++ ['/'] ++ fmt w)
  | .finish v w => finish b t0 t1 (fmt v ++ ['/'] ++ fmt w) false false
  | .summary _ _ _ => (b, none)

/-- What is written for events at the times `clock`, from event `i` on (training.py:677-708). -/
def texts (fmt : F → Str) (epochs : Nat) (clock : Nat → Rat × Rat) : Nat → Bar → List (Event F) → Bar × List Str
  | _, b, [] => (b, [])
  | i, b, e :: es =>
    let r := write fmt epochs b (clock i).1 (clock i).2 e
    let q := texts fmt epochs clock (i + 1) r.1 es
    (q.1, r.2.toList ++ q.2)

end Display
end Verif
