import Verif.Model.Str
import Mathlib.Data.Rat.Floor

/-!
# Model of the progress bar

Mirrors `/repo/parametricmatrixmodels/progressbar.py` lines 5-130. Numbers are rationals; readings of the clock are inputs (one for
the start of the timer, one for the elapsed time). The output is the text written to the terminal.
-/

namespace Verif
namespace ProgressBar

/-- `int(x)`: rounding towards zero (progressbar.py:63, 81, 111). -/
def trunc (x : Rat) : Int := if 0 ≤ x then ⌊x⌋ else ⌈x⌉

/-- The attributes of `ProgressBarSingleton` (progressbar.py:27-55). -/
structure Bar where
  total : Rat
  length : Int
  last : Int
  first : Bool
  starttime : Option Rat
  longest : Nat
  extra : Str

/-- `s * n` for a single character: nothing for a negative count (progressbar.py:78-79, 89, 111, 118, 124). -/
def rep (c : Char) (n : Int) : Str := List.replicate n.toNat c

/-- `ProgressBarSingleton.start` (progressbar.py:48-55). -/
def start (b : Bar) (info : Str) : Bar :=
  { b with last := 0, first := true, starttime := none, longest := 0, extra := info ++ (if info.isEmpty then [] else " | ".toList) }

/-- `ProgressBarSingleton.__init__` (progressbar.py:27-32). -/
def create (total : Rat) (length : Int) (info : Str) : Bar := start ⟨total, length, 0, true, none, 0, []⟩ info

/-- `str(int(x))` (progressbar.py:81, 111). -/
def secs (x : Rat) : Str :=
  match trunc x with
  | .ofNat n => ofNat n
  | .negSucc n => '-' :: ofNat (n + 1)

/-- Padding with spaces to overwrite the longest earlier line (progressbar.py:85-91, 114-120): the text and the new longest length. -/
def pad (longest : Nat) (disp : Str) : Str × Nat :=
  if 0 < (longest : Int) - disp.length then (disp ++ List.replicate (longest - disp.length) ' ', longest) else (disp, disp.length)

/-- `ProgressBarSingleton.update` (progressbar.py:57-95): the new state and the text written, if any. Once `first` is off, `starttime` is
set, so the reading `t0` is used for the first update only. -/
def update (b : Bar) (t0 t1 : Rat) (raw : Rat) (dynamic : Str) : Bar × Option Str :=
  if b.total ≤ 1 / 1000000000 then (b, none)
  else
    let frac := raw / b.total
    let pint := trunc (frac * b.length)
    let st := if b.first then t0 else b.starttime.getD t0
    let elapsed := t1 - st
    let est := if 1 / 1000000000 < frac then elapsed / frac else 0
    let remaining := est - elapsed
    let p := min pint b.length
    let b' := { b with first := false, starttime := some st }
    if b.last ≤ p then
      let disp := ['\r'] ++ b.extra ++ dynamic ++ (if dynamic.isEmpty then [] else [' ']) ++ ['['] ++ rep '#' p ++ rep ' ' (b.length - p)
        ++ "] (".toList ++ secs remaining ++ "s)".toList
      let r := pad b.longest disp
      ({ b' with longest := r.2, last := p }, some r.1)
    else (b', none)

/-- `ProgressBarSingleton.end` (progressbar.py:97-130): the new state and the text written, if any. -/
def finish (b : Bar) (t0 t1 : Rat) (info : Str) (newline clearline : Bool) : Bar × Option Str :=
  if b.total ≤ 1 / 1000000000 then (b, none)
  else
    let st := b.starttime.getD t0
    let disp := ['\r'] ++ b.extra ++ info ++ (if info.isEmpty then [] else [' ']) ++ ['['] ++ rep '#' b.length ++ "] (".toList
      ++ secs (t1 - st) ++ "s)".toList
    let r := pad b.longest disp
    let text := if clearline then ['\r'] ++ List.replicate (r.1.length - 1) ' ' ++ ['\r'] else r.1
    ({ b with starttime := some st, longest := r.2 }, some (text ++ (if newline then ['\n'] else [])))

/-- `ProgressBarSingleton.reset` (progressbar.py:34-46). -/
def reset (b : Bar) (t0 t1 : Rat) (total : Rat) (length : Int) (info : Str) : Bar × Option Str :=
  let b1 : Bar := { b with total := total, length := length, last := 0, first := true, starttime := none, longest := 0 }
  let r := finish b1 t0 t1 [] false true
  (start r.1 info, r.2)

/-- `ProgressBar(total, length, extra_info)`: the one bar there is, made at the first call and reset at the others (progressbar.py:12-19). -/
def factory (inst : Option Bar) (t0 t1 : Rat) (total : Rat) (length : Int) (info : Str) : Bar × Option Str :=
  match inst with
  | none => (create total length info, none)
  | some b => reset b t0 t1 total length info

/-- One call of `update`: clock readings, progress and information (progressbar.py:57-69). -/
structure Call where
  t0 : Rat
  t1 : Rat
  raw : Rat
  dynamic : Str

/-- A run of updates: the texts written and the final state (progressbar.py:57-95). -/
def run (b : Bar) : List Call → Bar × List Str
  | [] => (b, [])
  | c :: cs =>
    let r := update b c.t0 c.t1 c.raw c.dynamic
    let q := run r.1 cs
    (q.1, r.2.toList ++ q.2)

end ProgressBar
end Verif
