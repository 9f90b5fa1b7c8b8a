import Verif.Model.Display

/-! # Specification vocabulary for the display of a training -/

namespace Verif.DisplaySpec
open Display

variable {F : Type}

/-- What is shown in epoch `i` with `nb` full batches: the losses `v` and `b` (the last and the best) before the epoch with every batch, and `v'` and `b'` after it at the end. -/
def shownEpoch (nb i : Nat) (v b v' b' : F) : List (Event F) := [.start i] ++ (List.range nb).map (fun j => .update j v b) ++ [.finish v' b']

/-- What is shown in the epochs from number `i` on, with losses `ls`, if the last loss before was `v` and the best `b`. -/
def shown (lt : F → F → Bool) (nb : Nat) : Nat → F → F → List F → List (Event F)
  | _, _, _, [] => []
  | i, v, b, v' :: ls => shownEpoch nb i v b v' (if lt v' b then v' else b) ++ shown lt nb (i + 1) v' (if lt v' b then v' else b) ls

/-- The label of epoch `i` (numbered from 0) of `epochs` in the lines of the progress bar. -/
def label (i epochs : Nat) : Str := ofNat (i + 1) ++ ['/'] ++ ofNat epochs ++ " | ".toList

end Verif.DisplaySpec
