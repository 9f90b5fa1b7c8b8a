import Verif.Model.SerializeLib
import Verif.Lemmas.TreeDec

/-!
# Compiling a `PReLU`, and all the objects whose parameters can be set

Mirrors `/repo/parametricmatrixmodels/modules/prelu.py` lines 50-81 (constructor) and 134-194 (`compile`). The setters are those of `Verif.Model.SerializeLib`.
-/

namespace Verif.Ser
open Attr

/-- `PReLU(...)` (prelu.py:50-81). -/
def preluInit (single : Bool) (mag : Nat) (re : Bool) : Attrs Attr := obj [(singleParameter, vBool single), (initMagnitude, vFloat mag), (real, vBool re)]

mutual
/-- A random array for every tuple of integers (prelu.py:150-194); fails for negative sizes and for other leaves. All arrays get the same content `rnd`. -/
def arrTree (re : Bool) (rnd : Nat) : PyVal → Option PyVal
  | .leaf _ => none
  | .none => some .none
  | .list ts => (arrTreeL re rnd ts).map .list
  | .tuple ts => match intsOf (.tuple ts) with
    | some s => if s.all (0 ≤ ·) then some (vArr ⟨s.map Int.toNat, re, false, rnd⟩) else none
    | none => (arrTreeL re rnd ts).map .tuple
  | .dict kvs => (arrTreeD re rnd kvs).map .dict
/-- `arrTree` on lists (prelu.py:174-194). -/
def arrTreeL (re : Bool) (rnd : Nat) : List PyVal → Option (List PyVal)
  | [] => some []
  | t :: ts => match arrTree re rnd t, arrTreeL re rnd ts with
    | some u, some r => some (u :: r)
    | _, _ => none
/-- `arrTree` on dictionaries (prelu.py:174-194). -/
def arrTreeD (re : Bool) (rnd : Nat) : List (Str × PyVal) → Option (List (Str × PyVal))
  | [] => some []
  | (k, t) :: ts => match arrTree re rnd t, arrTreeD re rnd ts with
    | some u, some r => some ((k, u) :: r)
    | _, _ => none
end

/-- `compile` (prelu.py:134-194). A failure while making the arrays is `TypeError` here; the code has then already stored the input shape. -/
def preluCompile (rnd : Nat) (s : PyVal) (a : Attrs Attr) : Except PyErr (Attrs Attr) :=
  if a Attr.a ≠ .none ∧ a inputShape ≠ .none then
    if (a inputShape).norm ≠ s.norm then .error .valueError else .ok a                              -- 136-143
  else if flagOn (a singleParameter) then
    .ok (setAttr (setAttr a inputShape s) Attr.a (.tuple [vArr ⟨[1], flagOn (a real), false, rnd⟩]))   -- 145-148, 168-169
  else match arrTree (flagOn (a real)) rnd s.norm with                                              -- 170-194
    | some u => .ok (setAttr (setAttr a inputShape s) Attr.a u)
    | none => .error .typeError

end Verif.Ser
