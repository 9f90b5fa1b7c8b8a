import Verif.Model.Edit

/-!
# Why a model is not ready

Models `_get_all_unready_modules` and `_get_unready_reason` of `/repo/parametricmatrixmodels/model.py` lines 167-190, which
produce the reason in the message of the `RuntimeError` of `__call__`, `grad_input`, `grad_params` and `set_precision`. `NonSequentialModel` overrides `is_ready` (nonsequentialmodel.py:339-370) but not these. Simplification: the
modules in the message are given by reference, the code prints them.
-/

namespace Verif.Edit

variable {M S : Type}

/-- The texts that `_get_unready_reason` can return (model.py:174-190). -/
inductive Reason where
  | noModules
  | unready (modules : List Nat)
  | noInputShape
  | noOutputShape
  | unknown
  deriving DecidableEq

/-- `_get_all_unready_modules` (model.py:167-172). -/
def unreadyModules (sig : Sig M S) (w : World M S) : List Nat :=
  w.mdl.modules.jaxLeaves.filter fun i => !sig.ready (w.heap i)

/-- `_get_unready_reason` (model.py:174-190). -/
def unreadyReason (sig : Sig M S) (w : World M S) : Reason :=
  if w.mdl.modules.jaxLeaves.length = 0 then .noModules
  else if 0 < (unreadyModules sig w).length then .unready (unreadyModules sig w)
  else if w.mdl.inShape.isNone then .noInputShape
  else if w.mdl.outShape.isNone then .noOutputShape
  else .unknown

/-- The guard of `__call__`, `_verify_input`, `grad_input`, `grad_params` and `set_precision`: the reason in the message of the `RuntimeError`, if one is raised (model.py:492-498, 571-576, 692-697, 870-875, 973-978). -/
def refusal (sig : Sig M S) (kind : Kind) (w : World M S) : Option Reason :=
  if !isReady sig kind w then some (unreadyReason sig w) else none

end Verif.Edit
