import Verif.Model.ConfFile

/-!
# What saving and loading a conformalized model has to keep
-/

namespace Verif
namespace ConfSpec

open ConfFile

variable {W K M D : Type}

/-- The wrapped model can be written and restored (`C39` for the models of this package). -/
def ModelOk (ops : Ops W K M D) (m : M) : Prop := ∃ d m₀, ops.ser m = .ok d ∧ ops.create (ops.cls m) = .ok m₀ ∧ ops.deser m₀ d = .ok m

/-- The encoder can be written and restored (`C42`). -/
def EncOk (ops : Ops W K M D) (w : Wrapper W K M) : Prop := ∀ e, w.attr .onehot = some e → ∃ d, ops.encSer e = .ok d ∧ ops.encDeser d = .ok e

/-- The tree in use: without training data it is not read (`distance_sensitivity` returns or raises before, conformalizedmodel.py:997-1014). -/
def treeUsed (w : Wrapper W K M) : Option K := if (w.attr .trainingData).isSome then w.kdtree else Option.none

/-- Two wrappers that agree in everything predictions, levels and sensitivities are computed from, apart from the dictionary of quantiles. -/
def Agree (w v : Wrapper W K M) : Prop := w.model = v.model ∧ (∀ a, w.attr a = v.attr a) ∧ treeUsed w = treeUsed v

/-- What an attribute is after a successful calibration: the value of this call, or its old value where this call assigns none. Ranges, encoder and cutoff are only assigned with training data. -/
def expected (r : Run W) (w : Wrapper W K M) (a : Attr) : Option W :=
  if a = .trainingData then r.training
  else if a = .defaultAlpha ∨ a = .nnDistQuantile then w.attr a
  else if (a = .iqr ∨ a = .range ∨ a = .onehot ∨ a = .cutoff) ∧ r.training = Option.none then w.attr a
  else match r.value a with
    | some (.ok v) => v
    | _ => w.attr a

end ConfSpec
end Verif
