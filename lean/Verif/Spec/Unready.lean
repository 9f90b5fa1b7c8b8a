import Verif.Model.Unready
import Verif.Spec.Edit

/-!
# What the reasons say
-/

namespace Verif.EditSpec
open Verif Verif.Edit

variable {M S : Type}

/-- What a reason says of a model whose modules are `xs`, in words: there are no modules; these modules, and no others of the
model, are not ready; a shape is missing. The text "Unknown reason." says nothing. -/
def Says (ready : Nat → Prop) (xs : List Nat) (inShape outShape : Option S) : Reason → Prop
  | .noModules => xs = []
  | .unready l => l ≠ [] ∧ ∀ i, i ∈ l ↔ i ∈ xs ∧ ¬ ready i
  | .noInputShape => inShape = none
  | .noOutputShape => outShape = none
  | .unknown => True

end Verif.EditSpec
