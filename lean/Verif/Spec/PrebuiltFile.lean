import Verif.Model.PrebuiltFile
import Verif.Spec.ModelFile

/-!
# What a restored prebuilt model has to be
-/

namespace Verif
namespace PreFile
open Tree Ser ModelSer ModelSpec

variable {σ D A : Type}

/-- The arguments of the constructor, except matrices and the activation. -/
def arguments : PKind → List OKey
  | .linear => [.outFeatures, .bias, .real, .initMagnitude]
  | .eigen => [.matrixSize, .numEig, .which, .smoothing, .biasTerm, .initMagnitude]
  | .observable => [.matrixSize, .numEig, .which, .smoothing, .affineBiasMatrix, .numSecondaries, .outputSize, .centered, .biasTerm, .useExpectationValues, .initMagnitude]

/-- The restored prebuilt model: the same class, the same hyperparameters (all other attributes as in a new object), the restored activation, and the restored model. -/
def restoredPre (canon : σ → σ) (X : Pre σ A) : Pre σ A where
  cls := X.cls
  attrs := fun k => if k ∈ arguments X.cls then X.attrs k else defaults X.cls k
  act := if X.cls = .linear then X.act.map canon else Option.none
  base := restored canon X.base

/-- The modules that `LinearNN` makes: flatten, matrix product, bias if asked for, activation if given. -/
def layers (flatten matmul bias : σ) (withBias : Bool) (act : Option σ) : List (Tree σ) :=
  [.leaf flatten, .leaf matmul] ++ (if withBias then [.leaf bias] else []) ++ (act.map Tree.leaf).toList

end PreFile
end Verif
