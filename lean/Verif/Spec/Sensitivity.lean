import Verif.Spec.Forward
import Verif.Spec.NdArr
import Verif.Model.Sensitivity

/-! # Vocabulary for the sensitivities -/

namespace Verif
namespace SensSpec
open Tree
open ForwardSpec (KeysOk)

variable {𝕜 : Type} [RCLike 𝕜]

/-- A number that is not finite counts as zero. -/
def finite (v : Option 𝕜) : 𝕜 := v.getD 0

/-- The squares of the entries of one gradient, each multiplied by the entry of the scale it belongs to: sample `k`, output entry `o`. -/
noncomputable def squares (g x : NArr (Option 𝕜)) (k : Nat) (o : List Nat) : ℝ :=
  ((NArr.indices x.shape).map fun j => ‖finite (g.val (k :: (o ++ j))) * finite (x.val j)‖ ^ 2).sum

/-- The gradients of one output of shape `s` for `n` samples: a tree like `xs`, each array with the axes sample, output, parameter. -/
structure GradFits {β : Type} (shape : β → List Nat) (n : Nat) (s : List Nat) (df : Tree (NArr (Option 𝕜))) (xs : Tree β) : Prop where
  keys : KeysOk df
  struct : map (fun _ => ()) df.norm = map (fun _ => ()) xs.norm
  shapes : ∀ y ∈ (jaxLeaves df).zip (jaxLeaves xs), y.1.shape = n :: (s ++ shape y.2)

end SensSpec
end Verif
