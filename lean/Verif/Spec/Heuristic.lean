import Verif.Model.Normalization
import Verif.Spec.NdArr

/-! # Specification: sums of normalised sensitivities -/

namespace Verif
namespace Heur
open NdSpec

/-- An output of the model: its shape, and its parameter and input sensitivities with their normalisations. -/
structure Out where
  shape : List Nat
  sp : NArr ℝ
  np : NArr Norm.Ext
  si : NArr ℝ
  ni : NArr Norm.Ext

/-- A normalisation: infinite or a positive number. -/
def Usable : Norm.Ext → Prop
  | .fin v => 0 < v
  | .inf => True
  | .nan => False

/-- Dividing by a normalisation: by infinity it gives zero. -/
noncomputable def quotient (x : ℝ) : Norm.Ext → ℝ
  | .fin v => x / v
  | _ => 0

/-- What the distance of sample `k` adds. -/
noncomputable def distTerm (k : Nat) : Option (NArr ℝ × NArr Norm.Ext) → ℝ
  | some d => quotient (d.1.val [k]) (d.2.val [0])
  | none => 0

/-- Sensitivities of shape `(n, *output)` and normalisations of the shape of the output. -/
structure Out.Ok (n : Nat) (o : Out) : Prop where
  sp : o.sp.shape = n :: o.shape
  np : o.np.shape = o.shape
  si : o.si.shape = n :: o.shape
  ni : o.ni.shape = o.shape
  pos : ∀ i, InB o.shape i → Usable (o.np.val i) ∧ Usable (o.ni.val i)

end Heur
end Verif
