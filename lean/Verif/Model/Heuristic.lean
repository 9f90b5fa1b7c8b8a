import Verif.Model.Normalization
import Verif.Model.TreeArith

/-!
# Model of the uncertainty heuristic

Mirrors `/repo/parametricmatrixmodels/conformal/conformalizedmodel.py` lines 1378-1523 with the normalisations of lines 895-896, 993-994 and
1080-1089. The sensitivities (models `Sensitivity` and `Distance`) and their normalisations (model `Normalization`) are given; a sensitivity
is absent if nothing is selected for it, or if it needs training data and there is none. The checks of the inputs (1431-1456), dtypes,
batching options and messages are not modelled.
-/

namespace Verif
namespace Heur
open Tree Loss

/-- A sensitivity divided by its normalisation (conformalizedmodel.py:896, 994). -/
noncomputable def normalise (S : Tree (NArr ℝ)) (N : Tree (NArr Norm.Ext)) : Except PyErr (Tree (NArr (Option ℝ))) := TreeArith.bin Norm.Ext.divide S N

/-- Add a sensitivity if it is used (conformalizedmodel.py:1468-1483, 1490-1508). -/
noncomputable def addTerm (u : Tree (NArr (Option ℝ))) : Option (Tree (NArr ℝ) × Tree (NArr Norm.Ext)) → Except PyErr (Tree (NArr (Option ℝ)))
  | Option.none => .ok u
  | some t => do
    let s ← normalise t.1 t.2
    TreeArith.bin (lift2 (· + ·)) u s

/-- The normalised distances as a column (conformalizedmodel.py:1080-1089): `distances / norm` and `distances[:, None]`. -/
noncomputable def column (d : NArr ℝ) (N : NArr Norm.Ext) : Except PyErr (NArr (Option ℝ)) := do
  let z ← NArr.bop Norm.Ext.divide d N
  match z.shape with
  | [] => .error .indexError
  | n :: s => .ok ⟨n :: 1 :: s, fun i => z.val (i.headD 0 :: i.drop 2)⟩

/-- Add the column of distances to one output (conformalizedmodel.py:1521). -/
noncomputable def addLeaf (c : NArr (Option ℝ)) (x : NArr (Option ℝ)) (_ : List (Tree Unit)) : Except PyErr (Tree (NArr (Option ℝ))) :=
  (NArr.bop (lift2 (· + ·)) x c).map .leaf

/-- Add the distances if they are used (conformalizedmodel.py:1510-1521). -/
noncomputable def addDist (u : Tree (NArr (Option ℝ))) : Option (NArr ℝ × NArr Norm.Ext) → Except PyErr (Tree (NArr (Option ℝ)))
  | Option.none => .ok u
  | some d => do
    let c ← column d.1 d.2
    jaxMap (addLeaf c) u []

/-- `uncertainty_heuristic` (conformalizedmodel.py:1378-1523) for `n` samples. -/
noncomputable def heuristic (shapes : Tree (List Nat)) (n : Nat) (param input : Option (Tree (NArr ℝ) × Tree (NArr Norm.Ext)))
    (dist : Option (NArr ℝ × NArr Norm.Ext)) : Except PyErr (Tree (NArr (Option ℝ))) := do
  let u ← addTerm (map (fun s => ⟨n :: s, fun _ => some 0⟩) shapes.norm) param
  let u ← addTerm u input
  addDist u dist

end Heur
end Verif
