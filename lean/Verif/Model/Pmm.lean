import Verif.Model.Hermitian
import Verif.Model.Eigen
import Verif.Model.Observables

/-!
# Model of the prebuilt matrix models

Mirrors `/repo/parametricmatrixmodels/modules/affineeigenvaluepmm.py` and `affineobservablepmm.py`: the modules they consist of,
applied one after the other as a sequential model does (`sequentialmodel.py` lines 265-334). The eigensolvers and the spectral
norm are parameters. Numbers are exact.
-/

namespace Verif
namespace Pmm
open Hermitian Eigen Observables

variable {n : Nat}

/-- The callable of an `AffineEigenvaluePMM` (affineeigenvaluepmm.py:143-186, sequentialmodel.py:265-334): the affine matrix, then its
selected eigenvalues. `Ms` are the parameters. -/
noncomputable def eigenvalueCall (eigvalsh : Mat n n → List ℝ) (c : Eigen.Cfg) (bias : Bool) (s : ℝ) (Ms : List (Mat n n))
    (data : Tree (List (List ℂ))) : Except PyErr (Tree (List (List ℝ))) :=
  match affineCallable bias s Ms data with
  | .error e => .error e
  | .ok As => valuesCallable eigvalsh c As

/-- `AffineEigenvaluePMM.get_output_shape` (affineeigenvaluepmm.py:188-196); `num_eig` may be `None`, which ends up in the shape. -/
def eigenvalueShape (numEig : Option Nat) (s : Tree (List Nat)) : Except PyErr (Tree (List (Option Nat))) :=
  if s.jaxLeaves.length = 1 then .ok (Tree.map (fun _ => [numEig]) s.norm) else .error .valueError

/-- The eigenvectors of one sample as the columns of an array (eigen_util.py:62-67). -/
def columns (r : Nat) (V : List (Fin n → ℂ)) : Mat n r := .of fun a i => (V.getD i 0) a

/-- Adding the bias (affineobservablepmm.py:289-297, bias.py:108-147). -/
def addBias {q : Nat} (b : Option (Fin q → ℝ)) (data : Tree (List (Fin q → ℝ))) : Tree (List (Fin q → ℝ)) :=
  match b with
  | none => data
  | some b => Tree.map (fun ys => ys.map fun y k => y k + b k) data.norm

/-- The callable of an `AffineObservablePMM` (affineobservablepmm.py:253-299, sequentialmodel.py:265-334): the affine matrix, its
selected eigenvectors, the sums over observables, the bias. -/
noncomputable def observableCall {q l : Nat} (eigh : Mat n n → List ℝ × List (Fin n → ℂ)) (nrm : Mat n n → ℝ) (c : Eigen.Cfg) (bias : Bool) (s : ℝ)
    (useExp centered : Bool) (Ms : List (Mat n n)) (Ds : Fin q → Fin l → Mat n n) (b : Option (Fin q → ℝ)) (data : Tree (List (List ℂ))) :
    Except PyErr (Tree (List (Fin q → ℝ))) :=
  match affineCallable bias s Ms data with
  | .error e => .error e
  | .ok As => match vectorsCallable eigh c As with
    | .error e => .error e
    | .ok Vs =>
      let Vs' := Tree.map (fun xs => xs.map (columns (c.numEig.getD n))) Vs
      .ok (addBias b (if useExp then expectCallable nrm centered Ds Vs' else ampCallable nrm centered Ds Vs'))

/-- `which` if the user gives none (affineobservablepmm.py:207-212). -/
noncomputable def defaultWhich (which : Option Str) (smoothing : Option ℝ) : Str :=
  match which with
  | some w => w
  | none => match smoothing with
    | none => "LM".toList
    | some s => if s = 0 then "LM".toList else "SA".toList

/-- The parameters of the `Bias` after `compile` (affineobservablepmm.py:289-297, bias.py:204-248); `b` is the constructor's argument
and `draw` stands for the random numbers. -/
def compiledBias {q : Nat} (biasTerm : Bool) (_b : Option (Fin q → ℝ)) (draw : Fin q → ℝ) : Option (Fin q → ℝ) := if biasTerm then some draw else none

end Pmm
end Verif
