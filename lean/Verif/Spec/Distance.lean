import Verif.Model.NdArr
import Verif.Model.Tree
import Verif.Spec.NdArr
import Mathlib.Data.Real.Basic

/-! # Specification: Gower distances between samples and training samples -/

namespace Verif
namespace Dist
open Tree NArr NdSpec

/-- One feature: samples to compare, training samples, calibration samples, continuous or categorical, selected or not. -/
structure Feat where
  x : NArr ℝ
  train : NArr ℝ
  cal : NArr ℝ
  cont : Bool
  dist : Bool

/-- `v` is the largest minus the smallest number of component `j` among the first `m` samples of `t`. -/
def IsRange (t : NArr ℝ) (m : Nat) (j : List Nat) (v : ℝ) : Prop :=
  ∃ lo < m, ∃ hi < m, v = t.val (hi :: j) - t.val (lo :: j) ∧ ∀ r < m, t.val (lo :: j) ≤ t.val (r :: j) ∧ t.val (r :: j) ≤ t.val (hi :: j)

/-- The shapes fit, `ρ` gives the ranges of the training data, selected components are not constant there, and selected categorical
features have one component. -/
structure Comparable (ρ : Feat → List Nat → ℝ) (n m c : Nat) (f : Feat) (s : List Nat) : Prop where
  x : f.x.shape = n :: s
  train : f.train.shape = m :: s
  cal : f.cal.shape = c :: s
  range : f.dist = true → f.cont = true → ∀ j, InB s j → IsRange f.train m j (ρ f j) ∧ ρ f j ≠ 0
  cat : f.dist = true → f.cont = false → s = [1]

/-- The number of selected components. -/
def count (D : List Feat) : Nat :=
  (D.map fun f => if f.dist then if f.cont then (indices f.train.shape.tail).length else 1 else 0).sum

/-- What one feature contributes to the distance of sample `k` and training sample `r`: the differences of the components relative to the
ranges, and for categories 0 or 1. -/
noncomputable def featDist (ρ : Feat → List Nat → ℝ) (f : Feat) (k r : Nat) : ℝ :=
  if f.dist then
    if f.cont then ((indices f.train.shape.tail).map fun j => |f.x.val (k :: j) - f.train.val (r :: j)| / ρ f j).sum
    else if f.x.val [k, 0] = f.train.val [r, 0] then 0 else 1
  else 0

/-- The Gower distance: the mean contribution of the selected components. -/
noncomputable def gower (ρ : Feat → List Nat → ℝ) (D : List Feat) (k r : Nat) : ℝ := (D.map fun f => featDist ρ f k r).sum / count D

/-- The categories of sample `k` occur in the training data. -/
def Seen (D : List Feat) (m k : Nat) : Prop :=
  ∀ f ∈ D, f.dist = true → f.cont = false → ∃ r < m, f.x.val [k, 0] = f.train.val [r, 0]

/-- Two training samples agree in the selected features. -/
def SameSample (D : List Feat) (r q : Nat) : Prop :=
  ∀ f ∈ D, f.dist = true → ∀ j, InB f.train.shape.tail j → f.train.val (r :: j) = f.train.val (q :: j)

/-- `reps` holds every distinct training sample once. -/
structure Distinct (D : List Feat) (m : Nat) (reps : List Nat) : Prop where
  bound : ∀ r ∈ reps, r < m
  cover : ∀ r < m, ∃ q ∈ reps, SameSample D r q
  once : reps.Pairwise fun r q => ¬ SameSample D r q

end Dist
end Verif
