import Verif.Model.SerializeLib

/-!
# What a restored module has to be

`Holds` and the `Legal` predicates describe the objects users can hold, in terms of attributes only. `Reach` generates the
objects of a class from its constructor, `compile` and `set_params`.
-/

namespace Verif.SerSpec

open Verif.Ser

/-- The object has no attributes beyond `own`. -/
def Only {K : Type} (own : List K) (a : Attrs K) : Prop := ∀ k, k ∉ own → a k = Tree.none

/-- Every listed attribute has a value that can be written. -/
def Writable {K : Type} (ks : List K) (a : Attrs K) : Prop := ∀ k ∈ ks, serializable (a k) = true

/-- All leaves of a value are arrays with the given realness. -/
def ArrayTree (v : PyVal) : Prop := ∀ l ∈ v.flat, ∃ x, l = Atom.arr x

/-- Objects of a class: built by the constructor, changed by `compile` and by `set_params` (which training uses). -/
inductive Reach (c : Cls Attr) (init : Attrs Attr → Prop) (comp : Attrs Attr → Attrs Attr → Prop) : Attrs Attr → Prop
  | new {a} : init a → Reach c init comp a
  | compile {a b} : Reach c init comp a → comp a b → Reach c init comp b
  | setParams {a b v} : Reach c init comp a → c.setParams a v = .ok b → Reach c init comp b

/-- The constructor of `AffineHermitianMatrix` produced this object. -/
def affHermNew (a : Attrs Attr) : Prop := ∃ n s g b M, affHermInit n s g b M = .ok a
/-- One `compile` of an `AffineHermitianMatrix`. -/
def affHermComp (a b : Attrs Attr) : Prop := ∃ p r, affHermCompile p r a = .ok b
/-- The constructor of `AffineTensor` produced this object. -/
def affTensorNew (a : Attrs Attr) : Prop := ∃ s g b r M, affTensorInit s g b r M = .ok a
/-- One `compile` of an `AffineTensor`. -/
def affTensorComp (a b : Attrs Attr) : Prop := ∃ p r, affTensorCompile p r a = .ok b
/-- The constructor of `ExpectationValueSum` or `TransitionAmplitudeSum` produced this object. -/
def expValNew (a : Attrs Attr) : Prop := ∃ l q g c D, expValInit l q g c D = .ok a
/-- One `compile` of such an object. -/
def expValComp (a b : Attrs Attr) : Prop := ∃ n r, expValCompile n r a = .ok b
/-- The constructor of `LowRankAffineHermitianMatrix` produced this object. -/
def lowRankNew (a : Attrs Attr) : Prop := ∃ n r s g b, a = lowRankInit n r s g b
/-- One `compile` of such an object. -/
def lowRankComp (a b : Attrs Attr) : Prop := ∃ p r, lowRankCompile p r a = .ok b

/-- A bias value a user can hold: nothing, or arrays of the declared kind. -/
structure BiasLegal (a : Attrs Attr) : Prop where
  only : Only [.bias, .initMagnitude, .real, .scalar] a
  writable : Writable [.initMagnitude, .real, .scalar] a
  arrays : a .bias ≠ Tree.none → ArrayTree (a .bias)
  /-- a real module holds real arrays, a complex one at least one complex array -/
  kind : a .bias ≠ Tree.none → ∃ r, a .real = vBool r ∧ (r = true ↔ ∀ x, Atom.arr x ∈ (a .bias).flat → x.real = true)
  /-- a scalar bias is an array of shape `(1,)` -/
  single : a .bias ≠ Tree.none → a .scalar = vBool true → ∃ x, a .bias = vArr x ∧ x.shape = [1]

end Verif.SerSpec
