import Verif.Model.SetParams
import Verif.Spec.Serialize

/-!
# Which parameters fit

The shapes of the arrays of a value, at their places. Dictionaries are compared in key order.
-/

namespace Verif.ParamSpec
open Verif.Ser Verif.SerSpec

mutual
/-- The tree of the shapes of the arrays; nothing if there are other leaves. -/
def shapes : PyVal → Option (Tree (List Nat))
  | .leaf (.arr x) => some (.leaf x.shape)
  | .leaf _ => none
  | .none => some .none
  | .list ts => (shapesL ts).map .list
  | .tuple ts => (shapesL ts).map .tuple
  | .dict kvs => (shapesD kvs).map .dict
/-- The shapes of the members. -/
def shapesL : List PyVal → Option (List (Tree (List Nat)))
  | [] => some []
  | t :: ts => match shapes t, shapesL ts with
    | some u, some us => some (u :: us)
    | _, _ => none
/-- The shapes of the values. -/
def shapesD : List (Str × PyVal) → Option (List (Str × Tree (List Nat)))
  | [] => some []
  | (k, t) :: ts => match shapes t, shapesD ts with
    | some u, some us => some ((k, u) :: us)
    | _, _ => none
end

/-- The two values have arrays of the same shapes at the same places, and nothing else. -/
def SameShapes (u v : PyVal) : Prop := ∃ t, shapes u.norm = some t ∧ shapes v.norm = some t

/-- A Hermitian array, as far as `allclose` can tell. -/
def Hermitian (v : PyVal) : Prop := ∃ x, v = vArr x ∧ x.herm = true

/-- One array of shape `(1,)` in a tuple or list, or an array that reads as a list of one such array. -/
def OneSlope (v : PyVal) : Prop := (∃ x, (v = .tuple [vArr x] ∨ v = .list [vArr x]) ∧ x.shape = [1]) ∨ ∃ x, v = vArr x ∧ x.shape = [1, 1]

/-- The setter `set` of an object with the attributes `a` takes the values that satisfy `P`, storing them as `put` says and changing nothing else, and raises `ValueError` for all others. -/
def Takes (set : Attrs Attr → PyVal → Except PyErr (Attrs Attr)) (put : PyVal → Attrs Attr) (a : Attrs Attr) (P : PyVal → Prop) : Prop :=
  ∀ v, (P v → set a v = .ok (put v)) ∧ (¬ P v → set a v = .error .valueError)

/-- The constructor of `PReLU` produced this object. -/
def preluNew (a : Attrs Attr) : Prop := ∃ s g r, a = preluInit s g r
/-- One `compile` of a `PReLU`. -/
def preluComp (a b : Attrs Attr) : Prop := ∃ r s, preluCompile r s a = .ok b

end Verif.ParamSpec
