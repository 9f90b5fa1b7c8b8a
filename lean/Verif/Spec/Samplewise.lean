import Verif.Model.TreeMap
import Verif.Spec.NdArr

/-!
# What it means that every sample is computed on its own

A batch `y` is a selection of a batch `x` if its sample `i` is the sample `f i` of `x`: a part of the samples, the samples in another order, or samples repeated. A function on data is
computed sample by sample if a selection of the data gives the same selection of the result. Nothing here refers to how modules compute.
-/

namespace Verif
namespace Samplewise

/-- `y` holds `m` samples, sample `i` being the sample `f i` of the `n` samples of `x`. -/
def Picked {V : Type} (f : Nat → Nat) (n m : Nat) (x y : NArr V) : Prop :=
  ∃ s, x.shape = n :: s ∧ y.shape = m :: s ∧ ∀ i < m, ∀ j, NdSpec.InB s j → y.val (i :: j) = x.val (f i :: j)

/-- The batch of the `m` samples `f 0, …, f (m - 1)` of `x`. -/
def rows {V : Type} (f : Nat → Nat) (m : Nat) (x : NArr V) : NArr V := ⟨m :: x.shape.tail, fun i => x.val (f (i.headD 0) :: i.tail)⟩

/-- Two trees of the same structure whose leaves are related place by place: both are read off one tree of related pairs. -/
def Related {A B : Type} (R : A → B → Prop) (t : Tree A) (u : Tree B) : Prop :=
  ∃ z : Tree {p : A × B // R p.1 p.2}, t = Tree.map (fun p => p.1.1) z ∧ u = Tree.map (fun p => p.1.2) z

/-- Both succeed with related results, or both raise the same exception. -/
def Agree {X Y : Type} (Q : X → Y → Prop) : Except PyErr X → Except PyErr Y → Prop
  | .ok x, .ok y => Q x y
  | .error e, .error e' => e = e'
  | _, _ => False

/-- A selection of `m` of `n` samples, neither of them empty. -/
structure Selection (f : Nat → Nat) (n m : Nat) : Prop where
  source : 0 < n
  target : 0 < m
  valid : ∀ i < m, f i < n

/-- On data with the property `D`, a selection of the samples of the data gives the same selection of the samples of the result. -/
def SamplewiseOn {V W : Type} (D : Tree (NArr V) → Prop) (call : Tree (NArr V) → Except PyErr (Tree (NArr W))) : Prop :=
  ∀ f n m, Selection f n m → ∀ d d', D d → Related (Picked f n m) d d' → Agree (Related (Picked f n m)) (call d) (call d')

/-- The same for all data. -/
def Samplewise {V W : Type} (call : Tree (NArr V) → Except PyErr (Tree (NArr W))) : Prop := SamplewiseOn (fun _ => True) call

/-- The same for a function that also returns a state, which must not depend on the samples. -/
def StatefulOn {V S : Type} (D : Tree (NArr V) → Prop) (call : Tree (NArr V) → Except PyErr (Tree (NArr V) × S)) : Prop :=
  ∀ f n m, Selection f n m → ∀ d d', D d → Related (Picked f n m) d d' →
    Agree (fun r r' => Related (Picked f n m) r.1 r'.1 ∧ r.2 = r'.2) (call d) (call d')

/-- The same for a function of one array with the property `D`. -/
def LeafwiseOn {V W : Type} (D : NArr V → Prop) (call : NArr V → Except PyErr (NArr W)) : Prop :=
  ∀ f n m, Selection f n m → ∀ x y, D x → Picked f n m x y → Agree (Picked f n m) (call x) (call y)

/-- Data whose samples have the given shapes. -/
def OfShape {V : Type} (s : Tree (List Nat)) (d : Tree (NArr V)) : Prop := Tree.map (fun x : NArr V => x.shape.tail) d = s

/-- The same as `Picked` for batches given as lists of samples. -/
def Chosen {A : Type} (f : Nat → Nat) (n m : Nat) (xs ys : List A) : Prop :=
  xs.length = n ∧ ys.length = m ∧ ∀ i < m, ys[i]? = xs[f i]?

/-- For data whose samples have the property `D`, a selection of the samples of the data gives the same selection of the samples of the result, or the same exception. -/
def SamplewiseLists {A B : Type} (D : A → Prop) (call : Tree (List A) → Except PyErr (Tree (List B))) : Prop :=
  ∀ f n m, Selection f n m → ∀ d d', (∀ xs ∈ d.flat, ∀ x ∈ xs, D x) → Related (Chosen f n m) d d' → Agree (Related (Chosen f n m)) (call d) (call d')

end Samplewise
end Verif
