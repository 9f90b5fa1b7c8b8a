import Verif.Spec.Edit
import Verif.Model.Edit

/-! Specification of addresses in a tree of modules, independent of the model's index arithmetic. -/

namespace Verif.ItemSpec

open Verif.Edit Verif.EditSpec

/-- The entry `c` of a container is the one that the key refers to. -/
inductive Child : Tree Nat → Key → Tree Nat → Prop
  | dict {kvs s c} : kvs.lookup s = some c → Child (.dict kvs) (.str s) c
  | list {ts i p c} : Refers ts.length i p → ts[p]? = some c → Child (.list ts) (.int i) c
  | tuple {ts i p c} : Refers ts.length i p → ts[p]? = some c → Child (.tuple ts) (.int i) c

/-- The part of the tree that a path leads to. -/
inductive At : Tree Nat → List Key → Tree Nat → Prop
  | here {t} : At t [] t
  | down {t k c ks r} : Child t k c → At c ks r → At t (k :: ks) r

/-- The exception for a key that refers to nothing: a missing name is a `KeyError`, an index out of range an `IndexError`; a number in a dictionary is just a missing key, a name in a sequence
and any key of something that is no container are `TypeError`s. -/
inductive Missing : Tree Nat → Key → PyErr → Prop
  | name {kvs s} : kvs.lookup s = none → Missing (.dict kvs) (.str s) .keyError
  | number {kvs i} : Missing (.dict kvs) (.int i) .keyError
  | list {ts i} : (∀ p, ¬ Refers ts.length i p) → Missing (.list ts) (.int i) .indexError
  | tuple {ts i} : (∀ p, ¬ Refers ts.length i p) → Missing (.tuple ts) (.int i) .indexError
  | listName {ts s} : Missing (.list ts) (.str s) .typeError
  | tupleName {ts s} : Missing (.tuple ts) (.str s) .typeError
  | leaf {m k} : Missing (.leaf m) k .typeError
  | none {k} : Missing .none k .typeError

/-- Two paths lead to different places, none inside the other. -/
inductive Apart : Tree Nat → List Key → List Key → Prop
  | name {kvs s s' ks ks'} : s ≠ s' → Apart (.dict kvs) (.str s :: ks) (.str s' :: ks')
  | list {ts i j p q ks ks'} : Refers ts.length i p → Refers ts.length j q → p ≠ q → Apart (.list ts) (.int i :: ks) (.int j :: ks')
  | tuple {ts i j p q ks ks'} : Refers ts.length i p → Refers ts.length j q → p ≠ q → Apart (.tuple ts) (.int i :: ks) (.int j :: ks')
  | inDict {kvs s c ks ks'} : kvs.lookup s = some c → Apart c ks ks' → Apart (.dict kvs) (.str s :: ks) (.str s :: ks')
  | inList {ts i j p c ks ks'} : Refers ts.length i p → Refers ts.length j p → ts[p]? = some c → Apart c ks ks' → Apart (.list ts) (.int i :: ks) (.int j :: ks')
  | inTuple {ts i j p c ks ks'} : Refers ts.length i p → Refers ts.length j p → ts[p]? = some c → Apart c ks ks' → Apart (.tuple ts) (.int i :: ks) (.int j :: ks')

/-- The bound of a slice of a sequence of length `n` is the position `p`; without a bound it is `d`. -/
def Bound (n d : Nat) : Option Int → Nat → Prop
  | some i, p => InsertsAt n i p
  | none, p => p = d

/-- The entries of `l` that the slice from `a` to `b` covers: `l` is what comes before, `s` and what comes after. If the slice ends before it begins it is empty, at its beginning. -/
def Covers (l : List (Tree Nat)) (a b : Option Int) (before s after : List (Tree Nat)) : Prop :=
  l = before ++ s ++ after ∧ Bound l.length 0 a before.length ∧
    ∃ q, Bound l.length l.length b q ∧ s.length = q - before.length

end Verif.ItemSpec
