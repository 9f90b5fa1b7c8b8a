import Verif.Model.ScalerFile
import Verif.Spec.Forward

/-!
# What survives a file
-/

namespace Verif
namespace FileSpec
open Tree Npz
open ForwardSpec (KeysOk)

/-- The file that is written is the one that is read: always for a text, and for a path that has the ending. -/
def Named : FilePath → Prop
  | .str _ => True
  | .path s => npzExt.isSuffixOf s = true

/-- A tree that survives: a bare array, a dictionary (of anything), or a list of dictionaries. -/
def Storable {α : Type} (t : Tree α) : Prop :=
  KeysOk t ∧ ((∃ x, t = .leaf x) ∨ (∃ kvs, t = .dict kvs) ∨ ∃ ts, t = .list ts ∧ ts ≠ [] ∧ ∀ u ∈ ts, ∃ kvs, u = .dict kvs)

/-- A fitted attribute that survives. -/
def StorableOpt {α : Type} (o : Option (Tree α)) : Prop := ∀ t, o = some t → Storable t

/-- One number, `None` or a dictionary. -/
def Single {α : Type} (shape : α → List Nat) (t : Tree α) : Prop := (∃ x, t = .leaf x ∧ shape x = []) ∨ t = .none ∨ ∃ kvs, t = .dict kvs

/-- A range that survives: two arrays of the same shape, or each bound one number, `None` or a dictionary. -/
def RangeOk {α : Type} (shape : α → List Nat) (a b : Tree α) : Prop :=
  KeysOk a ∧ KeysOk b ∧ ((∃ x y, a = .leaf x ∧ b = .leaf y ∧ shape x = shape y) ∨ (Single shape a ∧ Single shape b))

/-- The shape of a setting. -/
def optShape : Scalers.Opt → List Nat
  | .level q => q.shape
  | .flag _ => []

mutual
/-- A tree without `None` outside its leaves: a missing scaler is a leaf. -/
def NoNone {α : Type} : Tree α → Prop
  | .leaf _ => True
  | .none => False
  | .list ts => NoNoneL ts
  | .tuple ts => NoNoneL ts
  | .dict kvs => NoNoneD kvs
/-- `NoNone` of all members. -/
def NoNoneL {α : Type} : List (Tree α) → Prop
  | [] => True
  | t :: ts => NoNone t ∧ NoNoneL ts
/-- `NoNone` of all values. -/
def NoNoneD {α : Type} : List (Str × Tree α) → Prop
  | [] => True
  | (_, t) :: ts => NoNone t ∧ NoNoneD ts
end

/-- A tree of scalers that survives: one scaler or none, a dictionary (of anything), or a list of scalers and dictionaries in which a scaler is missing or a dictionary occurs. -/
def ScalersOk (S : Tree (Option Nat)) : Prop :=
  KeysOk S ∧ NoNone S ∧ ((∃ o, S = .leaf o) ∨ (∃ kvs, S = .dict kvs) ∨
    ∃ ts, S = .list ts ∧ (∀ t ∈ ts, (∃ o, t = .leaf o) ∨ ∃ kvs, t = .dict kvs) ∧ ∃ t ∈ ts, t = .leaf Option.none ∨ ∃ kvs, t = .dict kvs)

/-- Writing these contents to a file, reading them and building a new object succeeds, and the new object has the property. -/
def Reloads {R S : Type} (contents : Record R) (build : Record R → Except PyErr S) (same : S → Prop) : Prop :=
  ∀ fp, Named fp → ∀ disk, ∃ disk' d s', save contents fp disk = .ok disk' ∧ load fp disk' = .ok d ∧ build d = .ok s' ∧ same s'

/-- Building a new object from these contents, kept as one value of a dictionary in a file, succeeds, and the new object has the property. -/
def Restores {R S : Type} (contents : Record R) (build : Record R → Except PyErr S) (same : S → Prop) : Prop :=
  ∀ d, Tree.norm (.dict contents) = .dict d → ∃ s', build d = .ok s' ∧ same s'

end FileSpec
end Verif
