import Verif.Model.Names

/-!
# What the name of a module has to tell
-/

namespace Verif
namespace NamesSpec
open Names

/-- The classes with a name of their own. -/
def Reserved : List Str :=
  ["AffineHermitianMatrix", "AffineTensor", "Bias", "PReLU", "Constant", "ConcatenateLeaves", "Reshape", "Eigensystem", "Eigenvalues", "Eigenvectors", "Einsum", "ExpectationValueSum",
    "TransitionAmplitudeSum", "MatMul", "TreeKey", "FuncBase"].map String.toList

/-- Texts that look like what they are: numbers are printed without commas, a constant has the default title and the text of its shape has no equals sign, and the name of a class is one. -/
def Tidy : Mod → Prop
  | .herm _ (some s) _ | .lowRank _ _ (some s) _ => ',' ∉ s
  | .constant title shape _ _ => title = "Constant".toList ∧ '=' ∉ shape
  | .cls c _ => c ≠ [] ∧ '(' ∉ c ∧ '#' ∉ c ∧ c ∉ Reserved
  | _ => True

/-- The name does not show whether a trainable product was given its matrix: that makes no difference. -/
def SameUse : Mod → Mod → Prop
  | .matmul true _, .matmul true _ => True
  | a, b => a = b

/-- The modules whose names do not tell what they are. -/
def Vague : Mod → Prop
  | .lowRank _ _ _ _ => True
  | .eig .system none _ | .eig .values none _ => True
  | _ => False

/-- What is lost in the name: the class and the rank of a low-rank module, the selection if all eigenvalues are taken (except for eigenvectors). -/
def Lost : Mod → Mod → Prop
  | .lowRank n _ s b, .lowRank n' _ s' b' | .lowRank n _ s b, .herm n' s' b' | .herm n s b, .lowRank n' _ s' b' => n = n' ∧ s = s' ∧ b = b'
  | .eig .system none _, .eig .system none _ | .eig .values none _, .eig .values none _ => True
  | _, _ => False

/-- `True` or `False`. -/
def yes (b : Bool) : Str := if b then "True".toList else "False".toList

/-- A number in decimals, or `None`. -/
def number : Option Nat → Str
  | some n => Nat.toDigits 10 n
  | none => "None".toList

/-- A class name, and in brackets, separated by commas, these items. -/
def Reads (s : Str) (cls : String) (items : List Str) : Prop := s = cls.toList ++ "(".toList ++ (", ".toList).intercalate items ++ ")".toList

end NamesSpec
end Verif
