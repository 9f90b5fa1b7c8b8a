import Verif.Model.Str

/-!
# Model of the names of modules

Mirrors the `name` properties of the modules in `/repo/parametricmatrixmodels/modules`. Simplifications: a hyperparameter that is a floating point number, a tree or a container (other than
a shape of numbers) is represented by the text Python prints for it; hyperparameters that no name could show (initial magnitudes, arrays) are left out.
-/

namespace Verif
namespace Names

/-- The eigenvalues that are selected (eigensystem.py:79-98). -/
inductive Which where
  | sa | la | sm | lm | ea | em | ia | im
  deriving DecidableEq

/-- The three modules for eigenvalues and eigenvectors (eigensystem.py:101; eigenvalues.py:98; eigenvectors.py:104). -/
inductive Eig where
  | system | values | vectors
  deriving DecidableEq

/-- A module of the library with the hyperparameters that matter for its name; `smooth` is `none` for a smoothing equal to zero; `cls` is any class without a name of its own, with the text of
the arguments of an activation if there are some (affinehermitianmatrix.py:112-116; lowrankaffinehermitianmatrix.py:107-113; affinetensor.py:92-96; bias.py:69; prelu.py:73-81; constant.py:109-114;
concatenateleaves.py:58-60; reshape.py:70-87; eigensystem.py:97-98; einsum.py:174; expectationvaluesum.py:138-144; transitionamplitudesum.py:138-144; matmul.py:115-121; treekey.py:60-62; comment.py:31; funcbase.py:69;
activationbase.py:42-43; basemodule.py:164). -/
inductive Mod where
  | herm (size : Option Nat) (smooth : Option Str) (bias : Bool)
  | lowRank (size rank : Option Nat) (smooth : Option Str) (bias : Bool)
  | tensor (shape : Option (List Nat)) (bias real : Bool)
  | bias (real : Bool)
  | prelu (real single : Bool)
  | constant (title shape real : Str) (trainable : Bool)
  | concat (axis : Option Int) (order : Option Str)
  | reshape (shape : Str)
  | eig (kind : Eig) (num : Option Nat) (which : Which)
  | einsum (text : Str)
  | expectation (out num : Option Nat) (centered : Bool)
  | transition (out num : Option Nat) (centered : Bool)
  | matmul (trainable given : Bool)
  | treeKey (paths : Option Str)
  | comment (text : Str)
  | func (cls : Str)
  | cls (cls : Str) (args : Option Str)
  deriving DecidableEq

/-- `f"{c}({body})"` (bias.py:103). -/
def paren (c body : Str) : Str := c ++ ('(' :: (body ++ [')']))

/-- `f", {s}"` (affinehermitianmatrix.py:122-123). -/
def comma (s : Str) : Str := ',' :: ' ' :: s

/-- `str` of a truth value (bias.py:103). -/
def boolStr : Bool → Str
  | true => "True".toList
  | false => "False".toList

/-- `str` of a number or `None` (expectationvaluesum.py:149-151). -/
def optStr : Option Nat → Str
  | none => "None".toList
  | some n => ofNat n

/-- `str` of an integer (concatenateleaves.py:64). -/
def intStr : Int → Str
  | .ofNat n => ofNat n
  | .negSucc n => '-' :: ofNat (n + 1)

/-- The members of a tuple of numbers, each after a comma (affinetensor.py:101). -/
def members : List Nat → Str
  | [] => []
  | n :: ns => comma (ofNat n ++ members ns)

/-- `str` of a tuple of numbers (affinetensor.py:101). -/
def tupleStr : List Nat → Str
  | [] => paren [] []
  | [n] => paren [] (ofNat n ++ [','])
  | n :: ns => paren [] (ofNat n ++ members ns)

/-- `str` of a shape or `None` (affinetensor.py:101). -/
def shapeStr : Option (List Nat) → Str
  | none => "None".toList
  | some sh => tupleStr sh

/-- `self.which.upper()` (eigensystem.py:109). -/
def Which.upper : Which → Str
  | .sa => "SA".toList | .la => "LA".toList | .sm => "SM".toList | .lm => "LM".toList
  | .ea => "EA".toList | .em => "EM".toList | .ia => "IA".toList | .im => "IM".toList

/-- The names of the three classes (eigensystem.py:103; eigenvalues.py:100; eigenvectors.py:106). -/
def Eig.cls : Eig → Str
  | .system => "Eigensystem".toList
  | .values => "Eigenvalues".toList
  | .vectors => "Eigenvectors".toList

/-- What follows the size in the name of a matrix module (affinehermitianmatrix.py:122-123; lowrankaffinehermitianmatrix.py:119-120). -/
def hermTail (smooth : Option Str) (bias : Bool) : Str :=
  (match smooth with
    | none => []
    | some s => comma ("smooth=".toList ++ s)) ++ (if bias then [] else comma "no bias".toList)

/-- The name of `AffineHermitianMatrix`, and of `LowRankAffineHermitianMatrix` (affinehermitianmatrix.py:119-124; lowrankaffinehermitianmatrix.py:116-121). -/
def hermName (size : Option Nat) (smooth : Option Str) (bias : Bool) : Str :=
  paren "AffineHermitianMatrix".toList (optStr size ++ ('x' :: (optStr size ++ hermTail smooth bias)))

/-- What is between the brackets in the name of a module for eigenvalues or eigenvectors; two of the three texts for all eigenvalues lack the `f` in front (eigensystem.py:101-110; eigenvalues.py:98-107;
eigenvectors.py:104-113). -/
def eigInfo (kind : Eig) (num : Option Nat) (which : Which) : Str :=
  if num = some 1 ∧ which = .sa then "ground state".toList
  else match num with
    | none => "ALL".toList ++ comma ("which=".toList ++ (match kind with
        | .vectors => which.upper
        | _ => "{self.which.upper()}".toList))
    | some n => "num_eig=".toList ++ (ofNat n ++ comma ("which=".toList ++ which.upper))

/-- What is between the brackets in the name of `ConcatenateLeaves` (concatenateleaves.py:64-70). -/
def concatInfo (axis : Option Int) (order : Option Str) : Str :=
  match axis, order with
  | none, none => []
  | some a, none => "axis=".toList ++ intStr a
  | none, some o => "path_order=".toList ++ o
  | some a, some o => "axis=".toList ++ (intStr a ++ comma ("path_order=".toList ++ o))

/-- What is between the brackets in the names of the modules with observables (expectationvaluesum.py:150-152; transitionamplitudesum.py:150-152). -/
def obsInfo (out num : Option Nat) (centered : Bool) : Str :=
  "output_size=".toList ++ (optStr out ++ comma ("num_observables=".toList ++ (optStr num ++ comma ("centered=".toList ++ boolStr centered))))

/-- `name` (affinehermitianmatrix.py:119-124; lowrankaffinehermitianmatrix.py:116-121; affinetensor.py:99-104; bias.py:102-103; prelu.py:84-85; constant.py:117-121; concatenateleaves.py:63-71; reshape.py:90-91;
eigensystem.py:101-110; eigenvalues.py:98-107; eigenvectors.py:104-113; einsum.py:615-621; expectationvaluesum.py:148-153; transitionamplitudesum.py:148-153; matmul.py:134-142; treekey.py:65-68; comment.py:34-35;
funcbase.py:69-70; activationbase.py:46-60; basemodule.py:164-173). -/
def name : Mod → Str
  | .herm size smooth bias => hermName size smooth bias
  | .lowRank size _ smooth bias => hermName size smooth bias
  | .tensor shape bias real =>
    paren "AffineTensor".toList (shapeStr shape ++ ((if bias then [] else comma "no bias".toList) ++ comma (if real then "real".toList else "complex".toList)))
  | .bias real => paren "Bias".toList ("real=".toList ++ boolStr real)
  | .prelu real single => paren "PReLU".toList ("real=".toList ++ (boolStr real ++ comma ("single=".toList ++ boolStr single)))
  | .constant title shape real trainable =>
    paren title (shape ++ comma ("real".toList ++ ('=' :: (real ++ comma (if trainable then "trainable".toList else "fixed".toList)))))
  | .concat axis order => paren "ConcatenateLeaves".toList (concatInfo axis order)
  | .reshape shape => paren "Reshape".toList ("shape=".toList ++ shape)
  | .eig kind num which => paren kind.cls (eigInfo kind num which)
  | .einsum text => paren "Einsum".toList text
  | .expectation out num centered => paren "ExpectationValueSum".toList (obsInfo out num centered)
  | .transition out num centered => paren "TransitionAmplitudeSum".toList (obsInfo out num centered)
  | .matmul trainable given => paren "MatMul".toList (if trainable then "trainable".toList else if given then "fixed".toList else "inputs".toList)
  | .treeKey paths => match paths with
    | none => "TreeKey".toList
    | some p => paren "TreeKey".toList p
  | .comment text => '#' :: (if text = [] then [] else ' ' :: text)
  | .func c => paren "FuncBase".toList c
  | .cls c args => match args with
    | none => c
    | some a => paren c ("args=".toList ++ a)

end Names
end Verif
