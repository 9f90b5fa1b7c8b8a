import Verif.Model.Str

/-!
# Model of the checks when a class of modules is defined

Mirrors `BaseModule.__init_subclass__` (`/repo/parametricmatrixmodels/modules/basemodule.py` lines 101-161). Simplifications: inheritance is a chain, from the new class to its
ancestors; whether a text is a version (`packaging.version.Version`) is a parameter; wrapping a member with the type checker sets a mark and has no other effect.
-/

namespace Verif
namespace Subclass

/-- The kinds of parameters of `inspect.Parameter` (basemodule.py:142-155). -/
inductive PKind where
  | positionalOnly | positionalOrKeyword | varPositional | keywordOnly | varKeyword
  deriving DecidableEq

/-- A parameter of a signature (basemodule.py:142-155). -/
structure Param where
  name : Str
  kind : PKind
  hasDefault : Bool
  deriving DecidableEq

/-- A member of a class: can it be called, is it wrapped with the type checker (`__jaxtyped__`), is it abstract (basemodule.py:119-124). -/
structure Member where
  callable : Bool
  checked : Bool
  isAbstract : Bool
  deriving DecidableEq

/-- What a class defines itself: its members (`cls.__dict__`), `__version__` and the signature of `__init__` (basemodule.py:121, 127, 142). -/
structure Body where
  members : List (Str × Member)
  version : Option Str
  init : Option (List Param)
  deriving DecidableEq

/-- `getattr(cls, name)`: the first definition in the chain of classes (basemodule.py:124, 127). -/
def lookup (mro : List Body) (n : Str) : Option Member := mro.findSome? fun b => b.members.lookup n

/-- `inspect.isabstract(cls)`: some name stands for an abstract member (basemodule.py:118-119). -/
def isAbstract (mro : List Body) : Bool :=
  mro.any fun b => b.members.any fun p => match lookup mro p.1 with
    | some m => m.isAbstract
    | none => false

/-- The loop over the members (basemodule.py:121-125). -/
def wrap (ms : List (Str × Member)) : List (Str × Member) :=
  ms.map fun p => if p.2.callable && !p.2.checked then (p.1, { p.2 with checked := true }) else p

/-- The check of `__version__` (basemodule.py:127-139). `NotImplementedError` is a `RuntimeError`. -/
def checkVersion (valid : Str → Bool) (mro : List Body) : Except PyErr Unit :=
  match mro.findSome? (·.version) with
  | none => .error .runtimeError
  | some v => if valid v then .ok () else .error .valueError

/-- The check of the signature of `__init__` (basemodule.py:142-161). -/
def checkInit : List Param → Except PyErr Unit
  | [] => .ok ()
  | p :: ps =>
    if p.name = "self".toList then checkInit ps
    else if !p.hasDefault && !(p.kind = .varPositional || p.kind = .varKeyword) then .error .typeError
    else checkInit ps

/-- `__init_subclass__`: the class as it is afterwards (basemodule.py:101-161). Without any `__init__` in the chain, that of `object` is used, which takes any arguments. -/
def initSubclass (valid : Str → Bool) (b : Body) (bases : List Body) : Except PyErr Body :=
  if isAbstract (b :: bases) then .ok b
  else match checkVersion valid (b :: bases) with
    | .error e => .error e
    | .ok () => match checkInit (((b :: bases).findSome? (·.init)).getD [⟨"self".toList, .positionalOnly, false⟩, ⟨"args".toList, .varPositional, false⟩, ⟨"kwargs".toList, .varKeyword, false⟩]) with
      | .error e => .error e
      | .ok () => .ok { b with members := wrap b.members }

end Subclass
end Verif
