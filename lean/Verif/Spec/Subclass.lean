import Verif.Model.Subclass

/-!
# Specification: calling a constructor without arguments
-/

namespace Verif.Subclass

/-- A parameter that may be left out of a call. -/
def Param.MayBeLeftOut (p : Param) : Prop := p.hasDefault = true ∨ p.kind = .varPositional ∨ p.kind = .varKeyword

/-- Python can call a function with these parameters with one positional argument, the new object: the first parameter takes it, and all others may be left out. -/
def TakesObjectOnly : List Param → Prop
  | [] => False
  | p :: ps => (p.kind = .positionalOnly ∨ p.kind = .positionalOrKeyword ∨ p.kind = .varPositional) ∧ ∀ q ∈ ps, q.MayBeLeftOut

/-- The constructor of a class. -/
def constructor (mro : List Body) : Option (List Param) := mro.findSome? (·.init)

end Verif.Subclass
