import Verif.Model.TrainArgs

/-! # Which training arguments are consistent -/

namespace Verif.TrainArgs

variable {σ : Type}

/-- There is at least one array and every array has at least one axis. -/
def IsData (d : Shaped σ) : Prop := d.shapes ≠ [] ∧ ∀ s ∈ d.shapes, s ≠ []

/-- The arrays have the same number of samples as those of the other tree. -/
def SameSamples (a b : Shaped σ) : Prop := ∃ n, (∀ s ∈ a.shapes, s.head? = some n) ∧ ∀ s ∈ b.shapes, s.head? = some n

/-- Same structure and, apart from the number of samples, same shapes. -/
def SameFeatures (a b : Shaped σ) : Prop := a.struct = b.struct ∧ a.shapes.map List.tail = b.shapes.map List.tail

/-- Same structure and shapes. -/
def SameShape (a b : Shaped σ) : Prop := a.struct = b.struct ∧ a.shapes = b.shapes

/-- Consistent arguments. -/
structure Consistent (a : Args σ) : Prop where
  adam : a.resume = true → a.adam = some a.flags
  fresh : a.resume = false → a.params.isSome = true
  params : ∀ p, a.params = some p → p = a.flags
  yval : a.Yval.isSome = true → a.Y.isSome = true
  yunc : a.Yunc.isSome = true → a.Y.isSome = true
  yvalunc : a.YvalUnc.isSome = true → a.Yval.isSome = true
  yvalunc' : a.Yunc.isSome = true → a.Yval.isSome = true → a.YvalUnc.isSome = true
  samples : ∀ y, a.Y = some y → SameSamples a.X y
  unc : ∀ y u, a.Y = some y → a.Yunc = some u → SameShape y u
  xval : ∀ x, a.Xval = some x → SameFeatures a.X x
  xyval : ∀ x y, a.Xval = some x → a.Y = some y → ∃ yv, a.Yval = some yv ∧ SameSamples x yv ∧ SameFeatures y yv
  valunc : ∀ x u yv uv, a.Xval = some x → a.Yunc = some u → a.Yval = some yv → a.YvalUnc = some uv → SameShape yv uv

/-- All given data is data. Two trees with the same structure have the same number of leaves. -/
structure WellFormed (a : Args σ) : Prop where
  X : IsData a.X
  Y : ∀ d, a.Y = some d → IsData d
  Yunc : ∀ d, a.Yunc = some d → IsData d
  Xval : ∀ d, a.Xval = some d → IsData d
  Yval : ∀ d, a.Yval = some d → IsData d
  YvalUnc : ∀ d, a.YvalUnc = some d → IsData d
  leaves : ∀ d ∈ [some a.X, a.Y, a.Yunc, a.Xval, a.Yval, a.YvalUnc], ∀ e ∈ [some a.X, a.Y, a.Yunc, a.Xval, a.Yval, a.YvalUnc],
    ∀ x y, d = some x → e = some y → x.struct = y.struct → x.shapes.length = y.shapes.length

end Verif.TrainArgs
