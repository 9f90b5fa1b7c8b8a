import Verif.Model.Predict

/-! # Specification vocabulary for calling models: a model that keeps nothing between calls -/

namespace Verif.PredictSpec
open Batch Predict

variable {P W S K α γ D Sig : Type}

/-- Two programs that cannot be told apart by evaluating functions built or traced with them. -/
structure Same (sem : Sem P W S K α γ D Sig) (p q : P) : Prop where
  built : ∀ r, sem.run p r = sem.run q r
  traced : ∀ r, sem.run r p = sem.run r q
  gradBuilt : ∀ wrt b r, sem.grad wrt b p r = sem.grad wrt b q r
  gradTraced : ∀ wrt b r, sem.grad wrt b r p = sem.grad wrt b r q

/-- What the user has put into the model, and whether it was called since it was last edited. -/
structure Plain (P W S K : Type) where
  prog : P
  params : W
  state : S
  rng : K
  used : Bool

/-- The key of a call. -/
def keyOf (sem : Sem P W S K α γ D Sig) (pl : Plain P W S K) : RngArg K → K
  | .none => pl.rng
  | .seed n => sem.key n
  | .key k => k

/-- Evaluating `f`, built and traced with the present modules: verify, cast, batch. -/
def direct (sem : Sem P W S K α γ D Sig) (f : P → P → W → K → Leaves α → S → Leaves γ × S) (pl : Plain P W S K)
    (a : Args K α D) : Except PyErr (Leaves γ × S) := do
  sem.verify pl.prog a.X
  let X ← sem.cast a.dtype a.X
  autobatch sem.isScalar (f pl.prog pl.prog pl.params (keyOf sem pl a.rng)) a.opts.maxBatch a.opts.avoid X pl.state

/-- The state of the model after a call with result `r`. -/
def after (pl : Plain P W S K) (a : Args K α D) (r : Except PyErr (Leaves γ × S)) : Plain P W S K :=
  { pl with used := true, state := match r with
      | .ok (_, s) => if a.updateState then s else pl.state
      | .error _ => pl.state }

/-- One operation on a model that keeps nothing between calls. -/
def plainStep (sem : Sem P W S K α γ D Sig) (pl : Plain P W S K) : Op P W S K α D → Plain P W S K
  | .call a => after pl a (direct sem sem.run pl a)
  | .grad wrt a => after pl a (direct sem (sem.grad wrt true) pl a)
  | .setParams w => { pl with params := w, prog := sem.store pl.prog w }
  | .setState s => { pl with state := s }
  | .setRng k => { pl with rng := k }
  | .edit p w s => ⟨p, w, s, pl.rng, false⟩
  | .touch p w s => ⟨p, w, s, pl.rng, pl.used⟩

/-- The operation does not change the modules of a model that was called since it was last edited, as far as its values
are concerned. -/
def Quiet (sem : Sem P W S K α γ D Sig) (pl : Plain P W S K) : Op P W S K α D → Prop
  | .setParams w => pl.used = true → Same sem (sem.store pl.prog w) pl.prog
  | .touch p _ _ => pl.used = true → Same sem p pl.prog
  | _ => True

/-- All operations of a history are quiet. -/
def AllQuiet (sem : Sem P W S K α γ D Sig) : Plain P W S K → List (Op P W S K α D) → Prop
  | _, [] => True
  | pl, op :: ops => Quiet sem pl op ∧ AllQuiet sem (plainStep sem pl op) ops

/-- A new model. -/
def newMach (p : P) (w : W) (s : S) (k : K) : Mach P W S K Sig := ⟨p, w, s, k, none, none, ⟨none, none⟩, ⟨none, none⟩⟩

/-- The outputs and the state of a call, without the display. -/
def values (r : Except PyErr (Shown γ S)) : Except PyErr (Leaves γ × S) := r.map fun x => (x.out, x.state)

end Verif.PredictSpec
