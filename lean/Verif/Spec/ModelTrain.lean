import Verif.Model.ModelTrain
import Verif.Spec.Params

/-! # Specification vocabulary for training a model -/

namespace Verif.ModelTrainSpec
open Tree Params ParamsSpec ForwardSpec Train ModelTrain

variable {X A K α F : Type}

/-- The modules keep parameters of the structure that they have, setting the state does not change parameters, and setting does not freeze or unfreeze. -/
structure Lawful (o : Ops X A) : Prop where
  setP : ∀ x v, map (fun _ => ()) (norm v) = map (fun _ => ()) (norm (o.getP x)) → (o.setP x v).2 = Option.none → norm (o.getP (o.setP x v).1) = norm v
  keepP : ∀ x v, o.getP (o.setS x v).1 = o.getP x
  keepT : ∀ x v, o.trainable (o.setP x v).1 = o.trainable x ∧ o.trainable (o.setS x v).1 = o.trainable x

/-- Some object of the module is not frozen. -/
def Trainable (tr : X → Bool) (n : Nat) (x : Node n) (h : Nat → X) : Prop := ∃ r ∈ refs n x, tr (h r) = true

/-- The modules of a model are distinct objects, and no dictionary repeats a key. -/
structure Sound (o : Ops X A) (n : Nat) (t : Tree (Node n)) (h : Nat → X) : Prop where
  keys : KeysAll (n + 1) (.inr t)
  refs : (refs (n + 1) (.inr t)).Nodup
  params : ∀ r ∈ ParamsSpec.refs (n + 1) (.inr t), KeysOk (o.getP (h r))

/-- The parameters of a model. -/
abbrev params (o : Ops X A) (n : Nat) (t : Tree (Node n)) (h : Nat → X) : Tree A := getAll o.getP (n + 1) (.inr t) h

/-- The stored optimiser state belongs to the parameters that the model has: one state per array, at the same place, each holding the value of the array. -/
def Consistent (o : Ops X A) (n : Nat) (t : Tree (Node n)) (m : MState X A K) : Prop :=
  ∀ a, m.opt = some a → map (·.params) (norm a) = norm (params o n t m.store)

/-- The callback leaves alone what is frozen. -/
def CallbackKeeps (c : Cfg α A (Tree A) K F) (flags : List Bool) : Prop :=
  ∀ k e (ps : List A) (j : Nat), flags[j]? = some false → (c.callback k e ps).2[j]? = ps[j]?

/-- The mean of the losses of the batches of the validation data. -/
def meanLoss (j : Job X A K α F) (p s : Tree A) (k : K) (epoch : Nat) (bs : List (Data α)) (total : Nat) : F :=
  bs.foldl (fun acc b => j.cfg.add acc (j.cfg.divNat (j.val epoch b s k p) total)) j.cfg.zero

end Verif.ModelTrainSpec
