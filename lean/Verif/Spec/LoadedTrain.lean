import Verif.Model.LoadedTrain
import Verif.Spec.Loaded
import Verif.Spec.TreeMap

/-!
# Training with and without saving and loading in between
-/

namespace Verif
namespace LoadedSpec
open Tree Ser ModelSer ModelSpec
open ForwardSpec (KeysOk)

variable {σ D A X : Type}

/-- The dictionaries of modules have no key twice, in the models inside too. -/
def KeysAt : ∀ n, Obj σ A n → Prop
  | 0, _ => True
  | _ + 1, .inl _ => True
  | n + 1, .inr M => KeysOk M.modules ∧ ∀ m ∈ M.modules.flat, KeysAt n m

/-- A list, tuple or dictionary with something in it. -/
def Filled {α : Type} : Tree α → Prop
  | .list ts => ts ≠ []
  | .tuple ts => ts ≠ []
  | .dict kvs => kvs ≠ []
  | _ => False

/-- A model that has modules, with no key twice in its dictionaries, and, if it has been trained, with an optimiser state that is a filled container. -/
structure Proper (n : Nat) (M : Mdl (Obj σ A n) A) : Prop where
  keys : KeysOk M.modules
  deep : ∀ m ∈ M.modules.flat, KeysAt n m
  modules : Filled M.modules
  opt : ∀ t, M.opt = some t → Filled t

/-- The object, or one of the modules in it, is not frozen. -/
def LiveAt (tr : σ → Bool) : ∀ n, Obj σ A n → Prop
  | 0, m => tr m = true
  | _ + 1, .inl m => tr m = true
  | n + 1, .inr M => ∃ m ∈ M.modules.flat, LiveAt tr n m

/-- What training is given by the model `M`: its parameters, state, key, optimiser states and function, and at the place of every module as many flags as it has parameters, which say whether it is frozen. -/
structure GivenBy (ops : Ops σ D) (tr : σ → Bool) (w r : Str) (fresh : Str → Nat → Nat → Str) (sig : Forward.Sig σ PyVal PyVal Nat X) (n : Nat) (M : Mdl (Obj σ A n) A) (a : Loaded.Args X A n) : Prop where
  params : a.params = ModelSer.getParams (opsAt ops w r n) M
  state : ModelSer.getState (opsAt ops w r n) M = .ok a.state
  key : keyData M.rng = .ok a.rng
  opt : a.opt = M.opt.map Tree.norm
  callable : a.callable = Loaded.modelCall (Loaded.callAt fresh sig n) fresh M
  flags : ∀ p m, ForwardSpec.At M.modules p m → ∃ u, ForwardSpec.Sub a.flags p u ∧ map (fun _ => ()) u = map (fun _ => ()) ((opsAt ops w r n).getParams m) ∧ ∀ b ∈ u.flat, (b = true ↔ LiveAt tr n m)

/-- The optimiser states that training returns have the structure of the flags. -/
def Lawful (j : Loaded.Job X A n) : Prop := ∀ a t, j.run a = .ok t → map (fun _ => ()) t.opt.norm = map (fun _ => ()) a.flags.norm

/-- `a` has gone through a number of trainings, `b` through the same ones, but was saved and loaded into a new model any number of times before, between and after them. -/
inductive Course (train : Loaded.Job X A n → Mdl (Obj σ A n) A → Except PyErr (Mdl (Obj σ A n) A)) (ops : Ops σ D) (w r : Str) (M : Mdl (Obj σ A n) A) : Mdl (Obj σ A n) A → Mdl (Obj σ A n) A → Prop
  | start : Course train ops w r M M M
  | train {a b a' b' : Mdl (Obj σ A n) A} (j : Loaded.Job X A n) : Course train ops w r M a b → Lawful j → train j a = .ok a' → train j b = .ok b' → Course train ops w r M a' b'
  | store {a b b' M₀ : Mdl (Obj σ A n) A} {d : MData (Dat D A n) A} {strict : Bool} : Course train ops w r M a b → Storable ops w r n b → save (opsAt ops w r n) w b = .ok d →
      createModel (kindCls b.kind) = .ok M₀ → (strict = true → w = r) → load (opsAt ops w r n) r strict M₀ d = .ok b' → Course train ops w r M a b'

/-- Two models with the same parameters, state, random key and optimiser states, which answer all calls alike. -/
structure Agree (ops : Ops σ D) (w r : Str) (fresh : Str → Nat → Nat → Str) (sig : Forward.Sig σ PyVal PyVal Nat X) (env : Loaded.Env X) (n : Nat) (a b : Mdl (Obj σ A n) A) : Prop where
  params : ModelSer.getParams (opsAt ops w r n) a = ModelSer.getParams (opsAt ops w r n) b
  state : ModelSer.getState (opsAt ops w r n) a = ModelSer.getState (opsAt ops w r n) b
  key : keyData a.rng = keyData b.rng
  opt : a.opt.map norm = b.opt.map norm
  calls : ∀ data dtype rng, Loaded.call ops w r fresh sig env n a data dtype rng = Loaded.call ops w r fresh sig env n b data dtype rng

end LoadedSpec
end Verif
