import Verif.Model.LossCall
import Verif.Props.TrainArgs

/-!
# C86: the loss function is called with the data that was given

`callOn f e x y u p t s r` is the call that training makes on a batch with features `x`, targets `y` and uncertainties `u` (if given). A batch has targets or uncertainties exactly if the data has.
-/

namespace Verif.Props
open TrainArgs LossCall

variable {D P S K F σ : Type} [DecidableEq σ]

/-- The arguments that the documentation of `train` promises to a loss function: the epoch, the features, the targets and uncertainties if given, and the predictions. -/
def promised (e : Nat) (x : D) (y u : Option D) (pred : D) : List (Arg D P S K) :=
  [.epoch e, .data x] ++ y.toList.map .data ++ u.toList.map .data ++ [.data pred]

/-- A loss function of the user is evaluated with the predictions of the model, and the state of the model is returned. -/
def userLoss (env : Env D P S K F) (f : Fn D P S K F) (e : Nat) (x : D) (y u : Option D) (p : P) (t : Bool) (s : S) (r : K) : Except PyErr (F × S) :=
  match env.model p x t s r with
  | .error err => .error err
  | .ok (pred, s') => match f (promised e x y u pred) with
    | .error err => .error err
    | .ok v => .ok (v, s')

/-- A named loss is evaluated with the predictions of the model. -/
def namedLoss (env : Env D P S K F) (k : Loss.Kind) (target : D) (x : D) (u : Option D) (p : P) (t : Bool) (s : S) (r : K) : Except PyErr (F × S) :=
  match env.model p x t s r with
  | .error err => .error err
  | .ok (pred, s') => match env.value k pred target u with
    | .error err => .error err
    | .ok v => .ok (v, s')

theorem wrap_clean (env : Env D P S K F) (f : Fn D P S K F) (e : Nat) (x : D) (y u : Option D) (p : P) (t : Bool) (s : S) (r : K) (g : Fn D P S K (F × S))
    (h : wrap env (.fn f) y.isSome u.isSome = .ok g) : callOn (clean g y.isSome u.isSome) e x y u p t s r = userLoss env f e x y u p t s r := by
  cases y <;> cases u <;> simp only [Option.isSome_none, Option.isSome_some, wrap] at h <;> cases h <;>
    simp only [callOn, clean, dropY, dropU, opt, Option.isSome_none, Option.isSome_some, Bool.false_eq_true, if_false, if_true, userLoss, promised, Option.toList, List.map, List.append_nil, List.cons_append,
      List.nil_append, bind, Except.bind, pure, Except.pure] <;> (rcases env.model p x t s r with err | ⟨pred, s'⟩) <;> simp only <;> (try (split <;> simp_all))

theorem losses_inv {env : Env D P S K F} {l : LossArg D P S K F} {v : Option (LossArg D P S K F)} {a : Args σ} {lf vf : Fn D P S K (F × S)} {pl : Plan σ} (h : losses env l v a = .ok (lf, vf, pl)) :
    ∃ l' v', wrap env l a.Y.isSome a.Yunc.isSome = .ok l' ∧ (v = none → v' = l') ∧ (∀ w, v = some w → wrap env w a.Yval.isSome a.YvalUnc.isSome = .ok v') ∧ validate a = .ok pl ∧
      lf = clean l' a.Y.isSome a.Yunc.isSome ∧ vf = clean v' pl.Yval.isSome pl.YvalUnc.isSome := by
  unfold losses at h
  simp only [bind, Except.bind] at h
  split at h
  · cases h
  rename_i l' hl
  cases v with
  | none =>
    simp only at h
    split at h
    · cases h
    rename_i p hp
    cases h
    exact ⟨l', l', hl, fun _ => rfl, fun _ h => (by cases h), hp, rfl, rfl⟩
  | some w =>
    simp only at h
    split at h
    · cases h
    rename_i v' hv
    split at h
    · cases h
    rename_i p hp
    cases h
    exact ⟨l', v', hl, fun h => (by cases h), fun _ h => (by cases h; exact hv), hp, rfl, rfl⟩

/-- **C86** A loss function given to `train` is called with what the documentation says, on every batch, whatever validation data and loss are given. -/
theorem C86_loss (env : Env D P S K F) (f : Fn D P S K F) (v : Option (LossArg D P S K F)) (a : Args σ) (lf vf : Fn D P S K (F × S)) (pl : Plan σ) (h : losses env (.fn f) v a = .ok (lf, vf, pl))
    (e : Nat) (x : D) (y u : Option D) (hy : y.isSome = a.Y.isSome) (hu : u.isSome = a.Yunc.isSome) (p : P) (t : Bool) (s : S) (r : K) :
    callOn lf e x y u p t s r = userLoss env f e x y u p t s r := by
  obtain ⟨l', v', h1, -, -, -, rfl, -⟩ := losses_inv h
  rw [← hy, ← hu] at h1 ⊢
  exact wrap_clean env f e x y u p t s r l' h1

/-- The losses that divide by uncertainties: those whose names end with `_unc`. -/
def Weighted (k : Loss.Kind) : Prop := k = .mseUnc ∨ k = .maeUnc ∨ k = .mreUnc ∨ k = .mrdUnc

theorem weighted_iff {k : Loss.Kind} : Weighted k ↔ takesUnc k = true := by cases k <;> simp [Weighted, takesUnc]

/-- **C86** A named loss is evaluated if it needs exactly the data that was given; otherwise every batch raises. -/
theorem C86_named (env : Env D P S K F) (name : Str) (v : Option (LossArg D P S K F)) (a : Args σ) (lf vf : Fn D P S K (F × S)) (pl : Plan σ) (h : losses env (.named name) v a = .ok (lf, vf, pl)) :
    ∃ k unsup, Loss.kindOf env.parse name = .ok (k, unsup) ∧
      ∀ (e : Nat) (x : D) (y u : Option D), y.isSome = a.Y.isSome → u.isSome = a.Yunc.isSome → ∀ (p : P) (t : Bool) (s : S) (r : K),
        (unsup = true → y = none → u = none → callOn lf e x y u p t s r = namedLoss env k x x none p t s r) ∧
        (unsup = true → (y.isSome ∨ u.isSome) → callOn lf e x y u p t s r = .error .typeError) ∧
        (unsup = false → ¬ Weighted k → ∀ y', y = some y' → u = none → callOn lf e x y u p t s r = namedLoss env k y' x none p t s r) ∧
        (unsup = false → Weighted k → ∀ y' u', y = some y' → u = some u' → callOn lf e x y u p t s r = namedLoss env k y' x (some u') p t s r) ∧
        (unsup = false → (y = none ∨ ¬ (u.isSome = true ↔ Weighted k)) → callOn lf e x y u p t s r = .error .typeError) := by
  simp only [weighted_iff, Bool.not_eq_true]
  obtain ⟨l', v', h1, -, -, -, rfl, -⟩ := losses_inv h
  simp only [wrap, makeLoss, bind, Except.bind] at h1
  split at h1
  · cases h1
  rename_i kk hk
  obtain ⟨k, unsup⟩ := kk
  refine ⟨k, unsup, hk, fun e x y u hy hu p t s r => ?_⟩
  rw [← hy, ← hu]
  cases unsup
  · cases ht : takesUnc k
    · simp only [ht, Bool.false_eq_true, if_false, pure, Except.pure] at h1
      cases h1
      cases y <;> cases u <;> simp [callOn, clean, dropY, dropU, opt, namedLoss, bind, Except.bind, pure, Except.pure] <;> (rcases env.model p x t s r with err | ⟨pred, s'⟩) <;> simp only <;> (try (split <;> simp_all))
    · simp only [ht, Bool.false_eq_true, if_false, if_true, pure, Except.pure] at h1
      cases h1
      cases y <;> cases u <;> simp [callOn, clean, dropY, dropU, opt, namedLoss, bind, Except.bind, pure, Except.pure] <;> (rcases env.model p x t s r with err | ⟨pred, s'⟩) <;> simp only <;> (try (split <;> simp_all))
  · simp only [if_true, pure, Except.pure] at h1
    cases h1
    cases y <;> cases u <;> simp [callOn, clean, dropY, dropU, opt, namedLoss, bind, Except.bind, pure, Except.pure] <;> (rcases env.model p x t s r with err | ⟨pred, s'⟩) <;> simp only <;> (try (split <;> simp_all))

/-- The data that validation uses is given exactly where the training data is. -/
theorem presence {a : Args σ} (hw : WellFormed a) {pl : Plan σ} (hp : validate a = .ok pl) : pl.Yval.isSome = a.Y.isSome ∧ pl.YvalUnc.isSome = a.Yunc.isSome := by
  obtain ⟨h1, h2⟩ := C35_validation_data a hw pl hp
  have hc := (C35_validation_partial a hw).1 ⟨pl, hp⟩
  cases hx : a.Xval with
  | none =>
    obtain ⟨-, e1, e2⟩ := h1 hx
    rw [e1, e2]
    exact ⟨rfl, rfl⟩
  | some x =>
    obtain ⟨-, e1, e2, -⟩ := h2 x hx
    refine ⟨?_, by rw [Bool.eq_iff_iff, e2]⟩
    rw [e1]
    cases hy : a.Y with
    | some y =>
      obtain ⟨yv, hyv, -⟩ := hc.xyval x y hx hy
      rw [hyv]
      rfl
    | none =>
      cases hyv : a.Yval with
      | none => rfl
      | some yv =>
        have := hc.yval (by rw [hyv]; rfl)
        rw [hy] at this
        cases this

/-- **C86** Without a validation loss, validation calls the training loss, with targets and uncertainties exactly if training has them. -/
theorem C86_default_validation (env : Env D P S K F) (l : LossArg D P S K F) (a : Args σ) (hw : WellFormed a) (lf vf : Fn D P S K (F × S)) (pl : Plan σ) (h : losses env l none a = .ok (lf, vf, pl)) :
    vf = lf ∧ pl.Yval.isSome = a.Y.isSome ∧ pl.YvalUnc.isSome = a.Yunc.isSome := by
  obtain ⟨l', v', -, h2, -, h4, rfl, rfl⟩ := losses_inv h
  obtain ⟨e1, e2⟩ := presence hw h4
  rw [h2 rfl, e1, e2]
  exact ⟨rfl, rfl, rfl⟩

/-- **C86** A validation loss function is called with what the documentation says, if validation features are given and validation uncertainties only together with training uncertainties. -/
theorem C86_validation (env : Env D P S K F) (l : LossArg D P S K F) (g : Fn D P S K F) (a : Args σ) (hw : WellFormed a) (hx : a.Xval.isSome) (hu : a.YvalUnc.isSome → a.Yunc.isSome)
    (lf vf : Fn D P S K (F × S)) (pl : Plan σ) (h : losses env l (some (.fn g)) a = .ok (lf, vf, pl)) (e : Nat) (x : D) (y u : Option D) (hy : y.isSome = pl.Yval.isSome)
    (hu' : u.isSome = pl.YvalUnc.isSome) (p : P) (t : Bool) (s : S) (r : K) : callOn vf e x y u p t s r = userLoss env g e x y u p t s r := by
  obtain ⟨l', v', -, -, h3, h4, -, rfl⟩ := losses_inv h
  have hv := h3 _ rfl
  obtain ⟨xv, hxv⟩ := Option.isSome_iff_exists.1 hx
  obtain ⟨-, h2⟩ := C35_validation_data a hw pl h4
  obtain ⟨-, e1, e2, e3⟩ := h2 xv hxv
  have eu : pl.YvalUnc.isSome = a.YvalUnc.isSome := by
    rw [Bool.eq_iff_iff]
    constructor
    · intro hs
      obtain ⟨w, hw'⟩ := Option.isSome_iff_exists.1 hs
      rw [e3 w hw']
      rfl
    · intro hs
      exact e2.2 (hu hs)
  rw [← e1, ← eu, ← hy, ← hu'] at hv
  rw [← hy, ← hu']
  exact wrap_clean env g e x y u p t s r v' hv

/-- **C86** A validation loss function without validation data is never called in supervised training: every evaluation raises. -/
theorem C86_validation_refuted (env : Env D P S K F) (l : LossArg D P S K F) (g : Fn D P S K F) (a : Args σ) (hw : WellFormed a) (hx : a.Xval = none) (hyv : a.Yval = none) (hy : a.Y.isSome)
    (lf vf : Fn D P S K (F × S)) (pl : Plan σ) (h : losses env l (some (.fn g)) a = .ok (lf, vf, pl)) (e : Nat) (x : D) (y u : Option D) (hyd : y.isSome = pl.Yval.isSome)
    (hud : u.isSome = pl.YvalUnc.isSome) (p : P) (t : Bool) (s : S) (r : K) : callOn vf e x y u p t s r = .error .typeError := by
  obtain ⟨l', v', -, -, h3, h4, -, rfl⟩ := losses_inv h
  have hv := h3 _ rfl
  obtain ⟨e1, e2⟩ := presence hw h4
  rw [← hyd, ← hud]
  rw [hy] at e1
  rw [e1] at hyd
  rw [hyv] at hv
  cases hyu : a.YvalUnc with
  | some w =>
    rw [hyu] at hv
    cases hv
  | none =>
    rw [hyu] at hv
    simp only [wrap, Option.isSome_none] at hv
    cases hv
    cases y with
    | none => cases hyd
    | some y => cases u <;> rfl

/-- **C86** A validation loss function with validation uncertainties, but no uncertainties in training, is never called: every evaluation raises. -/
theorem C86_validation_unc_refuted (env : Env D P S K F) (l : LossArg D P S K F) (g : Fn D P S K F) (a : Args σ) (hw : WellFormed a) (hyv : a.Yval.isSome) (hyu : a.YvalUnc.isSome) (hu : a.Yunc = none)
    (lf vf : Fn D P S K (F × S)) (pl : Plan σ) (h : losses env l (some (.fn g)) a = .ok (lf, vf, pl)) (e : Nat) (x : D) (y u : Option D) (hyd : y.isSome = pl.Yval.isSome)
    (hud : u.isSome = pl.YvalUnc.isSome) (p : P) (t : Bool) (s : S) (r : K) : callOn vf e x y u p t s r = .error .typeError := by
  obtain ⟨l', v', -, -, h3, h4, -, rfl⟩ := losses_inv h
  have hv := h3 _ rfl
  obtain ⟨e1, e2⟩ := presence hw h4
  rw [← hyd, ← hud]
  rw [hu] at e2
  rw [e2] at hud
  rw [hyv, hyu] at hv
  simp only [wrap] at hv
  cases hv
  cases u with
  | some u => cases hud
  | none => cases y <;> rfl

/-- **C86** A loss function with uncertainties but no targets is refused, before anything is called. -/
theorem C86_unc_without_targets (env : Env D P S K F) (f : Fn D P S K F) (v : Option (LossArg D P S K F)) (a : Args σ) (hy : a.Y = none) (hu : a.Yunc.isSome) :
    losses env (.fn f) v a = .error .valueError := by
  unfold losses
  rw [hy, hu]
  rfl

/-! ## Concrete cases -/

/-- A model that adds its parameter to the features and counts its calls; the named losses subtract. -/
def sumEnv : Env Nat Nat Nat Nat Nat := ⟨fun p x _ s _ => .ok (p + x, s + 1), fun _ => .error .valueError, fun _ pred y u => .ok (1000 * pred + 10 * y + u.getD 0)⟩

/-- A loss function that wants uncertainties. -/
def fourLoss : Fn Nat Nat Nat Nat Nat
  | [.epoch e, .data x, .data y, .data u, .data pred] => .ok (10000 * e + 1000 * x + 100 * y + 10 * u + pred)
  | _ => .error .typeError

/-- A loss function that wants targets only. -/
def threeLoss : Fn Nat Nat Nat Nat Nat
  | [.epoch e, .data x, .data y, .data pred] => .ok (1000 * e + 100 * x + 10 * y + pred)
  | _ => .error .typeError

/-- Accepted arguments with targets and uncertainties, and the value on a batch. -/
example : ∃ lf vf pl, losses sumEnv (.fn fourLoss) none demoArgs = .ok (lf, vf, pl) ∧ callOn lf 9 1 (some 2) (some 3) 4 true 0 0 = .ok (91235, 1) ∧ vf = lf := by
  obtain ⟨lf, vf, pl, h⟩ : ∃ lf vf pl, losses sumEnv (.fn fourLoss) none demoArgs = .ok (lf, vf, pl) := ⟨_, _, _, rfl⟩
  refine ⟨lf, vf, pl, h, ?_, (C86_default_validation sumEnv _ _ demoArgs_wellFormed _ _ _ h).1⟩
  rw [C86_loss sumEnv fourLoss none demoArgs lf vf pl h 9 1 (some 2) (some 3) rfl rfl]
  rfl

/-- The same with a validation loss of its own and validation data. -/
example : ∃ lf vf pl, losses sumEnv (.named "mse_unc".toList) (some (.fn fourLoss)) demoArgs = .ok (lf, vf, pl) ∧ callOn vf 9 1 (some 2) (some 3) 4 false 0 0 = .ok (91235, 1) ∧
    callOn lf 9 1 (some 2) (some 3) 4 false 0 0 = .ok (5023, 1) := by
  obtain ⟨lf, vf, pl, h, hv⟩ : ∃ lf vf pl, losses sumEnv (.named "mse_unc".toList) (some (.fn fourLoss)) demoArgs = .ok (lf, vf, pl) ∧ (pl.Yval.isSome && pl.YvalUnc.isSome) = true :=
    ⟨_, _, _, rfl, rfl⟩
  rw [Bool.and_eq_true] at hv
  refine ⟨lf, vf, pl, h, ?_, ?_⟩
  · rw [C86_validation sumEnv _ fourLoss demoArgs demoArgs_wellFormed rfl (fun _ => rfl) lf vf pl h 9 1 (some 2) (some 3) hv.1.symm hv.2.symm]
    rfl
  · obtain ⟨k, unsup, hk, hc⟩ := C86_named sumEnv _ _ _ lf vf pl h
    cases hk
    exact ((hc 9 1 (some 2) (some 3) rfl rfl 4 false 0 0).2.2.2.1 rfl (.inl rfl) 2 3 rfl rfl).trans rfl

/-- Named losses that do not fit the data: no uncertainties given, or targets given for an unsupervised loss. -/
example : ∃ lf vf pl, losses sumEnv (.named "mse".toList) none demoArgs = .ok (lf, vf, pl) ∧ callOn lf 9 1 (some 2) (some 3) 4 false 0 0 = .error .typeError := by
  obtain ⟨lf, vf, pl, h⟩ : ∃ lf vf pl, losses sumEnv (.named "mse".toList) none demoArgs = .ok (lf, vf, pl) := ⟨_, _, _, rfl⟩
  refine ⟨lf, vf, pl, h, ?_⟩
  obtain ⟨k, unsup, hk, hc⟩ := C86_named sumEnv _ _ _ lf vf pl h
  cases hk
  exact (hc 9 1 (some 2) (some 3) rfl rfl 4 false 0 0).2.2.2.2 rfl (.inr (by simp [Weighted]))

/-- Supervised training without validation data. -/
def plainArgs : Args Nat := { demoArgs with Yunc := none, Xval := none, Yval := none, YvalUnc := none }

theorem plainArgs_wellFormed : WellFormed plainArgs := by
  have h := demoArgs_wellFormed
  refine ⟨h.X, h.Y, ?_, ?_, ?_, ?_, ?_⟩
  all_goals first
    | (intro d hd; cases hd; done)
    | skip
  intro d hd e he x y hx hy hs
  simp only [plainArgs, demoArgs, List.mem_cons, List.not_mem_nil, or_false] at hd he
  rcases hd with rfl | rfl | rfl | rfl | rfl | rfl <;> cases hx <;>
    rcases he with rfl | rfl | rfl | rfl | rfl | rfl <;> cases hy <;> simp_all

/-- The training loss works as validation loss, but not if it is also named as validation loss. -/
example : (∃ lf vf pl, losses sumEnv (.fn threeLoss) none plainArgs = .ok (lf, vf, pl) ∧ callOn vf 9 1 (some 2) none 4 false 0 0 = .ok (9125, 1)) ∧
    ∃ lf vf pl, losses sumEnv (.fn threeLoss) (some (.fn threeLoss)) plainArgs = .ok (lf, vf, pl) ∧ callOn vf 9 1 (some 2) none 4 false 0 0 = .error .typeError := by
  refine ⟨⟨_, _, _, rfl, rfl⟩, ?_⟩
  obtain ⟨lf, vf, pl, h, hv⟩ : ∃ lf vf pl, losses sumEnv (.fn threeLoss) (some (.fn threeLoss)) plainArgs = .ok (lf, vf, pl) ∧ (pl.Yval.isSome && pl.YvalUnc.isNone) = true := ⟨_, _, _, rfl, rfl⟩
  rw [Bool.and_eq_true, Option.isNone_iff_eq_none] at hv
  exact ⟨lf, vf, pl, h, C86_validation_refuted sumEnv _ threeLoss plainArgs plainArgs_wellFormed rfl rfl rfl lf vf pl h 9 1 (some 2) none hv.1.symm (by rw [hv.2]; rfl) 4 false 0 0⟩

/-- Validation uncertainties without training uncertainties. -/
example : ∃ lf vf pl, losses sumEnv (.fn threeLoss) (some (.fn fourLoss)) { demoArgs with Yunc := none } = .ok (lf, vf, pl) ∧ callOn vf 9 1 (some 2) none 4 false 0 0 = .error .typeError :=
  ⟨_, _, _, rfl, rfl⟩

example : losses sumEnv (.fn fourLoss) none { demoArgs with Y := none } = .error .valueError := C86_unc_without_targets sumEnv fourLoss none _ rfl rfl

end Verif.Props
