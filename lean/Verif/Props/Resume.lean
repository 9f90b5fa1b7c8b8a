import Verif.Spec.Resume
import Verif.Props.Training
import Verif.Model.Adam
import Mathlib.Tactic.NormNum

/-! # C100: training longer, and training in two parts -/

namespace Verif.Props

open Verif.Batch Verif.BatchSpec Verif.Train Verif.TrainSpec

variable {α P S K F : Type}

theorem cond_withEpochs {c : Cfg α P S K F} {n : Nat} (hn : c.epochs ≤ n) {s : TState P S K F} (h : epochCond c s = true) : epochCond (withEpochs c n) s = true := by
  simp only [epochCond, Bool.and_eq_true, decide_eq_true_eq, Bool.not_eq_true'] at h ⊢
  exact ⟨⟨⟨h.1.1.1, Nat.lt_of_lt_of_le h.1.1.2 hn⟩, h.1.2⟩, h.2⟩

theorem history_longer {c : Cfg α P S K F} {n : Nat} (hn : c.epochs ≤ n) {s t u : TState P S K F} {l l' : List (Snap P S K F)} (h : History c s l t)
    (h' : History (withEpochs c n) s l' u) : ∃ l₂, l' = l ++ l₂ ∧ History (withEpochs c n) t l₂ u := by
  induction h generalizing l' with
  | stop _ => exact ⟨l', rfl, h'⟩
  | @epoch s k snap s' l t hc ht hf _ ih =>
    cases h' with
    | stop hc' => rw [cond_withEpochs hn hc] at hc'; cases hc'
    | @epoch _ k' snap' s'' l'' _ hc' ht' hf' hh' =>
      have e1 : epochTrain c s = .ok (k', snap') := ht'
      rw [ht] at e1
      simp only [Except.ok.injEq, Prod.mk.injEq] at e1
      obtain ⟨rfl, rfl⟩ := e1
      have e2 : epochFinish c s k snap = .ok s'' := hf'
      rw [hf] at e2
      simp only [Except.ok.injEq] at e2
      subst e2
      obtain ⟨l₂, h1, h2⟩ := ih hh'
      exact ⟨l₂, by rw [h1]; rfl, h2⟩

theorem bestLoss_not_worse {lt le : F → F → Bool} (ho : FloatOrder lt le) (b : F) : ∀ (ls : List F), lt b (bestLoss lt b ls) = false := by
  have key : ∀ (ls : List F) (x : F), (x = b ∨ lt x b = true) → (bestLoss lt x ls = b ∨ lt (bestLoss lt x ls) b = true) := by
    intro ls
    induction ls with
    | nil => intro x hx; exact hx
    | cons v ls ih =>
      intro x hx
      show bestLoss lt (if lt v x then v else x) ls = b ∨ _
      by_cases hv : lt v x = true
      · have e : bestLoss lt x (v :: ls) = bestLoss lt v ls := by simp [bestLoss, hv]
        rw [e, if_pos hv]
        apply ih
        right
        rcases hx with rfl | hx
        · exact hv
        · exact ho.trans _ _ _ hv hx
      · have e : bestLoss lt x (v :: ls) = bestLoss lt x ls := by simp [bestLoss, hv]
        rw [e, if_neg hv]
        exact ih x hx
  intro ls
  rcases key ls b (.inl rfl) with h | h
  · rw [h]; exact ho.irrefl b
  · by_cases hh : lt b (bestLoss lt b ls) = true
    · have := ho.trans _ _ _ hh h
      rw [ho.irrefl] at this; cases this
    · simpa using hh

/-- **C100** Training longer from the same start does the same epochs first and then more: the model that is returned is never worse. -/
theorem C100_longer (c : Cfg α P S K F) (ho : FloatOrder c.lt c.le) (n : Nat) (hn : c.epochs ≤ n) (k : K) (adam : List (OptState P)) (st : S) (rng : K) (t u : TState P S K F)
    (ht : run c k adam st rng = .ok t) (hu : run (withEpochs c n) k adam st rng = .ok u) :
    c.lt t.best.loss u.best.loss = false ∧ t.epoch ≤ u.epoch ∧
    ∃ s l l₂, initial c k adam st rng = .ok s ∧ History c s l t ∧ History (withEpochs c n) s (l ++ l₂) u ∧
      (t.epoch < c.epochs → u = t) := by
  obtain ⟨s, l, hs, hl⟩ := run_inv ht
  obtain ⟨s', l', hs', hl'⟩ := run_inv hu
  have e : initial c k adam st rng = .ok s' := hs'
  rw [hs] at e
  simp only [Except.ok.injEq] at e
  subst e
  obtain ⟨l₂, rfl, h2⟩ := history_longer hn hl hl'
  refine ⟨?_, ?_, s, l, l₂, hs, hl, hl', ?_⟩
  · rw [history_best_loss h2]
    exact bestLoss_not_worse (lt := c.lt) ho t.best.loss _
  · rw [(history_epoch h2).1]; omega
  · intro hlt
    have hend : epochCond c t = false := by
      clear h2 hl' hlt ht hu hs hs'
      induction hl with
      | stop h => exact h
      | epoch _ _ _ _ ih => exact ih
    have : epochCond (withEpochs c n) t = false := by
      simp only [epochCond] at hend ⊢
      rw [decide_eq_true hlt] at hend
      rw [decide_eq_true (Nat.lt_of_lt_of_le hlt hn : t.epoch < (withEpochs c n).epochs)]
      exact hend
    cases h2 with
    | stop _ => rfl
    | epoch hc _ _ _ => rw [this] at hc; cases hc

/-- The run of two epochs and the one of ten: the second one goes on for two more epochs and returns the same model. -/
example : demoCfg.epochs = 10 ∧ (match run (withEpochs demoCfg 2) 0 demoAdam () 0, run (withEpochs (withEpochs demoCfg 2) 10) 0 demoAdam () 0 with
    | .ok t, .ok u => some (t.epoch, t.best.loss, u.epoch, u.best.loss)
    | _, _ => none) = some (2, some 1, 4, some 1) := by decide

theorem trainStep_eq (c : Cfg α P S K F) (e : Nat) (i : Inner P S K) (b : Data α) :
    trainStep c e i b = match applyGrads c.update c.flags i.adam (c.grad e b i.mstate (c.split i.mrng).2 (i.adam.map (·.params))).1 with
      | .error er => .error er
      | .ok ad => .ok ⟨ad, (c.grad e b i.mstate (c.split i.mrng).2 (i.adam.map (·.params))).2, (c.split i.mrng).1⟩ := by
  show (applyGrads c.update c.flags i.adam (c.grad e b i.mstate (c.split i.mrng).2 (i.adam.map (·.params))).1 >>= fun ad =>
    Except.ok (Inner.mk ad (c.grad e b i.mstate (c.split i.mrng).2 (i.adam.map (·.params))).2 (c.split i.mrng).1)) = _
  cases applyGrads c.update c.flags i.adam (c.grad e b i.mstate (c.split i.mrng).2 (i.adam.map (·.params))).1 <;> rfl

theorem fold_same {c : Cfg α P S K F} (hp : Plain c) (e e' : Nat) : ∀ (bs : List (Data α)) (i j i' : Inner P S K), i.adam = j.adam → i.mstate = j.mstate →
    bs.foldlM (trainStep c e) i = .ok i' → ∃ j', bs.foldlM (trainStep c e') j = .ok j' ∧ i'.adam = j'.adam ∧ i'.mstate = j'.mstate
  | [], i, j, i', h1, h2, h => by
    cases h
    exact ⟨j, rfl, h1, h2⟩
  | b :: bs, i, j, i', h1, h2, h => by
    rw [List.foldlM_cons] at h ⊢
    rw [trainStep_eq] at h ⊢
    rw [← h1, ← h2, hp.grad e' e b i.mstate _ (c.split i.mrng).2]
    simp only [bind, Except.bind] at h ⊢
    cases ha : applyGrads c.update c.flags i.adam (c.grad e b i.mstate (c.split i.mrng).2 (i.adam.map (·.params))).1 with
    | error er => rw [ha] at h; cases h
    | ok ad =>
      rw [ha] at h
      simp only at h ⊢
      exact fold_same hp e e' bs ⟨ad, _, (c.split i.mrng).1⟩ ⟨ad, _, (c.split j.mrng).1⟩ i' rfl rfl h

theorem valLoss_same {c : Cfg α P S K F} (hp : Plain c) (e e' : Nat) (i j : Inner P S K) (h1 : i.adam = j.adam) (h2 : i.mstate = j.mstate) (k : K) :
    batchedValLoss c j k e' = batchedValLoss c i k e := by
  unfold batchedValLoss
  rw [← h1, ← h2]
  have : ∀ b, c.valLoss e' b i.mstate j.mrng (i.adam.map (·.params)) = c.valLoss e b i.mstate i.mrng (i.adam.map (·.params)) := fun b => hp.loss _ _ _ _ _ _ _
  simp only [this]

theorem train_same {c : Cfg α P S K F} (hp : Plain c) {s s' : TState P S K F} {k : K} {x : Snap P S K F} (hb : s.batchRng = s'.batchRng) (h1 : s.inner.adam = s'.inner.adam)
    (h2 : s.inner.mstate = s'.inner.mstate) (h : epochTrain c s = .ok (k, x)) : ∃ y, epochTrain c s' = .ok (k, y) ∧ SameModel x y := by
  unfold epochTrain at h ⊢
  simp only [bind, Except.bind, pure, Except.pure] at h ⊢
  rw [← hb]
  cases hbs : batches (c.train.shuffle c.perm c.splitN (c.split s.batchRng).2) c.batchSize with
  | error er => rw [hbs] at h; cases h
  | ok bs =>
    rw [hbs] at h
    simp only at h ⊢
    cases hf : bs.foldlM (trainStep c s.epoch) s.inner with
    | error er => rw [hf] at h; cases h
    | ok i' =>
      rw [hf] at h
      obtain ⟨j', hj, e1, e2⟩ := fold_same hp s.epoch s'.epoch bs _ s'.inner i' h1 h2 hf
      rw [hj]
      simp only at h ⊢
      rw [valLoss_same hp s.epoch s'.epoch i' j' e1 e2]
      cases hv : batchedValLoss c i' (c.split (c.split s.batchRng).1).2 s.epoch with
      | error er => rw [hv] at h; cases h
      | ok v =>
        rw [hv] at h
        simp only [Except.ok.injEq, Prod.mk.injEq] at h ⊢
        obtain ⟨hk, rfl⟩ := h
        exact ⟨_, ⟨hk, rfl⟩, rfl, e1, e2⟩

theorem zip_params (as : List (OptState P)) : List.zipWith (fun p (a : OptState P) => { a with params := p }) (as.map (·.params)) as = as := by
  induction as with
  | nil => rfl
  | cons a as ih => simp only [List.map_cons, List.zipWith_cons_cons, ih]

theorem finish_plain {c : Cfg α P S K F} (hp : Plain c) {s s' : TState P S K F} {k : K} {x : Snap P S K F} (h : epochFinish c s k x = .ok s') :
    s'.batchRng = k ∧ s'.inner.adam = advanced c.flags x.inner.adam ∧ s'.inner.mstate = x.inner.mstate ∧ s'.inner.mrng = x.inner.mrng := by
  rw [(epochFinish_inv h).2]
  simp only [hp.callback, zip_params, advanced, and_self]

theorem history_same {c : Cfg α P S K F} (hp : Plain c) {n : Nat} {target minDelta : F} {patience : Int} {interrupted : Nat → Bool} {s t s' t' : TState P S K F}
    {l l' : List (Snap P S K F)} (hb : s.batchRng = s'.batchRng) (h1 : s.inner.adam = s'.inner.adam) (h2 : s.inner.mstate = s'.inner.mstate) (h : History c s l t)
    (h' : History (withStops c n target minDelta patience interrupted) s' l' t') : ∀ (i : Nat) x y, l[i]? = some x → l'[i]? = some y → SameModel x y := by
  induction h generalizing s' l' with
  | stop _ => intro i x y hx; cases hx
  | @epoch s k snap s₁ l t hc ht hf _ ih =>
    cases h' with
    | stop _ => intro i x y _ hy; cases hy
    | @epoch _ k' snap' s₁' l'' _ hc' ht' hf' hh' =>
      obtain ⟨y0, hy0, hs0⟩ := train_same hp hb h1 h2 ht
      have e1 : epochTrain c s' = .ok (k', snap') := ht'
      rw [hy0] at e1
      simp only [Except.ok.injEq, Prod.mk.injEq] at e1
      obtain ⟨rfl, rfl⟩ := e1
      have hp' : Plain (withStops c n target minDelta patience interrupted) := ⟨hp.grad, hp.loss, hp.callback⟩
      obtain ⟨a1, a2, a3, -⟩ := finish_plain hp hf
      obtain ⟨b1, b2, b3, -⟩ := finish_plain hp' hf'
      intro i x y hx hy
      cases i with
      | zero =>
        simp at hx hy
        subst hx; subst hy
        exact hs0
      | succ i =>
        refine ih (by rw [a1, b1]) ?_ (by rw [a3, b3, hs0.2.2]) hh' i x y (by simpa using hx) (by simpa using hy)
        rw [a2, b2, hs0.2.1]
        rfl

theorem history_last {c : Cfg α P S K F} (hp : Plain c) {s t : TState P S K F} {l : List (Snap P S K F)} {x : Snap P S K F} (h : History c s (l ++ [x]) t) :
    t.inner.adam = advanced c.flags x.inner.adam ∧ t.inner.mstate = x.inner.mstate := by
  induction l generalizing s with
  | nil =>
    cases h with
    | @epoch _ k _ s' _ _ _ ht hf hh =>
      cases hh with
      | stop _ =>
        obtain ⟨-, a, b, -⟩ := finish_plain hp hf
        exact ⟨a, b⟩
  | cons y l ih =>
    cases h with
    | epoch _ _ _ hh => exact ih hh

/-- **C100**, resuming (for losses that use neither epoch nor random numbers, a callback that changes nothing, and a first part whose last epoch was its best). If the
optimiser states that the first part returned are used with their counters advanced, and the random key for batches is the one that the first part had reached, then the
second part goes through the models that one uninterrupted training goes through, whatever the conditions for ending it. Missing: the code does not advance the counters
(`C100_lag_refuted`). -/
theorem C100_resume_partial (c : Cfg α P S K F) (hp : Plain c) (n : Nat) (hn : n ≤ c.epochs) (k : K) (adam : List (OptState P)) (st : S) (rng : K) (s t u v : TState P S K F)
    (l : List (Snap P S K F)) (x : Snap P S K F) (hs : initial c k adam st rng = .ok s) (ht : History (withEpochs c n) s (l ++ [x]) t) (hx : t.best = x)
    (hu : run c k adam st rng = .ok u)
    (m : Nat) (target minDelta : F) (patience : Int) (interrupted : Nat → Bool)
    (hv : run (withStops c m target minDelta patience interrupted) t.batchRng (advanced c.flags t.best.inner.adam) t.best.inner.mstate t.best.inner.mrng = .ok v) :
    ∃ l₂ s' l₃, History c s (l ++ [x] ++ l₂) u ∧
      initial (withStops c m target minDelta patience interrupted) t.batchRng (advanced c.flags t.best.inner.adam) t.best.inner.mstate t.best.inner.mrng = .ok s' ∧
      History (withStops c m target minDelta patience interrupted) s' l₃ v ∧
      ∀ (i : Nat) a b, l₂[i]? = some a → l₃[i]? = some b → SameModel a b := by
  obtain ⟨s₀, lu, hs₀, hlu⟩ := run_inv hu
  rw [hs] at hs₀
  simp only [Except.ok.injEq] at hs₀
  subst hs₀
  obtain ⟨s', l₃, hs', hl₃⟩ := run_inv hv
  have hlu' : History (withEpochs (withEpochs c n) c.epochs) s lu u := hlu
  obtain ⟨l₂, rfl, h2⟩ := history_longer (c := withEpochs c n) hn ht hlu'
  have h2' : History c t l₂ u := h2
  obtain ⟨-, hi, -, -, hb, -⟩ := initial_inv hs'
  have hp' : Plain (withEpochs c n) := ⟨hp.grad, hp.loss, hp.callback⟩
  obtain ⟨e1, e2⟩ := history_last hp' ht
  refine ⟨l₂, s', l₃, hlu, hs', hl₃, ?_⟩
  refine history_same hp hb.symm ?_ ?_ h2' hl₃
  · rw [hi, e1, hx]; rfl
  · rw [hi, e2, hx]

theorem advanced_ne {flags : List Bool} {adam : List (OptState P)} {i : Nat} (hf : flags[i]? = some true) (hi : i < adam.length) : advanced flags adam ≠ adam := by
  intro h
  have h1 : (advanced flags adam)[i]? = adam[i]? := by rw [h]
  unfold advanced at h1
  rw [List.getElem?_zipWith, hf, List.getElem?_eq_getElem hi] at h1
  simp only [Option.some.injEq] at h1
  have := congrArg OptState.epoch h1
  simp at this

/-- **C100, refuted**: the optimiser states that are returned are those from before the counters were advanced. So whenever the last epoch of a training was its best, and
something was trained, resuming starts with other optimiser states than those with which the training would have gone on. -/
theorem C100_lag_refuted (c : Cfg α P S K F) (hp : Plain c) (s t : TState P S K F) (l : List (Snap P S K F)) (x : Snap P S K F) (h : History c s (l ++ [x]) t) (hx : t.best = x)
    (i : Nat) (hf : c.flags[i]? = some true) (hi : i < t.best.inner.adam.length) :
    t.inner.adam = advanced c.flags t.best.inner.adam ∧ t.inner.adam ≠ t.best.inner.adam := by
  obtain ⟨e, -⟩ := history_last hp h
  rw [hx] at hi ⊢
  exact ⟨e, by rw [e]; exact advanced_ne hf hi⟩

/-- A training like `demoCfg` in which the step depends on the counter, as the bias correction and the learning rate of Adam do: the parameter goes 0, -1, -3, -6, ...
towards -21. -/
def countCfg : Cfg Nat Int Unit Nat (Option Int) :=
  { demoCfg with
    grad := fun _ _ s _ _ => ([1], s)
    valLoss := fun _ _ _ _ ps => some ((ps.headD 0 + 21) * (ps.headD 0 + 21))
    update := fun d a => { a with params := a.params - d * (a.epoch + 1) }
    batchSize := 3 }

theorem countCfg_plain : Plain countCfg := ⟨fun _ _ _ _ _ _ _ => rfl, fun _ _ _ _ _ _ _ => rfl, fun _ _ _ => rfl⟩

/-- Three epochs reach -6 with counter 2; the counter that the training goes on with is 3, and the next epoch of a training of four reaches -10. -/
example : (match run (withEpochs countCfg 3) 0 demoAdam () 0, run (withEpochs countCfg 4) 0 demoAdam () 0 with
    | .ok t, .ok u => some (t.best.inner.adam.map (fun a => (a.params, a.epoch)), t.best.epoch, t.inner.adam.map (fun a => (a.params, a.epoch)),
        u.best.inner.adam.map (fun a => (a.params, a.epoch)))
    | _, _ => none) = some ([(-6, 2), (100, 0)], 2, [(-6, 3), (100, 0)], [(-10, 3), (100, 0)]) := by decide

/-- With the advanced counters a resumed training reaches -10 as well. -/
example : (match run (withEpochs countCfg 3) 0 demoAdam () 0 with
    | .ok t => match run (withEpochs countCfg 1) t.batchRng (advanced countCfg.flags t.best.inner.adam) t.best.inner.mstate t.best.inner.mrng with
      | .ok v => some (v.best.inner.adam.map (fun a => (a.params, a.epoch)))
      | _ => none
    | _ => none) = some [(-10, 3), (100, 0)] := by decide

/-- **C100, refuted**: training three epochs, each of which is the best so far, and resuming for one with what was returned does not give the parameters that training four
epochs gives. -/
theorem C100_resume_refuted : ¬ ∀ (c : Cfg Nat Int Unit Nat (Option Int)) (t u v : TState Int Unit Nat (Option Int)), Plain c → run (withEpochs c 3) 0 demoAdam () 0 = .ok t →
    t.best.epoch + 1 = t.epoch → run (withEpochs c 4) 0 demoAdam () 0 = .ok u → run (withEpochs c 1) t.batchRng t.best.inner.adam t.best.inner.mstate t.best.inner.mrng = .ok v →
    u.epoch = 4 → v.epoch = 1 → v.inner.adam.map (·.params) = u.inner.adam.map (·.params) := by
  intro h
  have key : (match run (withEpochs countCfg 3) 0 demoAdam () 0, run (withEpochs countCfg 4) 0 demoAdam () 0 with
      | .ok t, .ok u => match run (withEpochs countCfg 1) t.batchRng t.best.inner.adam t.best.inner.mstate t.best.inner.mrng with
        | .ok v => decide (t.best.epoch + 1 = t.epoch ∧ u.epoch = 4 ∧ v.epoch = 1 ∧ v.inner.adam.map (·.params) ≠ u.inner.adam.map (·.params))
        | _ => false
      | _, _ => false) = true := by decide
  cases ht : run (withEpochs countCfg 3) 0 demoAdam () 0 with
  | error e => rw [ht] at key; cases key
  | ok t =>
    cases hu : run (withEpochs countCfg 4) 0 demoAdam () 0 with
    | error e => rw [ht, hu] at key; cases key
    | ok u =>
      rw [ht, hu] at key
      simp only at key
      cases hv : run (withEpochs countCfg 1) t.batchRng t.best.inner.adam t.best.inner.mstate t.best.inner.mrng with
      | error e => rw [hv] at key; cases key
      | ok v =>
        rw [hv] at key
        simp only [decide_eq_true_eq] at key
        exact key.2.2.2 (h countCfg t u v countCfg_plain ht key.1 hu hv key.2.1 key.2.2.1)

/-- **C100, refuted** for Adam itself: after one epoch of one batch, the next update with the counter that was returned moves the parameter elsewhere than the update with the
counter of the uninterrupted training. -/
theorem C100_adam_refuted : ∃ (lr b1 b2 eps clip : ℝ) (dx : Unit → ℝ), 0 < lr ∧ 0 ≤ b1 ∧ b1 < 1 ∧ 0 ≤ b2 ∧ b2 < 1 ∧ 0 < eps ∧
    let s := Adam.update (fun _ => lr) b1 b2 eps clip dx (Adam.init fun _ => 0)
    (Adam.update (fun _ => lr) b1 b2 eps clip dx s).params ≠ (Adam.update (fun _ => lr) b1 b2 eps clip dx { s with epoch := s.epoch + 1 }).params := by
  refine ⟨1, 1 / 2, 0, 1, 10, fun _ => 1, by norm_num, by norm_num, by norm_num, by norm_num, by norm_num, by norm_num, ?_⟩
  intro s h
  have h := congrFun h ()
  have e : Adam.clipR 10 1 = 1 := by norm_num [Adam.clipR]
  simp only [s, Adam.update, Adam.init, e] at h
  norm_num at h

end Verif.Props
