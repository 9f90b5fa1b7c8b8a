import Verif.Lemmas.TrainLoop

/-! # Properties of the training loop (C27-C31) -/

namespace Verif.Props

open Verif.Batch Verif.BatchSpec Verif.Train Verif.TrainSpec

variable {α P S K F : Type}

/-- A small training run: one trainable and one frozen integer parameter, losses are integers or NaN (`none`). The update
subtracts the gradient; the gradient of a batch is its number of samples; the loss of a batch is `(p - 5)²`. -/
def demoCfg : Cfg Nat Int Unit Nat (Option Int) where
  perm k n := if k % 2 = 0 then List.range n else (List.range n).reverse
  splitN k n := (List.range n).map (· + k)
  split k := (k + 1, k + 7)
  grad _ b s _ _ := ([-((b.X.map List.length).sum : Int)], s)
  valLoss _ _ _ _ ps := some ((ps.headD 0 - 5) * (ps.headD 0 - 5))
  update d a := { a with params := a.params - d }
  callback k _ ps := (k, ps)
  verbose := false
  interrupted _ := false
  flags := [true, false]
  train := ⟨[[1, 2, 3]], some [[10, 20, 30]], none⟩
  val := ⟨[[1, 2]], some [[10, 20]], none⟩
  batchSize := 2
  valBatchSize := 2
  epochs := 10
  target := some 0
  patience := 2
  minDelta := some 0
  lt a b := match a, b with | some a, some b => decide (a < b) | _, _ => false
  le a b := match a, b with | some a, some b => decide (a ≤ b) | _, _ => false
  sub a b := match a, b with | some a, some b => some (a - b) | _, _ => none
  add a b := match a, b with | some a, some b => some (a + b) | _, _ => none
  divNat a n := a.map (· / n)
  zero := some 0

/-- The two parameters of the run above. -/
def demoAdam : List (OptState Int) := [⟨0, 0, 0, 0⟩, ⟨100, 0, 0, 0⟩]

/-- The run: parameter 0, 3, 6, 9, 12; losses 25, 4, 1, 16, 49; the best is epoch 1 with parameter 6; two epochs without
improvement end the run. -/
example : (match run demoCfg 0 demoAdam () 0 with
    | .ok t => some (t.epoch, t.best.loss, t.best.epoch, t.best.inner.adam.map fun a => (a.params, a.epoch))
    | .error _ => none) = some (4, some 1, 1, [(6, 1), (100, 0)]) := by decide

theorem demo_order : FloatOrder demoCfg.lt demoCfg.le := by
  refine ⟨?_, ?_, ?_⟩
  · intro a; cases a <;> simp [demoCfg]
  · intro a b c; cases a <;> cases b <;> cases c <;> simp [demoCfg]; omega
  · intro a b c; cases a <;> cases b <;> cases c <;> simp [demoCfg]; omega

theorem demo_perm : ∀ k n, (demoCfg.perm k n).Perm (List.range n) := by
  intro k n
  simp only [demoCfg]
  split
  · exact List.Perm.refl _
  · exact List.reverse_perm _

/-! ## C27 -/

/-- **C27** In each epoch the training steps are made on batches that contain every (features, target, uncertainty) triple
exactly once, none is empty and none exceeds the batch size. -/
theorem C27_each_sample_once (c : Cfg α P S K F) (hperm : ∀ k n, (c.perm k n).Perm (List.range n)) (n : Nat)
    (hd : DataUniform n c.train) (hs : 0 < c.batchSize) (s : TState P S K F) (k : K) (snap : Snap P S K F)
    (h : epochTrain c s = .ok (k, snap)) :
    ∃ bs, Steps c s.epoch bs s.inner snap.inner ∧ (∀ b ∈ bs, ∃ m, 0 < m ∧ m ≤ c.batchSize ∧ DataUniform m b) ∧
      ∃ sizes : Data α → Nat, (∀ b ∈ bs, DataUniform (sizes b) b) ∧
        (bs.flatMap fun b => triples (sizes b) b).Perm (triples n c.train) := by
  obtain ⟨bs, h1, h2, -⟩ := epochTrain_inv h
  have hu := shuffle_uniform hperm c.splitN (c.split s.batchRng).2 hd
  rw [batches_ok hu hs] at h1
  cases h1
  have hsz := cuts_sizes hs hu
  refine ⟨_, h2, fun b hb => ⟨count b, hsz b hb⟩, count, fun b hb => (hsz b hb).2.2, ?_⟩
  rw [cuts_triples hu]
  exact shuffle_triples hperm c.splitN _ hd

example : DataUniform 3 demoCfg.train ∧ 0 < demoCfg.batchSize :=
  ⟨⟨⟨by decide, by decide⟩, fun y hy => by cases hy; exact ⟨by decide, by decide⟩, fun u hu => by simp [demoCfg] at hu⟩,
    by decide⟩

example : (match batches (demoCfg.train.shuffle demoCfg.perm demoCfg.splitN 7) 2 with
    | .ok bs => some (bs.map fun b => (b.X, b.Y))
    | .error _ => none) = some [([[3, 2]], some [[30, 20]]), ([[1]], some [[10]])] := by decide

/-! ## C28 -/

/-- **C28** A parameter marked non-trainable is never changed, neither its value nor its moments nor its counter: not in
the returned optimiser state and not in the last one, for any number of epochs, batches and any gradients, as long as the
user's callback does not write it. -/
theorem C28_frozen (c : Cfg α P S K F) (k : K) (adam : List (OptState P)) (st : S) (rng : K) (t : TState P S K F)
    (hl : c.flags.length = adam.length) (h : run c k adam st rng = .ok t) (j : Nat) (hj : c.flags[j]? = some false)
    (hc : ∀ k e (ps : List P), (c.callback k e ps).2[j]? = ps[j]?) :
    t.best.inner.adam[j]? = adam[j]? ∧ t.inner.adam[j]? = adam[j]? ∧ t.best.inner.adam.length = adam.length := by
  obtain ⟨s, l, hs, hh⟩ := run_inv h
  obtain ⟨-, hi, hb, -⟩ := initial_inv hs
  have hbi : s.best.inner = s.inner := by rw [hb]
  have ha : s.inner.adam = adam := by rw [hi]
  obtain ⟨-, a, b, d⟩ := history_frozen hh (by rw [ha, hl]) (by rw [hbi, ha, hl]) hj hc (by rw [hbi])
  rw [ha] at a b d
  exact ⟨d, b, a⟩

/-- **C28** Each trainable parameter is updated with its own gradient: parameter `i` takes the gradient whose position is
the number of trainable parameters before `i`; frozen parameters consume none. -/
theorem C28_gradient_alignment (update : P → OptState P → OptState P) (flags : List Bool) (adam out : List (OptState P))
    (grads : List P) (hl : flags.length = adam.length) (h : applyGrads update flags adam grads = .ok out) :
    out.length = adam.length ∧ ∀ (i : Nat) (a : OptState P), adam[i]? = some a →
      (flags[i]? = some false → out[i]? = some a) ∧
      (flags[i]? = some true → ∃ d, grads[(flags.take i).count true]? = some d ∧ out[i]? = some (update d a)) :=
  applyGrads_inv hl h

example : (match applyGrads (fun d (a : OptState Int) => { a with params := a.params - d }) [false, true, false, true]
    [⟨1, 0, 0, 0⟩, ⟨2, 0, 0, 0⟩, ⟨3, 0, 0, 0⟩, ⟨4, 0, 0, 0⟩] [10, 20] with
    | .ok o => some (o.map (·.params)) | .error _ => none) = some [1, -8, 3, -16] := by decide

example : demoCfg.flags.length = demoAdam.length ∧ demoCfg.flags[1]? = some false ∧
    ∀ k e (ps : List Int), (demoCfg.callback k e ps).2[1]? = ps[1]? := ⟨rfl, rfl, fun _ _ _ => rfl⟩

/-- **C28, contrast**: the callback can write a frozen parameter (the code hands it all parameters). -/
theorem C28_callback_can_write :
    (match run { demoCfg with callback := fun k _ ps => (k, ps.map (· + 1)) } 0 demoAdam () 0 with
    | .ok t => some (t.inner.adam.map (·.params))
    | .error _ => none) = some [16, 104] := by decide

/-! ## C29 -/

/-- **C29** Training returns the first of all evaluated models (the initial one and the one of each epoch) with the smallest
validation loss; all of optimiser states, model state, model key and epoch number belong to it; the reported loss is the
validation loss of the returned parameters. NaN losses are never selected, except if no epoch was better than a NaN start. -/
theorem C29_best_returned (c : Cfg α P S K F) (ho : FloatOrder c.lt c.le) (k : K) (adam : List (OptState P)) (st : S)
    (rng : K) (t : TState P S K F) (h : run c k adam st rng = .ok t) :
    ∃ (s : TState P S K F) (l : List (Snap P S K F)), initial c k adam st rng = .ok s ∧ History c s l t ∧
      FirstBest c.lt c.le (⟨s.valLoss, 0, ⟨adam, st, (c.split rng).1⟩⟩ :: l) t.best ∧
      (∃ key, batchedValLoss c t.best.inner key t.best.epoch = .ok t.best.loss) ∧
      (t.best.epoch = 0 ∨ ∃ x, l[t.best.epoch]? = some x ∧ x.inner = t.best.inner ∧ x.loss = t.best.loss) := by
  obtain ⟨s, l, hs, hh⟩ := run_inv h
  obtain ⟨he, hi, hb, -, -, hv⟩ := initial_inv hs
  have hb' : s.best = ⟨s.valLoss, 0, ⟨adam, st, (c.split rng).1⟩⟩ := by rw [hb, hi]
  have h0 : FirstBest c.lt c.le [s.best] s.best :=
    ⟨0, rfl, fun x hx => by rw [List.mem_singleton] at hx; subst hx; exact ho.irrefl _, fun j y hj => by omega, .inl rfl⟩
  have hfb := history_best ho hh h0
  refine ⟨s, l, hs, hh, ?_, ?_, ?_⟩
  · rw [hb'] at hfb; simpa using hfb
  · have key : ∀ (s t : TState P S K F) (l : List (Snap P S K F)), History c s l t →
        (∃ key, batchedValLoss c s.best.inner key s.best.epoch = .ok s.best.loss) →
        ∃ key, batchedValLoss c t.best.inner key t.best.epoch = .ok t.best.loss := by
      intro s t l hh
      induction hh with
      | stop _ => exact id
      | @epoch s k snap s' l t _ ht hf _ ih =>
        intro hk
        refine ih ?_
        have hbest : s'.best = if c.lt snap.loss s.best.loss then snap else s.best := by rw [(epochFinish_inv hf).2]
        obtain ⟨bs, -, -, h3, h4, -⟩ := epochTrain_inv ht
        rw [hbest]
        split
        · exact ⟨_, by rw [h3]; exact h4⟩
        · exact hk
    exact key s t l hh ⟨_, by rw [hb]; exact hv⟩
  · obtain ⟨i, h1, -⟩ := hfb
    cases i with
    | zero =>
      left
      have e : s.best = t.best := by simpa using h1
      rw [← e, hb]
    | succ i =>
      right
      have h1' : l[i]? = some t.best := by simpa using h1
      have := (history_epoch hh).2 i _ h1'
      rw [he] at this
      exact ⟨t.best, by rw [this]; simpa using h1', rfl, rfl⟩

/-- **C29** A NaN validation loss of the initial model ends training at once: no epoch runs and the initial model is
returned. -/
theorem C29_nan_start (c : Cfg α P S K F) (k : K) (adam : List (OptState P)) (st : S) (rng : K) (s t : TState P S K F)
    (hs : initial c k adam st rng = .ok s) (hnan : ∀ x, c.lt x s.valLoss = false) (h : run c k adam st rng = .ok t) :
    t.epoch = 0 ∧ t.best.inner.adam = adam := by
  obtain ⟨s', l, hs', hh⟩ := run_inv h
  rw [hs] at hs'
  cases hs'
  obtain ⟨he, hi, hb, -, -, hv⟩ := initial_inv hs
  have hc : epochCond c s = false := by
    unfold epochCond
    have : s.best.loss = s.valLoss := by rw [hb]
    rw [this, hnan]
    simp
  cases hh with
  | stop _ => exact ⟨he, by rw [hb]; simp [hi]⟩
  | epoch hc' _ _ _ => rw [hc] at hc'; exact absurd hc' (by simp)

example : FloatOrder demoCfg.lt demoCfg.le ∧ (∃ t, run demoCfg 0 demoAdam () 0 = .ok t) ∧
    ∀ x, demoCfg.lt x none = false :=
  ⟨demo_order, ⟨_, rfl⟩, fun x => by cases x <;> rfl⟩

/-! ## C30 -/

/-- **C30** The patience counter is the number of consecutive last epochs without improvement (an epoch improves if its
loss is at most the smallest loss before it minus `min_delta`). An epoch is started only while that number is below the
patience; if no other stop condition holds at the end, exactly `patience` epochs passed without improvement. -/
theorem C30_patience (c : Cfg α P S K F) (hp : 0 < c.patience) (k : K) (adam : List (OptState P)) (st : S) (rng : K)
    (t : TState P S K F) (h : run c k adam st rng = .ok t) :
    ∃ (s : TState P S K F) (l : List (Snap P S K F)), initial c k adam st rng = .ok s ∧ History c s l t ∧
      (∀ i, i < l.length → ∃ w, Waited c s.valLoss ((l.take i).map (·.loss)) w ∧ (w : Int) < c.patience) ∧
      ∃ w, Waited c s.valLoss (l.map (·.loss)) w ∧ (w : Int) ≤ c.patience ∧
        ((c.verbose = true → c.interrupted l.length = false) → l.length < c.epochs →
          c.lt c.target t.best.loss = true → (w : Int) = c.patience) := by
  obtain ⟨s, l, hs, hh⟩ := run_inv h
  obtain ⟨hinv, hcf, hmid⟩ := history_inv hh (initial_run hs)
  have hmid' : ∀ i, i < l.length → ∃ w, Waited c s.valLoss ((l.take i).map (·.loss)) w ∧ (w : Int) < c.patience := by
    intro i hi
    obtain ⟨si, hc, -, -, w, hw, hpat⟩ := hmid i hi
    have := (epochCond_true hc).2.2.2
    exact ⟨w, by simpa using hw, by omega⟩
  obtain ⟨hep, hbest, w, hw, hpat⟩ := hinv
  have hw' : Waited c s.valLoss (l.map (·.loss)) w := by simpa using hw
  have hep' : t.epoch = l.length := by simpa using hep
  have hle : (w : Int) ≤ c.patience := by
    rcases List.eq_nil_or_concat l with rfl | ⟨l', x, rfl⟩
    · have := hw'.1; simp at this; omega
    · obtain ⟨w', a, b⟩ := hmid' l'.length (by simp)
      rw [List.concat_eq_append, List.take_left] at a
      rw [List.concat_eq_append, List.map_append, List.map_cons, List.map_nil] at hw'
      have hst := waited_step a x.loss
      cases hi : improvedAt c s.valLoss (l'.map (·.loss)) x.loss
      · have := waited_unique hw' (hst.2 hi); omega
      · have := waited_unique hw' (hst.1 hi); omega
  refine ⟨s, l, hs, hh, hmid', w, hw', hle, fun h1 h2 h3 => ?_⟩
  rcases epochCond_false hcf with ⟨a, b⟩ | a | a | a
  · rw [hep', h1 a] at b; exact absurd b (by simp)
  · omega
  · rw [h3] at a; exact absurd a (by simp)
  · omega

/-- In the run above the losses after the start 25 are 4, 1, 16, 49: the last two bring no improvement. -/
example : Waited demoCfg (some 25) [some 4, some 1, some 16, some 49] 2 ∧ 0 < demoCfg.patience := by
  refine ⟨⟨by decide, ?_, fun _ => ⟨some 1, rfl, rfl⟩⟩, by decide⟩
  intro i v hi hv
  have hl := (List.getElem?_eq_some_iff.1 hv).1
  simp at hi hl
  have : i = 2 ∨ i = 3 := by omega
  rcases this with rfl | rfl
  · simp at hv; subst hv; rfl
  · simp at hv; subst hv; rfl

/-! ## C31 -/

/-- **C31** Training runs at most `epochs` epochs. Before every epoch that is started the epoch number is in budget, the
smallest loss seen so far is above the target, and (in verbose mode) no interrupt was requested. When it ends, one of the
stop conditions holds: it is never the step budget of the model. -/
theorem C31_stops (c : Cfg α P S K F) (k : K) (adam : List (OptState P)) (st : S) (rng : K) (t : TState P S K F)
    (h : run c k adam st rng = .ok t) :
    ∃ (s : TState P S K F) (l : List (Snap P S K F)), initial c k adam st rng = .ok s ∧ History c s l t ∧
      t.epoch = l.length ∧ l.length ≤ c.epochs ∧
      (∀ i, i < l.length → (c.verbose = true → c.interrupted i = false) ∧ i < c.epochs ∧
        c.lt c.target (bestLoss c.lt s.valLoss ((l.take i).map (·.loss))) = true) ∧
      ((c.verbose = true ∧ c.interrupted l.length = true) ∨ l.length = c.epochs ∨
        c.lt c.target (bestLoss c.lt s.valLoss (l.map (·.loss))) = false ∨
        ∃ w, Waited c s.valLoss (l.map (·.loss)) w ∧ c.patience ≤ (w : Int)) := by
  obtain ⟨s, l, hs, hh⟩ := run_inv h
  obtain ⟨hinv, hcf, hmid⟩ := history_inv hh (initial_run hs)
  have hmid' : ∀ i, i < l.length → (c.verbose = true → c.interrupted i = false) ∧ i < c.epochs ∧
        c.lt c.target (bestLoss c.lt s.valLoss ((l.take i).map (·.loss))) = true := by
    intro i hi
    obtain ⟨si, hc, hep, hb, -⟩ := hmid i hi
    have e : si.epoch = i := by rw [hep]; simp; omega
    obtain ⟨a, b, d, -⟩ := epochCond_true hc
    rw [e] at a b
    rw [hb] at d
    exact ⟨a, b, by simpa using d⟩
  obtain ⟨hep, hbest, w, hw, hpat⟩ := hinv
  have hep' : t.epoch = l.length := by simpa using hep
  have hbud : l.length ≤ c.epochs := by
    rcases Nat.eq_zero_or_pos l.length with h0 | h0
    · omega
    · have := (hmid' (l.length - 1) (by omega)).2.1; omega
  refine ⟨s, l, hs, hh, hep', hbud, hmid', ?_⟩
  rcases epochCond_false hcf with ⟨a, b⟩ | a | a | a
  · left; exact ⟨a, by rw [← hep']; exact b⟩
  · right; left; omega
  · right; right; left; rw [hbest] at a; simpa using a
  · right; right; right; exact ⟨w, by simpa using hw, by omega⟩

/-- **C31** With data of consistent length, positive batch sizes, one gradient per trainable parameter and a callback that
keeps the number of parameters, training terminates without an error. -/
theorem C31_total (c : Cfg α P S K F) (n nv : Nat) (hperm : ∀ k n, (c.perm k n).Perm (List.range n))
    (ht : DataUniform n c.train) (hv : DataUniform nv c.val) (hs : 0 < c.batchSize) (hvs : 0 < c.valBatchSize)
    (hg : ∀ e b s k ps, ps.length = c.flags.length → c.flags.count true ≤ (c.grad e b s k ps).1.length)
    (hc : ∀ k e ps, ps.length = c.flags.length → (c.callback k e ps).2.length = ps.length) (k : K) (adam : List (OptState P)) (st : S) (rng : K)
    (hl : c.flags.length = adam.length) : ∃ t, run c k adam st rng = .ok t :=
  run_total hperm ht hv hs hvs hg hc k adam st rng hl

example : (∀ e b s k ps, demoCfg.flags.count true ≤ (demoCfg.grad e b s k ps).1.length) ∧
    (∀ k e ps, (demoCfg.callback k e ps).2.length = ps.length) ∧ 0 < demoCfg.valBatchSize :=
  ⟨fun _ _ _ _ _ => by simp [demoCfg], fun _ _ _ => rfl, by decide⟩

/-- An interrupt requested before epoch 2 ends a verbose run there, and is ignored by a run that is not verbose. -/
example : (match run { demoCfg with verbose := true, interrupted := fun i => decide (2 ≤ i) } 0 demoAdam () 0 with
    | .ok t => some t.epoch | .error _ => none) = some 2 ∧
    (match run { demoCfg with interrupted := fun i => decide (2 ≤ i) } 0 demoAdam () 0 with
    | .ok t => some t.epoch | .error _ => none) = some 4 := by decide

end Verif.Props
