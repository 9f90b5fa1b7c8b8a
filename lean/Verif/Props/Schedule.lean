import Verif.Model.Schedule
import Verif.Spec.Schedule
import Verif.Props.Training
import Verif.Props.Adam

/-! # C107: learning rates that change during a training -/

namespace Verif.Props

open Verif.Batch Verif.BatchSpec Verif.Train Verif.TrainSpec Verif.ScheduleSpec Verif.Adam

variable {α P S K F R : Type}

theorem counted_cons {b : Bool} {fs : List Bool} {a : OptState P} {as : List (OptState P)} {e : Nat} (h : Counted (b :: fs) (a :: as) e) :
    (b = true → a.epoch = e) ∧ Counted fs as e :=
  ⟨fun hb => h 0 a (by simp [hb]) rfl, fun j x h1 h2 => h (j + 1) x (by simpa using h1) (by simpa using h2)⟩

theorem counted_cons_iff {b : Bool} {fs : List Bool} {a : OptState P} {as : List (OptState P)} {e : Nat} :
    Counted (b :: fs) (a :: as) e ↔ (b = true → a.epoch = e) ∧ Counted fs as e := by
  refine ⟨counted_cons, fun ⟨h1, h2⟩ j x hj hx => ?_⟩
  cases j with
  | zero =>
    simp only [List.getElem?_cons_zero, Option.some.injEq] at hj hx
    rw [← hx]; exact h1 hj
  | succ j => exact h2 j x (by simpa using hj) (by simpa using hx)

theorem grads_same (u u' : P → OptState P → OptState P) (e : Nat) (h : ∀ d a, a.epoch = e → u d a = u' d a) (hk : ∀ d a, (u d a).epoch = a.epoch) :
    ∀ (fs : List Bool) (as : List (OptState P)) (ds : List P), Counted fs as e →
      applyGrads u fs as ds = applyGrads u' fs as ds ∧ ∀ r, applyGrads u fs as ds = .ok r → Counted fs r e := by
  intro fs
  induction fs with
  | nil => intro as ds _; exact ⟨by cases as <;> rfl, fun r _ j a hj => by simp at hj⟩
  | cons b fs ih =>
    intro as ds hc
    cases as with
    | nil =>
      refine ⟨by cases b <;> rfl, fun r hr j a _ ha => ?_⟩
      have : r = [] := by cases b <;> cases hr <;> rfl
      rw [this] at ha
      simp at ha
    | cons a as =>
      obtain ⟨h1, h2⟩ := counted_cons hc
      cases b with
      | true =>
        cases ds with
        | nil => exact ⟨rfl, fun r hr => by cases hr⟩
        | cons d ds =>
          obtain ⟨i1, i2⟩ := ih as ds h2
          simp only [applyGrads, ← i1, ← h d a (h1 rfl)]
          refine ⟨trivial, fun r hr => ?_⟩
          cases hq : applyGrads u fs as ds with
          | error x => rw [hq] at hr; cases hr
          | ok q =>
            rw [hq] at hr
            cases hr
            exact counted_cons_iff.2 ⟨fun _ => (hk d a).trans (h1 rfl), i2 q hq⟩
      | false =>
        obtain ⟨i1, i2⟩ := ih as ds h2
        simp only [applyGrads, ← i1]
        refine ⟨trivial, fun r hr => ?_⟩
        cases hq : applyGrads u fs as ds with
        | error x => rw [hq] at hr; cases hr
        | ok q =>
          rw [hq] at hr
          cases hr
          exact counted_cons_iff.2 ⟨fun hb => Bool.noConfusion hb, i2 q hq⟩

/-- Two updates that do the same to parameters with counter `e` do the same in an epoch in which all counters are `e`; afterwards all are `e+1`. -/
theorem epoch_same (c : Cfg α P S K F) (u' : P → OptState P → OptState P) (e : Nat) (h : ∀ d a, a.epoch = e → c.update d a = u' d a)
    (hk : ∀ d a, (c.update d a).epoch = a.epoch) (s : TState P S K F) (hc : Counted c.flags s.inner.adam e) :
    epochBody c s = epochBody { c with update := u' } s ∧ ∀ s', epochBody c s = .ok s' → Counted c.flags s'.inner.adam (e + 1) := by
  have hfold : ∀ (bs : List (Data α)) (i : Inner P S K), Counted c.flags i.adam e →
      bs.foldlM (trainStep c s.epoch) i = bs.foldlM (trainStep { c with update := u' } s.epoch) i ∧
      ∀ r, bs.foldlM (trainStep c s.epoch) i = .ok r → Counted c.flags r.adam e := by
    intro bs
    induction bs with
    | nil =>
      intro i hi
      refine ⟨rfl, fun r hr => ?_⟩
      simp only [List.foldlM_nil, pure, Except.pure, Except.ok.injEq] at hr
      exact hr ▸ hi
    | cons b bs ih =>
      intro i hi
      obtain ⟨g1, g2⟩ := grads_same c.update u' e h hk c.flags i.adam (c.grad s.epoch b i.mstate (c.split i.mrng).2 (i.adam.map (·.params))).1 hi
      have hs : trainStep c s.epoch i b = trainStep { c with update := u' } s.epoch i b := by
        simp only [trainStep, g1]
      rw [List.foldlM_cons, List.foldlM_cons, ← hs]
      cases hq : trainStep c s.epoch i b with
      | error x => exact ⟨rfl, fun r hr => by cases hr⟩
      | ok i' =>
        simp only [bind, Except.bind]
        refine ih i' ?_
        simp only [trainStep, bind, Except.bind, pure, Except.pure] at hq
        cases hg : applyGrads c.update c.flags i.adam (c.grad s.epoch b i.mstate (c.split i.mrng).2 (i.adam.map (·.params))).1 with
        | error x => rw [hg] at hq; cases hq
        | ok q => rw [hg] at hq; cases hq; exact g2 q hg
  have hval : ∀ i r k, batchedValLoss { c with update := u' } i r k = batchedValLoss c i r k := fun _ _ _ => rfl
  have hfin : ∀ k x, epochFinish { c with update := u' } s k x = epochFinish c s k x := fun _ _ => rfl
  have htrain : epochTrain { c with update := u' } s = epochTrain c s := by
    simp only [epochTrain, hval]
    cases batches (c.train.shuffle c.perm c.splitN (c.split s.batchRng).2) c.batchSize with
    | error x => rfl
    | ok bs =>
      simp only [bind, Except.bind]
      rw [(hfold bs s.inner hc).1]
  refine ⟨by simp only [epochBody, htrain, hfin], fun s' hs' => ?_⟩
  simp only [epochBody, bind, Except.bind] at hs'
  cases ht : epochTrain c s with
  | error x => rw [ht] at hs'; cases hs'
  | ok r =>
    obtain ⟨k, snap⟩ := r
    rw [ht] at hs'
    obtain ⟨bs, hb, hst, -⟩ := epochTrain_inv ht
    have hsn : Counted c.flags snap.inner.adam e := by
      have := ht
      simp only [epochTrain, hb, bind, Except.bind] at this
      cases hq : bs.foldlM (trainStep c s.epoch) s.inner with
      | error x => rw [hq] at this; cases this
      | ok i =>
        rw [hq] at this
        simp only at this
        cases hv : batchedValLoss c i (c.split (c.split s.batchRng).1).2 s.epoch with
        | error x => rw [hv] at this; cases this
        | ok v =>
          rw [hv] at this
          cases this
          exact (hfold bs s.inner hc).2 i hq
    rw [(epochFinish_inv hs').2]
    intro j a hj ha
    simp only [List.getElem?_zipWith, hj] at ha
    cases hp : (c.callback k s.epoch (snap.inner.adam.map (·.params))).2[j]? with
    | none => simp [hp] at ha
    | some p =>
      cases hx : snap.inner.adam[j]? with
      | none => simp [hp, hx] at ha
      | some x =>
        simp only [hp, hx, Option.some.injEq] at ha
        rw [← ha]
        simp [hsn j x hj hx]

/-- **C107** In a training with the real optimiser epoch `e` uses the learning rate `lr e`: it is an epoch with this fixed learning rate. If the parameters have been trained for `e₀` epochs before,
the learning rates continue with `lr e₀`. -/
theorem C107_epochs (c : Cfg α P S K F) (u : R → P → OptState P → OptState P) (lr : Nat → R) (hu : ∀ d a, c.update d a = u (lr a.epoch) d a)
    (hk : ∀ r d a, (u r d a).epoch = a.epoch) (e₀ : Nat) (k : K) (adam : List (OptState P)) (st : S) (rng : K) (hc : Counted c.flags adam e₀)
    (t : TState P S K F) (h : run c k adam st rng = .ok t) : ∃ s, initial c k adam st rng = .ok s ∧ ByEpochs c u lr e₀ s t := by
  have hk' : ∀ d a, (c.update d a).epoch = a.epoch := fun d a => by rw [hu]; exact hk _ d a
  obtain ⟨s, l, hi, hh⟩ := run_inv h
  refine ⟨s, hi, ?_⟩
  have hcs : Counted c.flags s.inner.adam e₀ := by rw [(initial_inv hi).2.1]; exact hc
  clear hi hc h
  induction hh generalizing e₀ with
  | stop h => exact .stop h
  | @epoch s k snap s' l t h1 h2 h3 h4 ih =>
    have hb : epochBody c s = .ok s' := by simp only [epochBody, h2, bind, Except.bind]; exact h3
    obtain ⟨e1, e2⟩ := epoch_same c (u (lr e₀)) e₀ (fun d a ha => by rw [hu, ha]) hk' s hcs
    exact .epoch h1 (e1 ▸ hb) (ih (e₀ + 1) (e2 s' hb))

/-- **C107** Only the learning rates of the epochs that are asked for matter. -/
theorem C107_agree (c : Cfg α P S K F) (u : R → P → OptState P → OptState P) (lr lr' : Nat → R) (hk : ∀ r d a, (u r d a).epoch = a.epoch) (e₀ : Nat) (k : K)
    (adam : List (OptState P)) (st : S) (rng : K) (hc : Counted c.flags adam e₀) (hlr : ∀ e, e < c.epochs → lr (e₀ + e) = lr' (e₀ + e)) :
    run { c with update := fun d a => u (lr a.epoch) d a } k adam st rng = run { c with update := fun d a => u (lr' a.epoch) d a } k adam st rng := by
  have hi : initial { c with update := fun d a => u (lr a.epoch) d a } k adam st rng = initial { c with update := fun d a => u (lr' a.epoch) d a } k adam st rng := rfl
  unfold run
  rw [hi]
  cases hs : initial { c with update := fun d a => u (lr' a.epoch) d a } k adam st rng with
  | error x => rfl
  | ok s =>
    simp only [bind, Except.bind]
    have hcs : Counted c.flags s.inner.adam e₀ := by rw [(initial_inv hs).2.1]; exact hc
    have : ∀ (n : Nat) (s : TState P S K F) (e₀ : Nat), Counted c.flags s.inner.adam e₀ → (∀ e, e < n → lr (e₀ + e) = lr' (e₀ + e)) →
        loop { c with update := fun d a => u (lr a.epoch) d a } n s = loop { c with update := fun d a => u (lr' a.epoch) d a } n s := by
      intro n
      induction n with
      | zero => intro s e₀ _ _; rfl
      | succ n ih =>
        intro s e₀ hcs hlr
        obtain ⟨e1, e2⟩ := epoch_same { c with update := fun d a => u (lr a.epoch) d a } (fun d a => u (lr' a.epoch) d a) e₀
          (fun d a ha => by simp only [ha, show lr e₀ = lr' e₀ from hlr 0 (by omega)]) (fun d a => hk _ d a) s hcs
        have hcond : epochCond { c with update := fun d a => u (lr a.epoch) d a } s = epochCond { c with update := fun d a => u (lr' a.epoch) d a } s := rfl
        simp only [loop, hcond]
        cases epochCond { c with update := fun d a => u (lr' a.epoch) d a } s with
        | false => rfl
        | true =>
          simp only [if_true]
          rw [← show epochBody { c with update := fun d a => u (lr a.epoch) d a } s = epochBody { c with update := fun d a => u (lr' a.epoch) d a } s from e1]
          cases hb : epochBody { c with update := fun d a => u (lr a.epoch) d a } s with
          | error x => rfl
          | ok s' =>
            simp only [bind, Except.bind]
            refine ih s' (e₀ + 1) (e2 s' hb) fun e he => ?_
            have := hlr (e + 1) (by omega)
            rwa [show e₀ + 1 + e = e₀ + (e + 1) by omega]
    exact this c.epochs s e₀ hcs hlr

/-- **C107** The update of the real optimiser is of the kind that `C107_epochs` and `C107_agree` are about. -/
theorem C107_adam {ι : Type} (lr : Nat → ℝ) (b1 b2 eps clip : ℝ) :
    (∀ (d : ι → ℝ) a, Adam.update lr b1 b2 eps clip d a = Adam.update (fun _ => lr a.epoch) b1 b2 eps clip d a) ∧
    ∀ (r : ℝ) (d : ι → ℝ) a, (Adam.update (fun _ => r) b1 b2 eps clip d a).epoch = a.epoch :=
  ⟨fun _ _ => rfl, fun _ _ _ => rfl⟩

/-- **C107** A number as the learning rate means the same as the function that always gives this number; nothing but numbers and functions is accepted. -/
theorem C107_number (f32 : R → R) (x : R) :
    Schedule.make f32 (.number x) = Schedule.make f32 (.function fun _ => x) ∧ (∃ f, Schedule.make f32 (.number x) = .ok f ∧ ∀ e, f e = f32 x) ∧
    Schedule.make f32 .other = .error .typeError :=
  ⟨rfl, ⟨_, rfl, fun _ => rfl⟩, rfl⟩

/-- **C107** With a function `f` as the learning rate, epoch `e` of a training uses `f e`, rounded to single precision; with a number every epoch uses this number. -/
theorem C107_given (f32 : R → R) (rate : Schedule.Rate R) (f : Nat → R) (hr : rate = .function f ∨ ∃ x, rate = .number x ∧ f = fun _ => x) (c : Cfg α P S K F)
    (u : R → P → OptState P → OptState P) (hk : ∀ r d a, (u r d a).epoch = a.epoch) (e₀ : Nat) (k : K) (adam : List (OptState P)) (st : S) (rng : K)
    (hc : Counted c.flags adam e₀) : ∃ lr, Schedule.make f32 rate = .ok lr ∧
      ∀ t, run { c with update := fun d a => u (lr a.epoch) d a } k adam st rng = .ok t →
        ∃ s, initial c k adam st rng = .ok s ∧ ByEpochs { c with update := fun d a => u (lr a.epoch) d a } u (fun e => f32 (f e)) e₀ s t := by
  refine ⟨fun e => f32 (f e), ?_, fun t ht => ?_⟩
  · rcases hr with rfl | ⟨x, rfl, rfl⟩ <;> rfl
  · exact C107_epochs { c with update := fun d a => u (f32 (f a.epoch)) d a } u (fun e => f32 (f e)) (fun _ _ => rfl) hk e₀ k adam st rng hc t ht

/-! ### The complex optimiser -/

theorem grads_tick (u u' : P → OptState P → OptState P) (e : Nat) (h : ∀ d a, a.epoch = e → u d a = u' d a) (hk : ∀ d a, (u d a).epoch = a.epoch + 1) :
    ∀ (fs : List Bool) (as : List (OptState P)) (ds : List P), Counted fs as e →
      applyGrads u fs as ds = applyGrads u' fs as ds ∧ ∀ r, applyGrads u fs as ds = .ok r → Counted fs r (e + 1) := by
  intro fs
  induction fs with
  | nil => intro as ds _; exact ⟨by cases as <;> rfl, fun r _ j a hj => by simp at hj⟩
  | cons b fs ih =>
    intro as ds hc
    cases as with
    | nil =>
      refine ⟨by cases b <;> rfl, fun r hr j a _ ha => ?_⟩
      have : r = [] := by cases b <;> cases hr <;> rfl
      rw [this] at ha
      simp at ha
    | cons a as =>
      obtain ⟨h1, h2⟩ := counted_cons hc
      cases b with
      | true =>
        cases ds with
        | nil => exact ⟨rfl, fun r hr => by cases hr⟩
        | cons d ds =>
          obtain ⟨i1, i2⟩ := ih as ds h2
          simp only [applyGrads, ← i1, ← h d a (h1 rfl)]
          refine ⟨trivial, fun r hr => ?_⟩
          cases hq : applyGrads u fs as ds with
          | error x => rw [hq] at hr; cases hr
          | ok q =>
            rw [hq] at hr
            cases hr
            exact counted_cons_iff.2 ⟨fun _ => by rw [hk d a, h1 rfl], i2 q hq⟩
      | false =>
        obtain ⟨i1, i2⟩ := ih as ds h2
        simp only [applyGrads, ← i1]
        refine ⟨trivial, fun r hr => ?_⟩
        cases hq : applyGrads u fs as ds with
        | error x => rw [hq] at hr; cases hr
        | ok q =>
          rw [hq] at hr
          cases hr
          exact counted_cons_iff.2 ⟨fun hb => Bool.noConfusion hb, i2 q hq⟩

theorem fold_tick (c : Cfg α P S K F) (u : R → P → OptState P → OptState P) (lr : Nat → R) (hu : ∀ d a, c.update d a = u (lr a.epoch) d a)
    (hk : ∀ r d a, (u r d a).epoch = a.epoch + 1) (n : Nat) : ∀ (bs : List (Data α)) (e : Nat) (i j : Inner P S K), Counted c.flags i.adam e →
      bs.foldlM (trainStep c n) i = .ok j → ByBatches c u lr n e bs i j ∧ Counted c.flags j.adam (e + bs.length) := by
  intro bs
  induction bs with
  | nil =>
    intro e i j hi hj
    simp only [List.foldlM_nil, pure, Except.pure, Except.ok.injEq] at hj
    exact hj ▸ ⟨.done, hi⟩
  | cons b bs ih =>
    intro e i j hi hj
    obtain ⟨g1, g2⟩ := grads_tick c.update (u (lr e)) e (fun d a ha => by rw [hu, ha]) (fun d a => by rw [hu]; exact hk _ d a) c.flags i.adam
      (c.grad n b i.mstate (c.split i.mrng).2 (i.adam.map (·.params))).1 hi
    have hs : trainStep c n i b = trainStep { c with update := u (lr e) } n i b := by
      simp only [trainStep, g1]
    rw [List.foldlM_cons] at hj
    cases hq : trainStep c n i b with
    | error x => rw [hq] at hj; cases hj
    | ok i' =>
      rw [hq] at hj
      have hi' : Counted c.flags i'.adam (e + 1) := by
        have hq' := hq
        simp only [trainStep, bind, Except.bind, pure, Except.pure] at hq'
        cases hg : applyGrads c.update c.flags i.adam (c.grad n b i.mstate (c.split i.mrng).2 (i.adam.map (·.params))).1 with
        | error x => rw [hg] at hq'; cases hq'
        | ok q => rw [hg] at hq'; cases hq'; exact g2 q hg
      obtain ⟨r1, r2⟩ := ih (e + 1) i' j hi' hj
      refine ⟨.batch (hs ▸ hq) r1, ?_⟩
      rw [List.length_cons, show e + (bs.length + 1) = e + 1 + bs.length by omega]
      exact r2

/-- **C107** With the complex optimiser the learning rates go from batch to batch: the batches of the first epoch use `lr e₀`, `lr (e₀+1)`, …, one is skipped at the end of the epoch, and the next
epoch continues behind it. So batch `b` of epoch `e` uses `lr (e₀ + e (n+1) + b)` where an epoch has `n` batches. -/
theorem C107_complex_batches (c : Cfg α P S K F) (u : R → P → OptState P → OptState P) (lr : Nat → R) (hu : ∀ d a, c.update d a = u (lr a.epoch) d a)
    (hk : ∀ r d a, (u r d a).epoch = a.epoch + 1) (e₀ : Nat) (k : K) (adam : List (OptState P)) (st : S) (rng : K) (hc : Counted c.flags adam e₀)
    (t : TState P S K F) (h : run c k adam st rng = .ok t) : ∃ s, initial c k adam st rng = .ok s ∧ Ticking c u lr e₀ s t := by
  obtain ⟨s, l, hi, hh⟩ := run_inv h
  refine ⟨s, hi, ?_⟩
  have hcs : Counted c.flags s.inner.adam e₀ := by rw [(initial_inv hi).2.1]; exact hc
  clear hi hc h
  induction hh generalizing e₀ with
  | stop h => exact .stop h
  | @epoch s k snap s' l t h1 h2 h3 h4 ih =>
    obtain ⟨bs, hb, hst, -⟩ := epochTrain_inv h2
    have hf : bs.foldlM (trainStep c s.epoch) s.inner = .ok snap.inner := by
      have := h2
      simp only [epochTrain, hb, bind, Except.bind] at this
      cases hq : bs.foldlM (trainStep c s.epoch) s.inner with
      | error x => rw [hq] at this; cases this
      | ok i =>
        rw [hq] at this
        simp only at this
        cases hv : batchedValLoss c i (c.split (c.split s.batchRng).1).2 s.epoch with
        | error x => rw [hv] at this; cases this
        | ok v => rw [hv] at this; cases this; rfl
    obtain ⟨r1, r2⟩ := fold_tick c u lr hu hk s.epoch bs e₀ s.inner snap.inner hcs hf
    refine .epoch h1 hb r1 h2 h3 (ih (e₀ + bs.length + 1) ?_)
    rw [(epochFinish_inv h3).2]
    intro j a hj ha
    simp only [List.getElem?_zipWith, hj] at ha
    cases hp : (c.callback k s.epoch (snap.inner.adam.map (·.params))).2[j]? with
    | none => simp [hp] at ha
    | some p =>
      cases hx : snap.inner.adam[j]? with
      | none => simp [hp, hx] at ha
      | some x =>
        simp only [hp, hx, Option.some.injEq] at ha
        rw [← ha]
        simp [r2 j x hj hx]

/-- **C107** The updates of the complex optimiser, for real and for complex parameters, are of the kind that `C107_complex_batches` is about. -/
theorem C107_complex_adam {ι : Type} (lr : Nat → ℝ) (b1 b2 eps clip : ℝ) :
    ((∀ (d : ι → ℝ) a, updateRinC lr b1 b2 eps clip d a = updateRinC (fun _ => lr a.epoch) b1 b2 eps clip d a) ∧
      ∀ (r : ℝ) (d : ι → ℝ) a, (updateRinC (fun _ => r) b1 b2 eps clip d a).epoch = a.epoch + 1) ∧
    (∀ (d : ι → ℂ) a, updateC lr b1 b2 eps clip d a = updateC (fun _ => lr a.epoch) b1 b2 eps clip d a) ∧
      ∀ (r : ℝ) (d : ι → ℂ) a, (updateC (fun _ => r) b1 b2 eps clip d a).epoch = a.epoch + 1 :=
  ⟨⟨fun _ _ => rfl, fun _ _ _ => rfl⟩, fun _ _ => rfl, fun _ _ _ => rfl⟩

/-- One parameter, two batches of one sample, one epoch, the gradient always 1, with the given update. -/
def rateCfg (u : (Unit → ℝ) → OptState (Unit → ℝ) → OptState (Unit → ℝ)) : Cfg Nat (Unit → ℝ) Unit Nat Bool where
  perm _ n := List.range n
  splitN _ n := List.range n
  split k := (k + 1, k + 7)
  grad _ _ s _ _ := ([fun _ => 1], s)
  valLoss _ _ _ _ _ := true
  update := u
  callback k _ ps := (k, ps)
  verbose := false
  interrupted _ := false
  flags := [true]
  train := ⟨[[1, 2]], none, none⟩
  val := ⟨[[1, 2]], none, none⟩
  batchSize := 1
  valBatchSize := 2
  epochs := 1
  target := false
  patience := 5
  minDelta := false
  lt a b := !a && b
  le a b := !a || b
  sub a _ := a
  add a b := a || b
  divNat a _ := a
  zero := false

/-- The learning rate is 1 in the first epoch and 0 afterwards. -/
def firstOnly : Nat → ℝ
  | 0 => 1
  | _ + 1 => 0

/-- The parameter of the run above, at 0. -/
def rateAdam : List (OptState (Unit → ℝ)) := [Adam.init fun _ => 0]

/-- **C107 (refuted)** The learning rate in the epoch `e` is `lr e` with the complex optimiser, too: this one takes the next learning rate with every batch. With two batches per epoch and learning rates
1, 0, … a training of one epoch moves the parameter by 1, as with the learning rates 1, 0 in its two batches; it would be moved by 2 with the rate of its epoch. -/
theorem C107_complex_refuted : ∃ t, run (rateCfg (updateRinC firstOnly 0 0 0 1)) 0 rateAdam () 0 = .ok t ∧
    ¬ ∃ s, initial (rateCfg (updateRinC firstOnly 0 0 0 1)) 0 rateAdam () 0 = .ok s ∧
      ByEpochs (rateCfg (updateRinC firstOnly 0 0 0 1)) (fun r => updateRinC (fun _ => r) 0 0 0 1) firstOnly 0 s t := by
  obtain ⟨t, ht, htp⟩ : ∃ t, run (rateCfg (updateRinC firstOnly 0 0 0 1)) 0 rateAdam () 0 = .ok t ∧
      t.inner.adam.map (·.params) = [(updateRinC firstOnly 0 0 0 1 (fun _ => 1) (updateRinC firstOnly 0 0 0 1 (fun _ => 1) (Adam.init fun _ => 0))).params] := ⟨_, rfl, rfl⟩
  refine ⟨t, ht, ?_⟩
  rintro ⟨s', hs', hb⟩
  obtain ⟨s₁, h1, h2, h3⟩ : ∃ s₁, epochBody { rateCfg (updateRinC firstOnly 0 0 0 1) with update := updateRinC (fun _ => firstOnly 0) 0 0 0 1 } s' = .ok s₁ ∧
      s₁.inner.adam.map (·.params) = [(updateRinC (fun _ => firstOnly 0) 0 0 0 1 (fun _ => 1)
        (updateRinC (fun _ => firstOnly 0) 0 0 0 1 (fun _ => 1) (Adam.init fun _ => 0))).params] ∧
      epochCond (rateCfg (updateRinC firstOnly 0 0 0 1)) s₁ = false := by
    cases hs'
    exact ⟨_, rfl, rfl, rfl⟩
  have hst : s₁ = t := by
    cases hb with
    | stop h =>
      cases hs'
      cases h
    | epoch _ h4 h5 =>
      rw [h1] at h4
      cases h4
      cases h5 with
      | stop _ => rfl
      | epoch h6 _ _ => rw [h3] at h6; cases h6
  rw [hst, htp] at h2
  have h := congrFun (List.cons.inj h2).1 ()
  norm_num [updateRinC, Adam.update, Adam.init, firstOnly, clipR] at h

/-- The complex optimiser in this training meets the hypotheses of `C107_complex_batches`. -/
example : ∃ t s, run (rateCfg (updateRinC firstOnly 0 0 0 1)) 0 rateAdam () 0 = .ok t ∧
    Ticking (rateCfg (updateRinC firstOnly 0 0 0 1)) (fun r => updateRinC (fun _ => r) 0 0 0 1) firstOnly 0 s t := by
  obtain ⟨t, ht⟩ : ∃ t, run (rateCfg (updateRinC firstOnly 0 0 0 1)) 0 rateAdam () 0 = .ok t := ⟨_, rfl⟩
  obtain ⟨s, -, hs⟩ := C107_complex_batches (rateCfg (updateRinC firstOnly 0 0 0 1)) (fun r => updateRinC (fun _ => r) 0 0 0 1) firstOnly (fun _ _ => rfl)
    (fun _ _ _ => rfl) 0 0 rateAdam () 0 (fun j a _ ha => by
      match j, ha with
      | 0, ha => cases ha; rfl
      | j + 1, ha => simp [rateAdam] at ha) t ht
  exact ⟨t, s, ht, hs⟩

/-- The real optimiser in the same training: the first learning rate in both batches, so `C107_epochs` applies. -/
example : ∃ t, run (rateCfg (Adam.update firstOnly 0 0 0 1)) 0 rateAdam () 0 = .ok t ∧ Counted (rateCfg (Adam.update firstOnly 0 0 0 1)).flags rateAdam 0 ∧
    t.inner.adam.map (fun a => a.params ()) = [-2] := by
  obtain ⟨t, ht, htp⟩ : ∃ t, run (rateCfg (Adam.update firstOnly 0 0 0 1)) 0 rateAdam () 0 = .ok t ∧
      t.inner.adam.map (fun a => a.params ()) = [(Adam.update firstOnly 0 0 0 1 (fun _ => 1) (Adam.update firstOnly 0 0 0 1 (fun _ => 1) (Adam.init fun _ => 0))).params ()] :=
    ⟨_, rfl, rfl⟩
  refine ⟨t, ht, ?_, ?_⟩
  · intro j a _ ha
    match j, ha with
    | 0, ha => cases ha; rfl
    | j + 1, ha => simp [rateAdam] at ha
  · rw [htp]
    simp [Adam.update, Adam.init, firstOnly, clipR]
    norm_num

end Verif.Props
