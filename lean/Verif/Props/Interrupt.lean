import Verif.Model.Interrupt
import Verif.Props.Training

/-! # Properties of interrupted training (C92) -/

namespace Verif.Props

open Verif.Train Verif.Interrupt

variable {α P S K F : Type}

/-! ## What the signals do -/

theorem signals_off (b : Bool) : ∀ n, signals n (some ⟨b, false⟩) = (some ⟨b || decide (0 < n), false⟩, .noted)
  | 0 => by simp [signals]
  | n + 1 => by simp [signals, signal, signals_off true n]

theorem signals_new : ∀ n, signals n (some ⟨false, true⟩) = if n ≤ 1 then (some ⟨decide (0 < n), true⟩, .noted) else (some ⟨true, true⟩, .raised)
  | 0 => rfl
  | 1 => rfl
  | n + 2 => by simp [signals, signal]

theorem signals_nobody : ∀ n, signals n none = (none, if n = 0 then .noted else .default)
  | 0 => rfl
  | n + 1 => by simp [signals, signal]

/-- The signals that have arrived when the condition of the loop is evaluated before epoch `i`. -/
def arrived (tracing : Nat) (arrive : Nat → Nat) (i : Nat) : Nat := tracing + ((List.range (i + 1)).map arrive).sum

theorem arrived_zero (tracing : Nat) (arrive : Nat → Nat) : arrived tracing arrive 0 = tracing + arrive 0 := by simp [arrived]

theorem arrived_succ (tracing : Nat) (arrive : Nat → Nat) (i : Nat) : arrived tracing arrive (i + 1) = arrived tracing arrive i + arrive (i + 1) := by
  simp only [arrived, List.range_succ (n := i + 1), List.map_append, List.sum_append, List.map_cons, List.map_nil, List.sum_cons, List.sum_nil]
  omega

theorem epochBody_epoch {c : Cfg α P S K F} {s s' : TState P S K F} (h : epochBody c s = .ok s') : s'.epoch = s.epoch + 1 := by
  unfold epochBody at h
  cases h1 : epochTrain c s with
  | error e => rw [h1] at h; cases h
  | ok r =>
    rw [h1] at h
    change epochFinish c s r.1 r.2 = .ok s' at h
    unfold epochFinish at h
    simp only [bind, Except.bind, pure, Except.pure, throw, throwThe, MonadExceptOf.throw] at h
    split at h
    · cases h
    · cases h; rfl

/-- The same training with interrupts as they are noticed. -/
def noticing (c : Cfg α P S K F) (I : Nat → Bool) : Cfg α P S K F := { c with interrupted := I }

theorem loop_refines (c : Cfg α P S K F) (hv : c.verbose = true) (tracing : Nat) (arrive : Nat → Nat) : ∀ (n : Nat) (s : TState P S K F) (b : Bool),
    (b || decide (0 < arrive s.epoch)) = decide (0 < arrived tracing arrive s.epoch) →
    ∃ b', Interrupt.loop c arrive n s (some ⟨b, false⟩) = (some ⟨b', false⟩, .finished (Train.loop (noticing c fun i => decide (0 < arrived tracing arrive i)) n s))
  | 0, _, b, _ => ⟨b, rfl⟩
  | n + 1, s, b, hb => by
    have hc : Interrupt.cond c (decide (0 < arrived tracing arrive s.epoch)) s = epochCond (noticing c fun i => decide (0 < arrived tracing arrive i)) s := rfl
    have hbody : epochBody (noticing c fun i => decide (0 < arrived tracing arrive i)) s = epochBody c s := rfl
    simp only [Interrupt.loop, signals_off, asked, hb, hc, Train.loop, hbody]
    cases h : epochCond (noticing c fun i => decide (0 < arrived tracing arrive i)) s with
    | false => exact ⟨_, rfl⟩
    | true =>
      simp only [if_true]
      have h0 : ¬ 0 < arrived tracing arrive s.epoch := by
        intro h'
        rw [← hc] at h
        simp [Interrupt.cond, hv, h'] at h
      cases hs : epochBody c s with
      | error e => exact ⟨_, rfl⟩
      | ok s' =>
        have he := epochBody_epoch hs
        refine loop_refines c hv tracing arrive n s' _ ?_
        rw [he, arrived_succ]
        have : arrived tracing arrive s.epoch = 0 := by omega
        simp [this]

theorem initial_epoch {c : Cfg α P S K F} {k : K} {adam : List (OptState P)} {st : S} {rng : K} {s : TState P S K F} (h : initial c k adam st rng = .ok s) : s.epoch = 0 := by
  unfold initial at h
  simp only [bind, Except.bind] at h
  split at h
  · cases h
  · cases h; rfl

theorem train_verbose (c : Cfg α P S K F) (hv : c.verbose = true) (tracing : Nat) (ht : tracing ≤ 1) (arrive : Nat → Nat) (k : K) (adam : List (OptState P)) (st : S) (rng : K) (p : Proc) :
    ∃ q : Killer, Interrupt.train c tracing arrive k adam st rng p = (some q, .finished (run (noticing c fun i => decide (0 < arrived tracing arrive i)) k adam st rng)) ∧
      ∀ t, run (noticing c fun i => decide (0 < arrived tracing arrive i)) k adam st rng = .ok t → q.active = false := by
  have hinit : initial (noticing c fun i => decide (0 < arrived tracing arrive i)) k adam st rng = initial c k adam st rng := rfl
  simp only [Interrupt.train, make, hv, if_true, signals_new, if_pos ht, run, hinit]
  cases hs : initial c k adam st rng with
  | error e => exact ⟨_, rfl, fun t h => by cases h⟩
  | ok s =>
    have he := initial_epoch hs
    obtain ⟨b', hl⟩ := loop_refines c hv tracing arrive c.epochs s (decide (0 < tracing)) (by
      rw [he, arrived_zero]
      simp only [Nat.add_pos_iff_pos_or_pos, Bool.decide_or])
    simp only [switchOff, if_true, Option.map_some]
    exact ⟨_, hl, fun _ _ => rfl⟩

theorem loop_limit (c : Cfg α P S K F) (hv : c.verbose = true) (I : Nat → Bool) (e : Nat) (h0 : ∀ i < e, I i = false) (h1 : I e = true) : ∀ (n m : Nat) (s : TState P S K F),
    s.epoch ≤ e → c.epochs ≤ s.epoch + n → min c.epochs e ≤ s.epoch + m →
    Train.loop (noticing c I) n s = Train.loop { c with interrupted := fun _ => false, epochs := min c.epochs e } m s := by
  have hcond : ∀ s : TState P S K F, s.epoch ≤ e → epochCond (noticing c I) s = epochCond { c with interrupted := fun _ => false, epochs := min c.epochs e } s := by
    intro s hs
    rcases Nat.lt_or_eq_of_le hs with h | h
    · have : decide (s.epoch < c.epochs) = decide (s.epoch < min c.epochs e) := by
        apply decide_eq_decide.2
        omega
      simp only [epochCond, noticing, h0 _ h, this, hv]
    · have : ¬ s.epoch < min c.epochs e := by omega
      simp [epochCond, noticing, hv, this]
      rw [h, h1]
      simp
  have hover : ∀ s : TState P S K F, min c.epochs e ≤ s.epoch → epochCond { c with interrupted := fun _ => false, epochs := min c.epochs e } s = false := by
    intro s hs
    have : ¬ s.epoch < min c.epochs e := by omega
    simp only [epochCond, this, decide_false, Bool.and_false, Bool.false_and]
  intro n
  induction n with
  | zero =>
    intro m s hs hn hm
    cases m with
    | zero => rfl
    | succ m =>
      simp only [Train.loop]
      rw [hover s (by omega)]
      rfl
  | succ n ih =>
    intro m s hs hn hm
    cases m with
    | zero =>
      simp only [Train.loop]
      rw [hcond s hs, hover s (by omega)]
      rfl
    | succ m =>
      simp only [Train.loop]
      rw [hcond s hs]
      cases hc : epochCond { c with interrupted := fun _ => false, epochs := min c.epochs e } s with
      | false => rfl
      | true =>
        simp only [if_true]
        have hlt : s.epoch < min c.epochs e := by
          by_contra h
          rw [hover s (by omega)] at hc
          cases hc
        change (epochBody c s).bind _ = (epochBody c s).bind _
        cases hb : epochBody c s with
        | error _ => rfl
        | ok s' =>
          have he := epochBody_epoch hb
          exact ih m s' (by omega) (by omega) (by omega)

/-- **C92 (an interrupt ends the training after the epoch).** If the first signal of a verbose training arrives before the condition for epoch `e` is evaluated (`e = 0`: while the training is being compiled or before the
first epoch), the training ends as if only `e` epochs had been asked for: the epochs before it are complete, the best model of them is returned, and no further epoch is begun. How many signals follow does not matter. -/
theorem C92_stops (c : Cfg α P S K F) (hv : c.verbose = true) (tracing : Nat) (ht : tracing ≤ 1) (arrive : Nat → Nat) (e : Nat) (h0 : ∀ i < e, arrived tracing arrive i = 0) (h1 : 0 < arrived tracing arrive e)
    (k : K) (adam : List (OptState P)) (st : S) (rng : K) (p : Proc) :
    (Interrupt.train c tracing arrive k adam st rng p).2 = .finished (run { c with interrupted := fun _ => false, epochs := min c.epochs e } k adam st rng) := by
  obtain ⟨q, hq, -⟩ := train_verbose c hv tracing ht arrive k adam st rng p
  rw [hq]
  simp only [run]
  have hinit : initial { c with interrupted := fun _ => false, epochs := min c.epochs e } k adam st rng = initial c k adam st rng := rfl
  have hinit' : initial (noticing c fun i => decide (0 < arrived tracing arrive i)) k adam st rng = initial c k adam st rng := rfl
  rw [hinit, hinit']
  congr 1
  cases hs : initial c k adam st rng with
  | error _ => rfl
  | ok s =>
    have he := initial_epoch hs
    exact loop_limit c hv _ e (fun i hi => by simp [h0 i hi]) (by simp [h1]) c.epochs _ s (by omega) (by omega) (by omega)

/-- **C92 (without signals).** A training that no signal reaches goes as if there were no signals, whoever handles them. -/
theorem C92_undisturbed (c : Cfg α P S K F) (k : K) (adam : List (OptState P)) (st : S) (rng : K) (p : Proc) :
    (Interrupt.train c 0 (fun _ => 0) k adam st rng p).2 = .finished (run { c with interrupted := fun _ => false } k adam st rng) := by
  rcases Bool.eq_false_or_eq_true c.verbose with hv | hv
  · obtain ⟨q, hq, -⟩ := train_verbose c hv 0 (by omega) (fun _ => 0) k adam st rng p
    rw [hq]
    have : (fun i => decide (0 < arrived 0 (fun _ => 0) i)) = fun _ => false := by
      funext i
      have : ∀ l : List Nat, (l.map fun _ => 0).sum = 0 := fun l => by induction l <;> simp_all
      simp [arrived, this]
    rw [this]
    rfl
  · have key : ∀ (n : Nat) (s : TState P S K F) (p : Proc), (Interrupt.loop c (fun _ => 0) n s p).2 = .finished (Train.loop { c with interrupted := fun _ => false } n s) := by
      intro n
      induction n with
      | zero => exact fun _ _ => rfl
      | succ n ih =>
        intro s p
        have hc : Interrupt.cond c (asked p) s = epochCond { c with interrupted := fun _ => false } s := by
          simp [Interrupt.cond, epochCond, hv]
        have hbody : epochBody { c with interrupted := fun _ => false } s = epochBody c s := rfl
        simp only [Interrupt.loop, signals, hc, Train.loop, hbody]
        cases epochCond { c with interrupted := fun _ => false } s with
        | false => rfl
        | true =>
          simp only [if_true]
          cases epochBody c s with
          | error _ => rfl
          | ok s' => exact ih s' p
    have hinit : initial (noticing c fun _ => false) k adam st rng = initial c k adam st rng := rfl
    change _ = Outcome.finished (run (noticing c fun _ => false) k adam st rng)
    simp only [Interrupt.train, make, hv, signals, run, hinit]
    cases initial c k adam st rng with
    | error _ => rfl
    | ok s => exact key c.epochs s _

/-- **C92 (the next training starts afresh).** How a verbose training goes does not depend on what earlier trainings and signals have left behind. -/
theorem C92_fresh (c : Cfg α P S K F) (hv : c.verbose = true) (tracing : Nat) (arrive : Nat → Nat) (k : K) (adam : List (OptState P)) (st : S) (rng : K) (p q : Proc) :
    Interrupt.train c tracing arrive k adam st rng p = Interrupt.train c tracing arrive k adam st rng q := by
  simp only [Interrupt.train, make, hv, if_true]

/-- **C92 (a second signal, refuted).** The comment in the source says that a second signal ends the training at once. It does so only while the training is being compiled: once the epochs have begun, the killer has been
switched off, and no number of signals ends the training before the present epoch is complete. -/
theorem C92_second_refuted (c : Cfg α P S K F) (hv : c.verbose = true) (arrive : Nat → Nat) (k : K) (adam : List (OptState P)) (st : S) (rng : K) (p : Proc) :
    (∀ tracing ≤ 1, (Interrupt.train c tracing arrive k adam st rng p).2 ≠ .raised) ∧
    ∀ tracing, 2 ≤ tracing → (Interrupt.train c tracing arrive k adam st rng p).2 = .raised := by
  refine ⟨fun n hn => ?_, fun n hn => ?_⟩
  · obtain ⟨q, hq, -⟩ := train_verbose c hv n hn arrive k adam st rng p
    rw [hq]
    exact fun h => nomatch h
  · simp only [Interrupt.train, make, hv, if_true, signals_new]
    rw [if_neg (by omega)]

/-- **C92 (after the training, refuted).** A program that has trained verbosely can no longer be interrupted: after the training has ended, signals are only noted, however many there are; they neither raise a
`KeyboardInterrupt` nor end the process. -/
theorem C92_after_refuted (c : Cfg α P S K F) (hv : c.verbose = true) (tracing : Nat) (ht : tracing ≤ 1) (arrive : Nat → Nat) (k : K) (adam : List (OptState P)) (st : S) (rng : K) (p : Proc) (t : TState P S K F)
    (h : (Interrupt.train c tracing arrive k adam st rng p).2 = .finished (.ok t)) (n : Nat) :
    (signals n (Interrupt.train c tracing arrive k adam st rng p).1).2 = .noted ∧ (0 < n → (signals n none).2 = .default) := by
  obtain ⟨⟨b, a⟩, hq, hact⟩ := train_verbose c hv tracing ht arrive k adam st rng p
  rw [hq] at h ⊢
  have : a = false := hact t (by injection h)
  subst this
  refine ⟨by rw [signals_off], fun hn => ?_⟩
  rw [signals_nobody, if_neg (by omega)]

theorem quiet_loop (c : Cfg α P S K F) (hv : c.verbose = false) (arrive : Nat → Nat) : ∀ (n : Nat) (s : TState P S K F),
    (Interrupt.loop c arrive n s none).1 = none ∧ ∀ t, (Interrupt.loop c arrive n s none).2 = .finished (.ok t) →
      (∀ i, s.epoch ≤ i → i < t.epoch → arrive i = 0) ∧ Train.loop (noticing c fun _ => false) n s = .ok t
  | 0, s => ⟨rfl, fun t h => by
      have : s = t := by simpa [Interrupt.loop] using h
      subst this
      exact ⟨fun i h1 h2 => by omega, rfl⟩⟩
  | n + 1, s => by
    simp only [Interrupt.loop, signals_nobody]
    by_cases h : arrive s.epoch = 0
    · have hc : Interrupt.cond c (asked none) s = epochCond (noticing c fun _ => false) s := by
        simp [Interrupt.cond, epochCond, noticing, hv]
      have hbody : epochBody (noticing c fun _ => false) s = epochBody c s := rfl
      simp only [h, if_true, hc, Train.loop, hbody]
      cases epochCond (noticing c fun _ => false) s with
      | false =>
        refine ⟨rfl, fun t ht => ?_⟩
        have : s = t := by simpa using ht
        subst this
        exact ⟨fun i h1 h2 => by omega, rfl⟩
      | true =>
        simp only [if_true]
        cases hs : epochBody c s with
        | error e => exact ⟨rfl, fun t ht => by simp at ht⟩
        | ok s' =>
          have he := epochBody_epoch hs
          obtain ⟨h1, h2⟩ := quiet_loop c hv arrive n s'
          refine ⟨h1, fun t ht => ?_⟩
          obtain ⟨h3, h4⟩ := h2 t ht
          refine ⟨fun i hi1 hi2 => ?_, h4⟩
          rcases Nat.lt_or_eq_of_le hi1 with hl | hl
          · exact h3 i (by omega) hi2
          · rw [← hl]; exact h
    · simp only [if_neg h]
      exact ⟨trivial, fun t ht => by cases ht⟩

/-- **C92 (quiet training).** A training that is not verbose leaves the signals alone: in a process that has not trained verbosely, a signal takes effect as usual and the training does not end normally, unless
no signal came before the last of its epochs began; then it returns what it returns without signals. -/
theorem C92_quiet (c : Cfg α P S K F) (hv : c.verbose = false) (tracing : Nat) (arrive : Nat → Nat) (k : K) (adam : List (OptState P)) (st : S) (rng : K) :
    (Interrupt.train c tracing arrive k adam st rng none).1 = none ∧ (0 < tracing → (Interrupt.train c tracing arrive k adam st rng none).2 = .default) ∧
    ∀ t, (Interrupt.train c tracing arrive k adam st rng none).2 = .finished (.ok t) →
      tracing = 0 ∧ (∀ i < t.epoch, arrive i = 0) ∧ run { c with interrupted := fun _ => false } k adam st rng = .ok t := by
  have hinit : initial (noticing c fun _ => false) k adam st rng = initial c k adam st rng := rfl
  change _ ∧ _ ∧ ∀ t, _ → _ ∧ _ ∧ run (noticing c fun _ => false) k adam st rng = .ok t
  simp only [Interrupt.train, make, hv, Bool.false_eq_true, if_false, signals_nobody, switchOff, run, hinit]
  by_cases h : tracing = 0
  · simp only [h, if_true]
    cases hs : initial c k adam st rng with
    | error e => exact ⟨rfl, (fun h => by omega), fun t ht => by simp at ht⟩
    | ok s =>
      obtain ⟨h1, h2⟩ := quiet_loop c hv arrive c.epochs s
      refine ⟨h1, (fun h => by omega), fun t ht => ?_⟩
      obtain ⟨h3, h4⟩ := h2 t ht
      exact ⟨trivial, fun i hi => h3 i (by rw [initial_epoch hs]; omega) hi, h4⟩
  · simp only [if_neg h]
    exact ⟨trivial, (fun _ => trivial), fun t ht => by cases ht⟩

/-- **C92 (quiet training after a verbose one, refuted).** In a process that has trained verbosely before, a quiet training cannot be interrupted either: it runs to its own end, whatever arrives. -/
theorem C92_quiet_refuted (c : Cfg α P S K F) (hv : c.verbose = false) (b : Bool) (tracing : Nat) (arrive : Nat → Nat) (k : K) (adam : List (OptState P)) (st : S) (rng : K) :
    (Interrupt.train c tracing arrive k adam st rng (some ⟨b, false⟩)).2 = .finished (run { c with interrupted := fun _ => false } k adam st rng) := by
  have key : ∀ (n : Nat) (s : TState P S K F) (b : Bool), (Interrupt.loop c arrive n s (some ⟨b, false⟩)).2 = .finished (Train.loop { c with interrupted := fun _ => false } n s) := by
    intro n
    induction n with
    | zero => exact fun _ _ => rfl
    | succ n ih =>
      intro s b
      have hc : ∀ p, Interrupt.cond c (asked p) s = epochCond { c with interrupted := fun _ => false } s := by
        intro p
        simp [Interrupt.cond, epochCond, hv]
      have hbody : epochBody { c with interrupted := fun _ => false } s = epochBody c s := rfl
      simp only [Interrupt.loop, signals_off, hc, Train.loop, hbody]
      cases epochCond { c with interrupted := fun _ => false } s with
      | false => rfl
      | true =>
        simp only [if_true]
        cases epochBody c s with
        | error _ => rfl
        | ok s' => exact ih s' _
  have hinit : initial (noticing c fun _ => false) k adam st rng = initial c k adam st rng := rfl
  change _ = Outcome.finished (run (noticing c fun _ => false) k adam st rng)
  simp only [Interrupt.train, make, hv, Bool.false_eq_true, if_false, signals_off, switchOff, run, hinit]
  cases initial c k adam st rng with
  | error _ => rfl
  | ok s => exact key c.epochs s _

theorem signals_aborted : ∀ n, signals n (some ⟨true, true⟩) = (some ⟨true, true⟩, if n = 0 then .noted else .raised)
  | 0 => rfl
  | n + 1 => by simp [signals, signal]

theorem aborted_loop (c : Cfg α P S K F) (hv : c.verbose = false) (arrive : Nat → Nat) : ∀ (n : Nat) (s : TState P S K F),
    (Interrupt.loop c arrive n s (some ⟨true, true⟩)).1 = some ⟨true, true⟩ ∧ (Interrupt.loop c arrive n s (some ⟨true, true⟩)).2 ≠ .default ∧
      ∀ t, (Interrupt.loop c arrive n s (some ⟨true, true⟩)).2 = .finished (.ok t) →
        (∀ i, s.epoch ≤ i → i < t.epoch → arrive i = 0) ∧ Train.loop (noticing c fun _ => false) n s = .ok t
  | 0, s => ⟨rfl, (fun h => by cases h), fun t h => by
      have : s = t := by simpa [Interrupt.loop] using h
      subst this
      exact ⟨fun i h1 h2 => by omega, rfl⟩⟩
  | n + 1, s => by
    simp only [Interrupt.loop, signals_aborted]
    by_cases h : arrive s.epoch = 0
    · have hc : Interrupt.cond c (asked (some ⟨true, true⟩)) s = epochCond (noticing c fun _ => false) s := by
        simp [Interrupt.cond, epochCond, noticing, hv]
      have hbody : epochBody (noticing c fun _ => false) s = epochBody c s := rfl
      simp only [h, if_true, hc, Train.loop, hbody]
      cases epochCond (noticing c fun _ => false) s with
      | false =>
        refine ⟨rfl, (fun h => by cases h), fun t ht => ?_⟩
        have : s = t := by simpa using ht
        subst this
        exact ⟨fun i h1 h2 => by omega, rfl⟩
      | true =>
        simp only [if_true]
        cases hs : epochBody c s with
        | error e => exact ⟨rfl, (fun h => by cases h), fun t ht => by simp at ht⟩
        | ok s' =>
          have he := epochBody_epoch hs
          obtain ⟨h1, h1', h2⟩ := aborted_loop c hv arrive n s'
          refine ⟨h1, h1', fun t ht => ?_⟩
          obtain ⟨h3, h4⟩ := h2 t ht
          refine ⟨fun i hi1 hi2 => ?_, h4⟩
          rcases Nat.lt_or_eq_of_le hi1 with hl | hl
          · exact h3 i (by omega) hi2
          · rw [← hl]; exact h
    · simp only [if_neg h]
      exact ⟨trivial, (fun h => by cases h), fun t ht => by cases ht⟩

/-- **C92 (after an aborted training).** After a verbose training that two signals have ended while it was being compiled, the signals still belong to its killer: a quiet training is ended with a `KeyboardInterrupt`
of the killer by the first signal, never as the system would end it, and if it ends normally, no signal came before the last of its epochs began and it returns what it returns without signals. -/
theorem C92_aborted (c c' : Cfg α P S K F) (hv : c.verbose = true) (hq : c'.verbose = false) (two : Nat) (h2 : 2 ≤ two) (before arrive : Nat → Nat) (tracing : Nat) (k : K)
    (adam : List (OptState P)) (st : S) (rng : K) (p : Proc) :
    (Interrupt.train c' tracing arrive k adam st rng (Interrupt.train c two before k adam st rng p).1).2 ≠ .default ∧
    (0 < tracing → (Interrupt.train c' tracing arrive k adam st rng (Interrupt.train c two before k adam st rng p).1).2 = .raised) ∧
    ∀ t, (Interrupt.train c' tracing arrive k adam st rng (Interrupt.train c two before k adam st rng p).1).2 = .finished (.ok t) →
      tracing = 0 ∧ (∀ i < t.epoch, arrive i = 0) ∧ run { c' with interrupted := fun _ => false } k adam st rng = .ok t := by
  have hp : (Interrupt.train c two before k adam st rng p).1 = some ⟨true, true⟩ := by
    simp only [Interrupt.train, make, hv, if_true, signals_new]
    rw [if_neg (by omega)]
  rw [hp]
  have hinit : initial (noticing c' fun _ => false) k adam st rng = initial c' k adam st rng := rfl
  change _ ∧ _ ∧ ∀ t, _ → _ ∧ _ ∧ run (noticing c' fun _ => false) k adam st rng = .ok t
  simp only [Interrupt.train, make, hq, Bool.false_eq_true, if_false, signals_aborted, switchOff, run, hinit]
  by_cases h : tracing = 0
  · simp only [h, if_true]
    cases hs : initial c' k adam st rng with
    | error e => exact ⟨(fun h => by cases h), (fun h => by omega), fun t ht => by simp at ht⟩
    | ok s =>
      obtain ⟨h1, h1', h2⟩ := aborted_loop c' hq arrive c'.epochs s
      refine ⟨h1', (fun h => by omega), fun t ht => ?_⟩
      obtain ⟨h3, h4⟩ := h2 t ht
      exact ⟨trivial, fun i hi => h3 i (by rw [initial_epoch hs]; omega) hi, h4⟩
  · simp only [if_neg h]
    exact ⟨(fun h => by cases h), (fun _ => trivial), fun t ht => by cases ht⟩

/-- A quiet training after an aborted one: a signal before the third epoch ends it. -/
example : (match (Interrupt.train demoCfg 0 (fun i => if i = 2 then 1 else 0) 0 demoAdam () 0
    (Interrupt.train { demoCfg with verbose := true } 2 (fun _ => 0) 0 demoAdam () 0 none).1).2 with
    | .raised => true
    | _ => false) = true := by decide

/-- The run of `demoCfg`, verbose, with three signals before the third epoch: two epochs are made, and the best model is the second one. -/
example : (match (Interrupt.train { demoCfg with verbose := true } 0 (fun i => if i = 2 then 3 else 0) 0 demoAdam () 0 none).2 with
    | .finished (.ok t) => some (t.epoch, t.best.epoch, t.best.loss)
    | _ => none) = some (2, 1, some 1) := by decide

example : (Interrupt.train { demoCfg with verbose := true } 0 (fun i => if i = 2 then 3 else 0) 0 demoAdam () 0 none).2 =
    .finished (run { demoCfg with verbose := true, interrupted := fun _ => false, epochs := 2 } 0 demoAdam () 0) :=
  C92_stops { demoCfg with verbose := true } rfl 0 (by omega) _ 2 (by decide) (by decide) 0 demoAdam () 0 none

/-- A quiet training in a fresh process: with signals it does not end normally, without it does. -/
example : (match (Interrupt.train demoCfg 0 (fun i => if i = 2 then 1 else 0) 0 demoAdam () 0 none).2 with
    | .default => true
    | _ => false) = true ∧ (match (Interrupt.train demoCfg 0 (fun _ => 0) 0 demoAdam () 0 none).2 with
    | .finished (.ok t) => some t.epoch
    | _ => none) = some 4 := by decide

/-- A training that ends, after which signals are swallowed. -/
example : ∃ t, (Interrupt.train { demoCfg with verbose := true } 1 (fun _ => 5) 0 demoAdam () 0 none).2 = .finished (.ok t) := by
  rw [C92_stops { demoCfg with verbose := true } rfl 1 (by omega) _ 0 (by omega) (by decide)]
  exact ⟨_, rfl⟩

end Verif.Props
