import Verif.Spec.Display
import Verif.Props.Training
import Verif.Props.ProgressBar
import Verif.Lemmas.TreeDec
import Verif.Lemmas.Concretize

/-! # C105: showing the progress of a training -/

namespace Verif.Props

open Verif.Batch Verif.BatchSpec Verif.Train Verif.TrainSpec Verif.DisplaySpec

variable {α P S K F : Type}

theorem batchLoop_eq (c : Cfg α P S K F) (v b : F) (bs : List (Data α)) : ∀ (idx epoch : Nat) (i : Inner P S K),
    Display.batchLoop c v b idx bs epoch i = (bs.foldlM (trainStep c epoch) i).map fun j =>
      (j, epoch, if c.verbose then (List.range bs.length).map fun k => .update (idx + k) v b else []) := by
  induction bs with
  | nil => intro idx epoch i; simp [Display.batchLoop, Except.map, pure, Except.pure]
  | cons d bs ih =>
    intro idx epoch i
    unfold Display.batchLoop
    rw [List.foldlM_cons]
    cases hv : c.verbose with
    | false =>
      simp only [Bool.false_eq_true, if_false, Nat.add_zero]
      cases trainStep c epoch i d with
      | error e => rfl
      | ok i' =>
        simp only [bind, Except.bind, ih, hv]
        cases bs.foldlM (trainStep c epoch) i' <;> rfl
    | true =>
      simp only [if_true, Display.updateCb, Nat.add_zero]
      cases trainStep c epoch i d with
      | error e => rfl
      | ok i' =>
        simp only [bind, Except.bind, ih, hv]
        cases bs.foldlM (trainStep c epoch) i' with
        | error e => rfl
        | ok j =>
          simp only [Except.map, if_true, pure, Except.pure, List.length_cons, List.range_succ_eq_map, List.map_cons, List.map_map, List.singleton_append,
            Nat.add_zero]
          congr 4
          exact List.map_congr_left fun k _ => by simp only [Function.comp]; congr 1; omega

theorem display_body {c : Cfg α P S K F} (hperm : ∀ k n, (c.perm k n).Perm (List.range n)) {n : Nat} (ht : DataUniform n c.train) (hs : 0 < c.batchSize)
    (s : TState P S K F) : Display.epochBody c s = (epochBody c s).map fun s' =>
      (s', if c.verbose then shownEpoch (n / c.batchSize) s.epoch s.valLoss s.best.loss s'.valLoss s'.best.loss else []) := by
  have hb := batches_ok (shuffle_uniform hperm c.splitN (c.split s.batchRng).2 ht) hs
  have hlen : ((cuts n c.batchSize (c.train.shuffle c.perm c.splitN (c.split s.batchRng).2)).take (n / c.batchSize)).length = n / c.batchSize := by
    unfold cuts
    simp
  have hfin : ∀ (k : K) (snap : Snap P S K F) (r : Nat), r = s.epoch → epochFinish c { s with epoch := r } k snap = epochFinish c s k snap := by
    rintro k snap r rfl; rfl
  unfold Display.epochBody epochBody epochTrain
  simp only [hb, numSamples_uniform ht.X, bind, Except.bind, pure, Except.pure, batchLoop_eq]
  set B := cuts n c.batchSize (c.train.shuffle c.perm c.splitN (c.split s.batchRng).2) with hB
  have hsplit : ∀ i : Inner P S K, B.foldlM (trainStep c s.epoch) i =
      (match (B.take (n / c.batchSize)).foldlM (trainStep c s.epoch) i with
        | .error e => .error e
        | .ok j => (B.drop (n / c.batchSize)).foldlM (trainStep c s.epoch) j) := by
    intro i
    conv => lhs; rw [← List.take_append_drop (n / c.batchSize) B, List.foldlM_append]
    cases (B.take (n / c.batchSize)).foldlM (trainStep c s.epoch) i <;> rfl
  rw [hsplit, hlen]
  have hr : (if c.verbose then Display.startCb (F := F) s.epoch else (0, [])).1 = 0 := by split <;> rfl
  simp only [hr, Nat.add_zero]
  cases h1 : (B.take (n / c.batchSize)).foldlM (trainStep c s.epoch) s.inner with
  | error e => rfl
  | ok j =>
    simp only [Except.map]
    cases h2 : (B.drop (n / c.batchSize)).foldlM (trainStep c s.epoch) j with
    | error e => rfl
    | ok j' =>
      simp only
      cases h3 : batchedValLoss c j' (c.split (c.split s.batchRng).1).2 s.epoch with
      | error e => rfl
      | ok v =>
        have hr2 : (if c.verbose then Display.endCb v (if c.lt v s.best.loss then v else s.best.loss) else (0, [])).1 = 0 := by split <;> rfl
        simp only [hr2, Nat.add_zero]
        cases h4 : epochFinish c s (c.split (c.split s.batchRng).1).1 ⟨v, s.epoch, j'⟩ with
        | error e => rfl
        | ok s' =>
          obtain ⟨-, e⟩ := epochFinish_inv h4
          have e1 : s'.valLoss = v := by rw [e]
          have e2 : s'.best.loss = if c.lt v s.best.loss then v else s.best.loss := by
            rw [e]
            show (if c.lt v s.best.loss then (⟨v, s.epoch, j'⟩ : Snap P S K F) else s.best).loss = _
            split <;> rfl
          simp only [e1, e2]
          cases hv : c.verbose with
          | false => simp
          | true => simp [shownEpoch, Display.startCb, Display.endCb]

theorem display_loop {c : Cfg α P S K F} (hperm : ∀ k n, (c.perm k n).Perm (List.range n)) {n : Nat} (ht : DataUniform n c.train) (hs : 0 < c.batchSize)
    (m : Nat) : ∀ s : TState P S K F, ∃ ev, Display.loop c m s = (loop c m s).map fun t => (t, ev) := by
  induction m with
  | zero => intro s; exact ⟨[], rfl⟩
  | succ m ih =>
    intro s
    unfold Display.loop loop
    split
    · rw [display_body hperm ht hs]
      cases epochBody c s with
      | error e => exact ⟨[], rfl⟩
      | ok s' =>
        obtain ⟨ev, he⟩ := ih s'
        simp only [Except.map, bind, Except.bind, he]
        cases loop c m s' with
        | error e => exact ⟨[], rfl⟩
        | ok t => exact ⟨_, rfl⟩
    · exact ⟨[], rfl⟩

/-- **C105** Showing the progress does not change a training: without signals, a verbose training has the result, or raises the exception, of a silent one. -/
theorem C105_same (c : Cfg α P S K F) (hperm : ∀ k n, (c.perm k n).Perm (List.range n)) (n : Nat) (ht : DataUniform n c.train) (hs : 0 < c.batchSize)
    (hi : ∀ i, c.interrupted i = false) (k : K) (adam : List (OptState P)) (st : S) (rng : K) :
    (Display.run { c with verbose := true } k adam st rng).map Prod.fst = run { c with verbose := false } k adam st rng := by
  have hc : ∀ s, epochCond { c with verbose := true } s = epochCond { c with verbose := false } s := by
    intro s
    simp [epochCond, hi]
  have hl : ∀ (m : Nat) (s : TState P S K F), loop { c with verbose := true } m s = loop { c with verbose := false } m s := by
    intro m
    induction m with
    | zero => intro s; rfl
    | succ m ih =>
      intro s
      have hb : epochBody { c with verbose := true } s = epochBody { c with verbose := false } s := rfl
      unfold loop
      rw [hc, hb]
      split
      · cases epochBody { c with verbose := false } s with
        | error e => rfl
        | ok s' => exact ih s'
      · rfl
  have hin : initial { c with verbose := true } k adam st rng = initial { c with verbose := false } k adam st rng := rfl
  unfold Display.run run
  rw [hin]
  cases initial { c with verbose := false } k adam st rng with
  | error e => rfl
  | ok s =>
    obtain ⟨ev, he⟩ := display_loop (c := { c with verbose := true }) hperm ht hs c.epochs s
    simp only [bind, Except.bind, he, ← hl]
    cases loop { c with verbose := true } c.epochs s <;> rfl

theorem display_history {c : Cfg α P S K F} (hv : c.verbose = true) (hperm : ∀ k n, (c.perm k n).Perm (List.range n)) {n : Nat} (ht : DataUniform n c.train)
    (hs : 0 < c.batchSize) : ∀ (m : Nat) (s t : TState P S K F) (evs : List (Display.Event F)), c.epochs ≤ s.epoch + m →
    Display.loop c m s = .ok (t, evs) →
    ∃ l, History c s l t ∧ evs = shown c.lt (n / c.batchSize) s.epoch s.valLoss s.best.loss (l.map (·.loss)) := by
  intro m
  induction m with
  | zero =>
    intro s t evs hm h
    cases h
    refine ⟨[], .stop ?_, rfl⟩
    unfold epochCond
    have : ¬ s.epoch < c.epochs := by omega
    simp [this]
  | succ m ih =>
    intro s t evs hm h
    unfold Display.loop at h
    split at h
    · rename_i hc
      rw [display_body hperm ht hs] at h
      cases hb : epochBody c s with
      | error e => rw [hb] at h; cases h
      | ok s' =>
        rw [hb] at h
        simp only [Except.map, bind, Except.bind, hv, if_true] at h
        cases hl : Display.loop c m s' with
        | error e => rw [hl] at h; cases h
        | ok r =>
          rw [hl] at h
          simp only [pure, Except.pure, Except.ok.injEq, Prod.mk.injEq] at h
          obtain ⟨h1, h2⟩ := h
          unfold epochBody at hb
          simp only [bind, Except.bind] at hb
          cases htr : epochTrain c s with
          | error e => rw [htr] at hb; cases hb
          | ok q =>
            obtain ⟨kk, snap⟩ := q
            rw [htr] at hb
            have hb' : epochFinish c s kk snap = .ok s' := hb
            obtain ⟨-, e⟩ := epochFinish_inv hb'
            have e0 : s'.epoch = s.epoch + 1 := by rw [e]
            have e1 : s'.valLoss = snap.loss := by rw [e]
            have e2 : s'.best.loss = if c.lt snap.loss s.best.loss then snap.loss else s.best.loss := by
              rw [e]
              show (if c.lt snap.loss s.best.loss then snap else s.best).loss = _
              split <;> rfl
            obtain ⟨l, hl1, hl2⟩ := ih s' r.1 r.2 (by rw [e0]; omega) hl
            rw [h1] at hl1
            refine ⟨snap :: l, .epoch hc htr hb' hl1, ?_⟩
            rw [← h2, hl2, e0, e1, e2]
            rfl
    · rename_i hc
      cases h
      exact ⟨[], .stop (by simpa using hc), rfl⟩

/-- **C105** What a verbose training shows: for every epoch its number, with every full batch the losses before the epoch, and at its end the loss and the best loss so far; then the number of
epochs, the best epoch and the best loss. -/
theorem C105_events (c : Cfg α P S K F) (hv : c.verbose = true) (hperm : ∀ k n, (c.perm k n).Perm (List.range n)) (n : Nat) (ht : DataUniform n c.train)
    (hs : 0 < c.batchSize) (k : K) (adam : List (OptState P)) (st : S) (rng : K) (t : TState P S K F) (evs : List (Display.Event F))
    (h : Display.run c k adam st rng = .ok (t, evs)) :
    ∃ s l, initial c k adam st rng = .ok s ∧ History c s l t ∧
      evs = shown c.lt (n / c.batchSize) 0 s.valLoss s.valLoss (l.map (·.loss)) ++ [.summary l.length t.best.epoch (bestLoss c.lt s.valLoss (l.map (·.loss)))] := by
  unfold Display.run at h
  cases hi : initial c k adam st rng with
  | error e => rw [hi] at h; cases h
  | ok s =>
    rw [hi] at h
    simp only [bind, Except.bind] at h
    cases hl : Display.loop c c.epochs s with
    | error e => rw [hl] at h; cases h
    | ok r =>
      rw [hl] at h
      simp only [hv, if_true, pure, Except.pure, Except.ok.injEq, Prod.mk.injEq] at h
      obtain ⟨h1, h2⟩ := h
      obtain ⟨l, hl1, hl2⟩ := display_history hv hperm ht hs c.epochs s r.1 r.2 (by omega) hl
      rw [h1] at hl1
      obtain ⟨i1, -, i3, -⟩ := initial_inv hi
      have hbl : s.best.loss = s.valLoss := by rw [i3]
      refine ⟨s, l, rfl, hl1, ?_⟩
      rw [← h2, hl2, i1, hbl, h1, (history_epoch hl1).1, history_best_loss hl1, i1, hbl, Nat.zero_add]

/-! ### The lines -/

open Verif.ProgressBar

/-- The lines of epoch `i`: one for each of the `nb` full batches, with a bar of 20 cells that is filled by the part of the batches that is done, and a last one with a full bar and the losses `v` (of
the epoch) and `w` (the best so far). All begin with the label of the epoch. -/
def EpochLines (fmt : F → Str) (nb epochs i : Nat) (v w : F) (lines : List Str) : Prop :=
  ∃ ups last, lines = ups ++ [last] ∧ ups.length = nb ∧
    (∀ (j : Nat) (line : Str), ups[j]? = some line → ∃ p, RightFill nb j 20 p ∧ ShowsFill (label i epochs) 20 p line) ∧
    ∃ time n, last = ['\r'] ++ label i epochs ++ fmt v ++ ['/'] ++ fmt w ++ " [####################] (".toList ++ time ++ "s)".toList ++ List.replicate n ' '

theorem texts_append (fmt : F → Str) (epochs : Nat) (clock : Nat → Rat × Rat) : ∀ (es es' : List (Display.Event F)) (i : Nat) (b : Bar),
    Display.texts fmt epochs clock i b (es ++ es') =
      ((Display.texts fmt epochs clock (i + es.length) (Display.texts fmt epochs clock i b es).1 es').1,
        (Display.texts fmt epochs clock i b es).2 ++ (Display.texts fmt epochs clock (i + es.length) (Display.texts fmt epochs clock i b es).1 es').2)
  | [], es', i, b => by simp [Display.texts]
  | e :: es, es', i, b => by
    simp only [List.cons_append, Display.texts, texts_append fmt epochs clock es es', List.length_cons]
    rw [show i + (es.length + 1) = i + 1 + es.length by omega]
    simp

theorem texts_updates (fmt : F → Str) (epochs : Nat) (clock : Nat → Rat × Rat) (v w : F) : ∀ (js : List Nat) (i : Nat) (b : Bar), ∃ cs : List Call,
    cs.map (·.raw) = js.map (fun j : Nat => (j : Rat)) ∧ Display.texts fmt epochs clock i b (js.map fun j => .update j v w) = ProgressBar.run b cs
  | [], i, b => ⟨[], rfl, rfl⟩
  | j :: js, i, b => by
    obtain ⟨cs, h1, h2⟩ := texts_updates fmt epochs clock v w js (i + 1) (update b (clock i).1 (clock i).2 j (fmt v ++ ['/'] ++ fmt w)).1
    refine ⟨⟨(clock i).1, (clock i).2, j, fmt v ++ ['/'] ++ fmt w⟩ :: cs, by simp [h1], ?_⟩
    simp only [List.map_cons, Display.texts, Display.write, ProgressBar.run, h2]

theorem texts_epoch (fmt : F → Str) (epochs : Nat) (clock : Nat → Rat × Rat) (k : Nat) (b : Bar) (nb i : Nat) (hnb : 0 < nb) (v w v' w' : F)
    (hb : b.total = nb) (hl : b.length = 20) :
    EpochLines fmt nb epochs i v' w' (Display.texts fmt epochs clock k b (shownEpoch nb i v w v' w')).2 ∧
    (Display.texts fmt epochs clock k b (shownEpoch nb i v w v' w')).1.total = nb ∧ (Display.texts fmt epochs clock k b (shownEpoch nb i v w v' w')).1.length = 20 := by
  have hstart : start b (ofNat (i + 1) ++ ['/'] ++ ofNat epochs) = create nb 20 (ofNat (i + 1) ++ ['/'] ++ ofNat epochs) := by
    unfold create start
    rw [← hb, ← hl]
  have hne : (ofNat (i + 1) ++ ['/'] ++ ofNat epochs).isEmpty = false := by simp
  have hextra : (create nb 20 (ofNat (i + 1) ++ ['/'] ++ ofNat epochs)).extra = label i epochs := by
    simp only [create, start, hne, label, Bool.false_eq_true, if_false]
  have htot : (1 : Rat) / 1000000000 < (nb : Rat) := by
    have : (1 : Rat) ≤ nb := by exact_mod_cast hnb
    linarith
  obtain ⟨cs, hc1, hc2⟩ := texts_updates fmt epochs clock v w (List.range nb) (k + 1) (create nb 20 (ofNat (i + 1) ++ ['/'] ++ ofNat epochs))
  have hcl : cs.length = nb := by simpa using congrArg List.length hc1
  have hraw : ∀ (j : Nat) (c : Call), cs[j]? = some c → c.raw = j := by
    intro j c hj
    have := congrArg (·[j]?) hc1
    simp only [List.getElem?_map, hj, Option.map_some] at this
    have hjl : j < nb := by rw [← hcl]; exact (List.getElem?_eq_some_iff.1 hj).1
    rw [List.getElem?_range hjl] at this
    simpa using this
  obtain ⟨c0, cs', rfl⟩ : ∃ c0 cs', cs = c0 :: cs' := by
    cases cs with
    | nil => simp at hcl; omega
    | cons a l => exact ⟨a, l, rfl⟩
  have hprog := C66_progress nb 20 (ofNat (i + 1) ++ ['/'] ++ ofNat epochs) (c0 :: cs') htot (by norm_num)
    (fun c hc => by
      obtain ⟨j, hj⟩ := List.getElem?_of_mem hc
      rw [hraw j c hj]; exact_mod_cast Nat.zero_le j)
    (by
      rw [List.pairwise_iff_getElem]
      intro a b' ha hb' hab
      rw [hraw a _ (List.getElem?_eq_getElem ha), hraw b' _ (List.getElem?_eq_getElem hb')]
      exact_mod_cast hab.le)
  obtain ⟨line, n, e1, e2, -⟩ := C66_end nb 20 (ofNat (i + 1) ++ ['/'] ++ ofNat epochs) c0 cs' htot (clock (k + 1 + nb)).1 (clock (k + 1 + nb)).2
    (fmt v' ++ ['/'] ++ fmt w')
  have hr := run_spec (c0 :: cs') (create nb 20 (ofNat (i + 1) ++ ['/'] ++ ofNat epochs)) htot
  have htexts : Display.texts fmt epochs clock k b (shownEpoch nb i v w v' w') =
      ((finish (ProgressBar.run (create nb 20 (ofNat (i + 1) ++ ['/'] ++ ofNat epochs)) (c0 :: cs')).1 (clock (k + 1 + nb)).1 (clock (k + 1 + nb)).2
        (fmt v' ++ ['/'] ++ fmt w') false false).1,
      (ProgressBar.run (create nb 20 (ofNat (i + 1) ++ ['/'] ++ ofNat epochs)) (c0 :: cs')).2 ++ [line]) := by
    unfold shownEpoch
    rw [List.append_assoc, List.singleton_append, Display.texts, texts_append]
    simp only [Display.write, hstart, hc2, List.length_map, List.length_range, Display.texts, e1, Option.toList_none, Option.toList_some, List.nil_append,
      List.append_nil]
  rw [htexts]
  have hkeep : ∀ (cs : List Call) (b : Bar), (ProgressBar.run b cs).1.total = b.total ∧ (ProgressBar.run b cs).1.length = b.length := by
    intro cs
    induction cs with
    | nil => intro b; exact ⟨rfl, rfl⟩
    | cons c cs ih =>
      intro b
      have hu : (update b c.t0 c.t1 c.raw c.dynamic).1.total = b.total ∧ (update b c.t0 c.t1 c.raw c.dynamic).1.length = b.length := by
        unfold update
        split
        · exact ⟨rfl, rfl⟩
        · simp only
          split <;> exact ⟨rfl, rfl⟩
      exact ⟨(ih _).1.trans hu.1, (ih _).2.trans hu.2⟩
  have hfin : ∀ (b : Bar) (t0 t1 : Rat) (info : Str), (finish b t0 t1 info false false).1.total = b.total ∧ (finish b t0 t1 info false false).1.length = b.length := by
    intro b t0 t1 info
    unfold finish
    split <;> exact ⟨rfl, rfl⟩
  refine ⟨⟨_, line, rfl, ?_, ?_, secs ((clock (k + 1 + nb)).2 - c0.t0), n, ?_⟩, ?_, ?_⟩
  · rw [hprog.length_eq, hcl]
  · intro j l hj
    obtain ⟨hlt, -⟩ := List.getElem?_eq_some_iff.1 hj
    have hlt' : j < (c0 :: cs').length := by rw [← hprog.length_eq]; exact hlt
    obtain ⟨p, h1, h2⟩ := (List.forall₂_iff_get.1 hprog).2 j hlt hlt'
    have e3 : (c0 :: cs').get ⟨j, hlt'⟩ = (c0 :: cs')[j] := rfl
    rw [e3, hraw j _ (List.getElem?_eq_getElem hlt')] at h1
    have e4 : (ProgressBar.run (create nb 20 (ofNat (i + 1) ++ ['/'] ++ ofNat epochs)) (c0 :: cs')).2.get ⟨j, hlt⟩ = l := by
      rw [List.getElem?_eq_getElem hlt] at hj
      exact Option.some.inj hj
    rw [e4, hextra] at h2
    exact ⟨p, h1, h2⟩
  · rw [e2, hextra]
    have : (fmt v' ++ ['/'] ++ fmt w').isEmpty = false := by simp
    rw [this]
    simp only [Bool.false_eq_true, if_false, List.append_assoc]
    rfl
  · exact (hfin _ _ _ _).1.trans ((hkeep _ _).1)
  · exact (hfin _ _ _ _).2.trans ((hkeep _ _).2)

/-- **C105** The lines that are written in a training, epoch by epoch: those of epoch `e` (numbered from 0) begin with `e+1` and the number of epochs, and end with the loss of the epoch and
the best loss so far. -/
theorem C105_lines (fmt : F → Str) (epochs : Nat) (clock : Nat → Rat × Rat) (lt : F → F → Bool) (nb : Nat) (hnb : 0 < nb) (ls : List F) :
    ∀ (k i : Nat) (b : Bar) (v w : F), b.total = nb → b.length = 20 →
    ∃ groups : List (List Str), (Display.texts fmt epochs clock k b (shown lt nb i v w ls)).2 = groups.flatten ∧ groups.length = ls.length ∧
      ∀ (e : Nat) (g : List Str) (v' : F), groups[e]? = some g → ls[e]? = some v' → EpochLines fmt nb epochs (i + e) v' (bestLoss lt w (ls.take (e + 1))) g := by
  induction ls with
  | nil => intro k i b v w _ _; exact ⟨[], rfl, rfl, fun e g v' h => by simp at h⟩
  | cons v' ls ih =>
    intro k i b v w hb hl
    obtain ⟨h1, h2, h3⟩ := texts_epoch fmt epochs clock k b nb i hnb v w v' (if lt v' w then v' else w) hb hl
    obtain ⟨gs, g1, g2, g3⟩ := ih (k + (shownEpoch nb i v w v' (if lt v' w then v' else w)).length) (i + 1) _ v' (if lt v' w then v' else w) h2 h3
    refine ⟨(Display.texts fmt epochs clock k b (shownEpoch nb i v w v' (if lt v' w then v' else w))).2 :: gs, ?_, by simp [g2], ?_⟩
    · rw [shown, texts_append, List.flatten_cons]
      simp only
      rw [g1]
    · intro e g u hg hu
      cases e with
      | zero =>
        simp only [List.getElem?_cons_zero, Option.some.injEq] at hg hu
        subst hg hu
        exact h1
      | succ e =>
        have := g3 e g u (by simpa using hg) (by simpa using hu)
        rw [show i + (e + 1) = i + 1 + e by omega]
        exact this

/-- **C105 (refuted)** The epoch that the summary calls the best one is the one that was shown with that number: the epoch with index `i` is shown as `i+1`, but the summary says `i`. So the best
epoch is always named with a number that was shown for the epoch before (or, for the first one, with 0). -/
theorem C105_summary_refuted (c : Cfg α P S K F) (hv : c.verbose = true) (hperm : ∀ k n, (c.perm k n).Perm (List.range n)) (n : Nat) (ht : DataUniform n c.train)
    (hs : 0 < c.batchSize) (k : K) (adam : List (OptState P)) (st : S) (rng : K) (t : TState P S K F) (evs : List (Display.Event F))
    (h : Display.run c k adam st rng = .ok (t, evs)) (s : TState P S K F) (l : List (Snap P S K F)) (hi : initial c k adam st rng = .ok s) (hh : History c s l t)
    (i : Nat) (hb : l[i]? = some t.best) :
    evs.getLast? = some (.summary l.length i (bestLoss c.lt s.valLoss (l.map (·.loss)))) ∧ label i c.epochs ≠ ofNat i ++ ['/'] ++ ofNat c.epochs ++ " | ".toList := by
  obtain ⟨s', l', h1, h2, h3⟩ := C105_events c hv hperm n ht hs k adam st rng t evs h
  rw [hi] at h1
  cases h1
  have he : t.best.epoch = i := by
    have := (history_epoch hh).2 i t.best hb
    rw [this, (initial_inv hi).1, Nat.zero_add]
  have hl : l'.length = l.length := by
    have a := (history_epoch hh).1
    have b := (history_epoch h2).1
    omega
  have hbest : bestLoss c.lt s.valLoss (l'.map (·.loss)) = bestLoss c.lt s.valLoss (l.map (·.loss)) := by
    have hbl : s.best.loss = s.valLoss := by rw [(initial_inv hi).2.2.1]
    rw [← hbl, ← history_best_loss hh, ← history_best_loss h2]
  refine ⟨by rw [h3, List.getLast?_concat, he, hl, hbest], ?_⟩
  unfold label
  intro hc
  have := List.append_cancel_right (List.append_cancel_right (List.append_cancel_right hc))
  have := Concretize.ofNat_inj this
  omega

/-- **C105 (refuted)** The summary tells whether an epoch was better than the start: a training of one epoch that improves and one that does not both name 0 as the best epoch. -/
theorem C105_none_refuted : ∃ t t' evs evs', Display.run { demoCfg with verbose := true, epochs := 1 } 0 demoAdam () 0 = .ok (t, evs) ∧
    Display.run { demoCfg with verbose := true, epochs := 1, target := some (-5) } 0 (demoAdam.map fun a => { a with params := 5 }) () 0 = .ok (t', evs') ∧
    evs.drop 2 = [.finish (some 4) (some 4), .summary 1 0 (some 4)] ∧ evs'.drop 2 = [.finish (some 9) (some 0), .summary 1 0 (some 0)] :=
  ⟨_, _, _, _, rfl, rfl, by rfl, by rfl⟩

/-! ### The demo run, shown -/

/-- The run of `demoCfg`, shown. -/
def shownCfg : Cfg Nat Int Unit Nat (Option Int) := { demoCfg with verbose := true }

/-- The hypotheses of `C105_same` and `C105_events` hold. -/
example : (∀ k n, (shownCfg.perm k n).Perm (List.range n)) ∧ DataUniform 3 shownCfg.train ∧ 0 < shownCfg.batchSize ∧ shownCfg.verbose = true ∧
    ∀ i, shownCfg.interrupted i = false :=
  ⟨demo_perm, ⟨⟨by decide, by decide⟩, fun y hy => by cases hy; exact ⟨by decide, by decide⟩, fun u hu => by simp [shownCfg, demoCfg] at hu⟩, by decide, rfl,
    fun _ => rfl⟩

/-- What the run shows. The best epoch is shown as `2/10`, and the summary says 1. -/
example : ∃ t, Display.run shownCfg 0 demoAdam () 0 = .ok (t, [
    .start 0, .update 0 (some 25) (some 25), .finish (some 4) (some 4), .start 1, .update 0 (some 4) (some 4), .finish (some 1) (some 1),
    .start 2, .update 0 (some 1) (some 1), .finish (some 16) (some 1), .start 3, .update 0 (some 16) (some 1), .finish (some 49) (some 1), .summary 4 1 (some 1)]) :=
  ⟨_, rfl⟩

/-- The lines of its second epoch, with one second between two events. -/
example : (Display.texts (fun v : Option Int => (match v with | some (.ofNat n) => ofNat n | _ => [])) 10 (fun i => (i, i)) 0 (create 1 20 [])
      [.start 1, .update 0 (some 4) (some 4), .finish (some 1) (some 1)]).2 =
    ["\r2/10 | 4/4 [                    ] (0s)".toList, "\r2/10 | 1/1 [####################] (1s)".toList] := by decide +kernel

end Verif.Props
