import Verif.Lemmas.Training

namespace Verif.Train
open Batch BatchSpec TrainSpec

variable {α P S K F : Type} {c : Cfg α P S K F}

theorem bestLoss_append (lt : F → F → Bool) (b : F) (ls : List F) (v : F) :
    bestLoss lt b (ls ++ [v]) = if lt v (bestLoss lt b ls) then v else bestLoss lt b ls := by
  unfold bestLoss
  rw [List.foldl_append]
  rfl

theorem waited_nil (b : F) : Waited c b [] 0 := ⟨by simp, by simp, by simp⟩

theorem waited_step {b : F} {ls : List F} {w : Nat} (h : Waited c b ls w) (v : F) :
    (improvedAt c b ls v = true → Waited c b (ls ++ [v]) 0) ∧
    (improvedAt c b ls v = false → Waited c b (ls ++ [v]) (w + 1)) := by
  obtain ⟨h1, h2, h3⟩ := h
  constructor
  · intro hi
    refine ⟨by simp, ?_, ?_⟩
    · intro i u hle hu
      have := (List.getElem?_eq_some_iff.1 hu).1
      simp at this hle
      omega
    · intro _
      refine ⟨v, by simp, ?_⟩
      simpa using hi
  · intro hi
    refine ⟨by simp; omega, ?_, ?_⟩
    · intro i u hle hu
      have hl := (List.getElem?_eq_some_iff.1 hu).1
      simp at hl hle
      by_cases hil : i < ls.length
      · rw [List.getElem?_append_left hil] at hu
        rw [List.take_append_of_le_length (by omega)]
        exact h2 i u (by omega) hu
      · have : i = ls.length := by omega
        subst this
        simp at hu
        subst hu
        simpa using hi
    · intro hw
      simp at hw
      obtain ⟨u, hu, hiu⟩ := h3 hw
      have e : (ls ++ [v]).length - (w + 1) - 1 = ls.length - w - 1 := by simp
      refine ⟨u, ?_, ?_⟩
      · rw [e, List.getElem?_append_left (by omega)]; exact hu
      · rw [e, List.take_append_of_le_length (by omega)]; exact hiu

theorem waited_unique {b : F} {ls : List F} {w w' : Nat} (h : Waited c b ls w) (h' : Waited c b ls w') : w = w' := by
  have key : ∀ w w', Waited c b ls w → Waited c b ls w' → ¬ w < w' := by
    intro w w' h h' hlt
    obtain ⟨h1, h2, h3⟩ := h
    obtain ⟨h1', h2', h3'⟩ := h'
    obtain ⟨v, hv, hi⟩ := h3 (by omega)
    rw [h2' _ v (by omega) hv] at hi
    exact absurd hi (by simp)
  have a := key w w' h h'
  have b' := key w' w h' h
  omega

/-- What holds at every check of the loop condition, `ls` being the losses of the epochs so far. -/
structure Inv (c : Cfg α P S K F) (b : F) (ls : List F) (s : TState P S K F) : Prop where
  epoch : s.epoch = ls.length
  best : s.best.loss = bestLoss c.lt b ls
  wait : ∃ w, Waited c b ls w ∧ s.patience = c.patience - w

theorem inv_step {b : F} {ls : List F} {s s' : TState P S K F} {k : K} {snap : Snap P S K F} (h : Inv c b ls s)
    (hf : epochFinish c s k snap = .ok s') : Inv c b (ls ++ [snap.loss]) s' := by
  obtain ⟨h1, h2, w, hw, hp⟩ := h
  have e := (epochFinish_inv hf).2
  have hstep := waited_step hw snap.loss
  refine ⟨by rw [e]; simp [h1], ?_, ?_⟩
  · rw [bestLoss_append, ← h2, e]
    simp only
    split <;> rfl
  · have hpe : s'.patience = if c.le snap.loss (c.sub s.best.loss c.minDelta) then c.patience else s.patience - 1 := by
      rw [e]
    by_cases hi : c.le snap.loss (c.sub s.best.loss c.minDelta) = true
    · refine ⟨0, hstep.1 ?_, ?_⟩
      · unfold improvedAt; rw [← h2]; exact hi
      · rw [hpe, if_pos hi]; simp
    · refine ⟨w + 1, hstep.2 ?_, ?_⟩
      · unfold improvedAt; rw [← h2]; simpa using hi
      · rw [hpe, if_neg hi, hp]; omega

theorem history_inv {b : F} {ls : List F} {s t : TState P S K F} {l : List (Snap P S K F)} (h : History c s l t)
    (hi : Inv c b ls s) :
    Inv c b (ls ++ l.map (·.loss)) t ∧ epochCond c t = false ∧
    ∀ i, i < l.length → ∃ si, epochCond c si = true ∧ Inv c b (ls ++ (l.take i).map (·.loss)) si := by
  induction h generalizing ls with
  | stop hc => exact ⟨by simpa using hi, hc, by simp⟩
  | @epoch s k snap s' l t hc ht hf _ ih =>
    obtain ⟨a, b', d⟩ := ih (inv_step hi hf)
    refine ⟨by simpa using a, b', fun i hil => ?_⟩
    cases i with
    | zero => exact ⟨s, hc, by simpa using hi⟩
    | succ i =>
      obtain ⟨si, x, y⟩ := d i (by simpa using hil)
      exact ⟨si, x, by simpa using y⟩

theorem initial_run {k : K} {adam : List (OptState P)} {st : S} {rng : K} {s : TState P S K F}
    (h : initial c k adam st rng = .ok s) : Inv c s.valLoss [] s := by
  obtain ⟨h1, h2, h3, h4, -⟩ := initial_inv h
  exact ⟨by simpa using h1, by rw [h3]; rfl, 0, waited_nil _, by simp [h4]⟩

theorem epochCond_true {s : TState P S K F} (h : epochCond c s = true) :
    (c.verbose = true → c.interrupted s.epoch = false) ∧ s.epoch < c.epochs ∧ c.lt c.target s.best.loss = true ∧
      0 < s.patience := by
  unfold epochCond at h
  simp only [Bool.and_eq_true, decide_eq_true_eq, Bool.not_eq_true', Bool.and_eq_false_iff] at h
  obtain ⟨⟨⟨h1, h2⟩, h3⟩, h4⟩ := h
  refine ⟨fun hv => ?_, h2, h3, h4⟩
  rcases h1 with h | h
  · rw [hv] at h; simp at h
  · exact h

theorem epochCond_false {s : TState P S K F} (h : epochCond c s = false) :
    (c.verbose = true ∧ c.interrupted s.epoch = true) ∨ c.epochs ≤ s.epoch ∨ c.lt c.target s.best.loss = false ∨
      s.patience ≤ 0 := by
  by_contra hc
  simp only [not_or, not_and, Bool.not_eq_true, Bool.not_eq_false] at hc
  obtain ⟨h1, h2, h3, h4⟩ := hc
  unfold epochCond at h
  simp only [h3, decide_eq_true (by omega : s.epoch < c.epochs), decide_eq_true (by omega : 0 < s.patience), Bool.and_true] at h
  cases hv : c.verbose
  · simp [hv] at h
  · simp [hv, h1 hv] at h

/-! ## the run succeeds -/

theorem trainStep_total {epoch : Nat} {i : Inner P S K} {b : Data α} (hl : c.flags.length = i.adam.length)
    (hg : ∀ e b s k ps, ps.length = c.flags.length → c.flags.count true ≤ (c.grad e b s k ps).1.length) :
    ∃ i', trainStep c epoch i b = .ok i' ∧ c.flags.length = i'.adam.length := by
  obtain ⟨out, ho⟩ := applyGrads_total c.update (ts := c.flags) (as := i.adam)
    (ds := (c.grad epoch b i.mstate (c.split i.mrng).2 (i.adam.map (·.params))).1) (hg _ _ _ _ _ (by simp [hl]))
  unfold trainStep
  simp only [bind, Except.bind, pure, Except.pure, ho]
  exact ⟨_, rfl, by simp [(applyGrads_inv hl ho).1, hl]⟩

theorem fold_total {epoch : Nat} {bs : List (Data α)} {i : Inner P S K} (hl : c.flags.length = i.adam.length)
    (hg : ∀ e b s k ps, ps.length = c.flags.length → c.flags.count true ≤ (c.grad e b s k ps).1.length) :
    ∃ i', bs.foldlM (trainStep c epoch) i = .ok i' ∧ c.flags.length = i'.adam.length := by
  induction bs generalizing i with
  | nil => exact ⟨i, rfl, hl⟩
  | cons b bs ih =>
    obtain ⟨i1, h1, h2⟩ := trainStep_total (epoch := epoch) (b := b) hl hg
    obtain ⟨i2, h3, h4⟩ := ih h2
    refine ⟨i2, ?_, h4⟩
    rw [List.foldlM_cons, h1]
    exact h3

theorem valLoss_total {n : Nat} (hperm : ∀ k n, (c.perm k n).Perm (List.range n)) (hv : DataUniform n c.val)
    (hs : 0 < c.valBatchSize) (i : Inner P S K) (k : K) (e : Nat) : ∃ v, batchedValLoss c i k e = .ok v := by
  unfold batchedValLoss
  simp only [bind, Except.bind, pure, Except.pure, batches_ok (shuffle_uniform hperm c.splitN k hv) hs,
    numSamples_uniform hv.X]
  exact ⟨_, rfl⟩

theorem body_total {n nv : Nat} (hperm : ∀ k n, (c.perm k n).Perm (List.range n)) (ht : DataUniform n c.train)
    (hv : DataUniform nv c.val) (hs : 0 < c.batchSize) (hvs : 0 < c.valBatchSize)
    (hg : ∀ e b s k ps, ps.length = c.flags.length → c.flags.count true ≤ (c.grad e b s k ps).1.length)
    (hc : ∀ k e ps, ps.length = c.flags.length → (c.callback k e ps).2.length = ps.length) {s : TState P S K F}
    (hl : c.flags.length = s.inner.adam.length) :
    ∃ s', epochBody c s = .ok s' ∧ c.flags.length = s'.inner.adam.length := by
  obtain ⟨i', h1, h2⟩ := fold_total (c := c) (epoch := s.epoch)
    (bs := cuts n c.batchSize (c.train.shuffle c.perm c.splitN (c.split s.batchRng).2)) hl hg
  obtain ⟨v, h3⟩ := valLoss_total hperm hv hvs i' (c.split (c.split s.batchRng).1).2 s.epoch
  have hb := batches_ok (shuffle_uniform hperm c.splitN (c.split s.batchRng).2 ht) hs
  have he : epochTrain c s = .ok ((c.split (c.split s.batchRng).1).1, ⟨v, s.epoch, i'⟩) := by
    unfold epochTrain
    simp only [bind, Except.bind, pure, Except.pure, hb, h1, h3]
  have hfin : ∃ s', epochFinish c s (c.split (c.split s.batchRng).1).1 ⟨v, s.epoch, i'⟩ = .ok s' := by
    unfold epochFinish
    simp only [bind, Except.bind, pure, Except.pure, throw, throwThe, MonadExceptOf.throw]
    rw [if_neg (by rw [hc _ _ _ (by simp [h2])]; simp)]
    exact ⟨_, rfl⟩
  obtain ⟨s', hs'⟩ := hfin
  refine ⟨s', ?_, ?_⟩
  · unfold epochBody
    simp only [bind, Except.bind, he, hs']
  · rw [(finish_frozen (c := c) h2 hs').1]; exact h2

theorem loop_total {n nv : Nat} (hperm : ∀ k n, (c.perm k n).Perm (List.range n)) (ht : DataUniform n c.train)
    (hv : DataUniform nv c.val) (hs : 0 < c.batchSize) (hvs : 0 < c.valBatchSize)
    (hg : ∀ e b s k ps, ps.length = c.flags.length → c.flags.count true ≤ (c.grad e b s k ps).1.length)
    (hc : ∀ k e ps, ps.length = c.flags.length → (c.callback k e ps).2.length = ps.length) (m : Nat) {s : TState P S K F}
    (hl : c.flags.length = s.inner.adam.length) : ∃ t, loop c m s = .ok t := by
  induction m generalizing s with
  | zero => exact ⟨s, rfl⟩
  | succ m ih =>
    unfold loop
    split
    · obtain ⟨s', h1, h2⟩ := body_total hperm ht hv hs hvs hg hc hl
      simp only [h1, bind, Except.bind]
      exact ih h2
    · exact ⟨s, rfl⟩

theorem run_total {n nv : Nat} (hperm : ∀ k n, (c.perm k n).Perm (List.range n)) (ht : DataUniform n c.train)
    (hv : DataUniform nv c.val) (hs : 0 < c.batchSize) (hvs : 0 < c.valBatchSize)
    (hg : ∀ e b s k ps, ps.length = c.flags.length → c.flags.count true ≤ (c.grad e b s k ps).1.length)
    (hc : ∀ k e ps, ps.length = c.flags.length → (c.callback k e ps).2.length = ps.length) (k : K) (adam : List (OptState P)) (st : S) (rng : K)
    (hl : c.flags.length = adam.length) : ∃ t, run c k adam st rng = .ok t := by
  obtain ⟨v, h3⟩ := valLoss_total hperm hv hvs ⟨adam, st, (c.split rng).1⟩ (c.split rng).2 0
  have hi : ∃ s, initial c k adam st rng = .ok s := by
    unfold initial
    simp only [bind, Except.bind, pure, Except.pure, h3]
    exact ⟨_, rfl⟩
  obtain ⟨s, hs'⟩ := hi
  unfold run
  simp only [hs', bind, Except.bind]
  exact loop_total hperm ht hv hs hvs hg hc _ (by rw [(initial_inv hs').2.1]; exact hl)

end Verif.Train
