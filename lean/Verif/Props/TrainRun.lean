import Verif.Lemmas.TrainRun
import Verif.Props.Training

/-! # C112: a training run is the documented sequence of steps -/

namespace Verif.Props

open Verif.Batch Verif.BatchSpec Verif.Train Verif.TrainSpec Verif.TrainRun

variable {α P S K F : Type}

/-- **C112 (run).** A run that ends without an error went through the described epochs, from the described start to its result. -/
theorem C112_run (c : Cfg α P S K F) (n nv : Nat) (hperm : ∀ k n, (c.perm k n).Perm (List.range n))
    (ht : DataUniform n c.train) (hv : DataUniform nv c.val) (hs : 0 < c.batchSize) (hvs : 0 < c.valBatchSize)
    (k : K) (adam : List (OptState P)) (st : S) (rng : K) (hl : c.flags.length = adam.length) (t : TState P S K F)
    (h : run c k adam st rng = .ok t) : ∃ s l, Start c nv k adam st rng s ∧ Epochs c n nv s l t := by
  obtain ⟨s, l, h1, h2⟩ := run_inv h
  obtain ⟨i1, i2, i3, i4, i5, i6⟩ := initial_inv h1
  exact ⟨s, l, ⟨i1, i2, i5, i4, loss_of hperm hv hvs i6, i3⟩, epochs_of hperm ht hv hs hvs (by rw [i2]; exact hl) h2⟩

/-- **C112 (exactly).** The description leaves no choice: a run with one gradient per trainable array and a callback that keeps the number of arrays
ends with `t` exactly if the description ends with `t`. -/
theorem C112_exactly (c : Cfg α P S K F) (n nv : Nat) (hn : 0 < n) (hnv : 0 < nv) (hperm : ∀ k n, (c.perm k n).Perm (List.range n))
    (ht : DataUniform n c.train) (hv : DataUniform nv c.val) (hs : 0 < c.batchSize) (hvs : 0 < c.valBatchSize)
    (hg : ∀ e b s k ps, ps.length = c.flags.length → c.flags.count true ≤ (c.grad e b s k ps).1.length)
    (hc : ∀ k e ps, ps.length = c.flags.length → (c.callback k e ps).2.length = ps.length)
    (k : K) (adam : List (OptState P)) (st : S) (rng : K) (hl : c.flags.length = adam.length) (t : TState P S K F) :
    run c k adam st rng = .ok t ↔ ∃ s l, Start c nv k adam st rng s ∧ Epochs c n nv s l t := by
  refine ⟨C112_run c n nv hperm ht hv hs hvs k adam st rng hl t, fun ⟨s, l, h1, h2⟩ => ?_⟩
  obtain ⟨t', h⟩ := C31_total c n nv hperm ht hv hs hvs hg hc k adam st rng hl
  obtain ⟨s', l', g1, g2⟩ := C112_run c n nv hperm ht hv hs hvs k adam st rng hl t' h
  cases start_unique hperm hnv hvs h1 g1
  cases (epochs_unique hperm hn hnv hs hvs (by rw [h1.inner]; exact hl) h2 g2).2
  exact h

/-- **C112 (every sample once).** The batches of an epoch hold every sample of the data exactly once, with its own target and uncertainty. -/
theorem C112_each_sample_once (c : Cfg α P S K F) (hperm : ∀ k n, (c.perm k n).Perm (List.range n)) (key : K) (n size : Nat)
    (hs : 0 < size) (d d' : Data α) (bs : List (Data α)) (h1 : Reordered c key n d d') (h2 : MiniBatches n size d' bs) :
    ∃ sizes : Data α → Nat, (∀ b ∈ bs, DataUniform (sizes b) b ∧ 0 < sizes b ∧ sizes b ≤ size) ∧
      (bs.flatMap fun b => triples (sizes b) b).Perm (triples n d) := by
  cases mini_unique hs h2 (cuts_mini h1.1 hs)
  have hsz := cuts_sizes hs h1.1
  refine ⟨count, fun b hb => ⟨(hsz b hb).2.2, (hsz b hb).1, (hsz b hb).2.1⟩, ?_⟩
  rw [cuts_triples h1.1]
  exact reordered_perm hperm h1

theorem demo_train : DataUniform 3 demoCfg.train :=
  ⟨⟨by decide, by decide⟩, fun y hy => by cases hy; exact ⟨by decide, by decide⟩, fun u hu => by simp [demoCfg] at hu⟩

theorem demo_val : DataUniform 2 demoCfg.val :=
  ⟨⟨by decide, by decide⟩, fun y hy => by cases hy; exact ⟨by decide, by decide⟩, fun u hu => by simp [demoCfg] at hu⟩

/-- The demonstration run meets the hypotheses; it went through four epochs. -/
example : ∃ t s l, run demoCfg 0 demoAdam () 0 = .ok t ∧ Start demoCfg 2 0 demoAdam () 0 s ∧ Epochs demoCfg 3 2 s l t ∧ t.epoch = 4 := by
  have hg : ∀ e b s k ps, ps.length = demoCfg.flags.length → demoCfg.flags.count true ≤ (demoCfg.grad e b s k ps).1.length := fun _ _ _ _ _ _ => by simp [demoCfg]
  obtain ⟨t, h⟩ := C31_total demoCfg 3 2 demo_perm demo_train demo_val (by decide) (by decide) hg (fun _ _ _ _ => rfl) 0 demoAdam () 0 rfl
  obtain ⟨s, l, h1, h2⟩ := (C112_exactly demoCfg 3 2 (by decide) (by decide) demo_perm demo_train demo_val (by decide) (by decide) hg
    (fun _ _ _ _ => rfl) 0 demoAdam () 0 rfl t).1 h
  have e : (match run demoCfg 0 demoAdam () 0 with | .ok t => some t.epoch | .error _ => none) = some 4 := by decide
  rw [h] at e
  exact ⟨t, s, l, h, h1, h2, by simpa using e⟩

example : Reordered demoCfg 1 3 demoCfg.train (demoCfg.train.shuffle demoCfg.perm demoCfg.splitN 1) ∧
    ∃ bs, MiniBatches 3 2 (demoCfg.train.shuffle demoCfg.perm demoCfg.splitN 1) bs :=
  ⟨shuffle_reordered demo_perm 1 demo_train, _, cuts_mini (shuffle_uniform demo_perm _ 1 demo_train) (by decide)⟩

end Verif.Props
