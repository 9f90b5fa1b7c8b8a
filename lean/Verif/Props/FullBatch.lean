import Verif.Spec.FullBatch
import Verif.Props.Training
import Verif.Model.Loss

/-! # C104: training with the whole data in one batch does not depend on the order of the samples -/

namespace Verif.Props

open Verif.Batch Verif.BatchSpec Verif.Train Verif.TrainSpec

variable {α P S K F : Type}

/-- Two batches with the same samples. -/
def SameBatch (b' b : Data α) : Prop := ∃ n, DataUniform n b ∧ DataUniform n b' ∧ (triples n b').Perm (triples n b)

theorem full_batches {n size : Nat} {d : Data α} (hd : DataUniform n d) (hs : 0 < size) (hn : n ≤ size) :
    ∃ bs, batches d size = .ok bs ∧ ((n = 0 ∧ bs = []) ∨ (0 < n ∧ ∃ b, bs = [b] ∧ DataUniform n b ∧ triples n b = triples n d)) := by
  refine ⟨_, batches_ok hd hs, ?_⟩
  have ht := cuts_triples (size := size) hd
  have hsz := cuts_sizes hs hd
  have hl : (cuts n size d).length = n / size + (if n % size > 0 then 1 else 0) := by
    unfold cuts; split <;> simp
  rcases Nat.eq_zero_or_pos n with h0 | h0
  · left
    subst h0
    refine ⟨rfl, ?_⟩
    rw [Nat.zero_div, Nat.zero_mod] at hl
    exact List.length_eq_zero_iff.1 (by simpa using hl)
  · right
    refine ⟨h0, ?_⟩
    have h1 : (cuts n size d).length = 1 := by
      rw [hl]
      rcases Nat.lt_or_ge n size with h | h
      · rw [Nat.div_eq_of_lt h, Nat.mod_eq_of_lt h, if_pos h0]
      · have : n = size := by omega
        subst this
        rw [Nat.div_self h0, Nat.mod_self]; rfl
    obtain ⟨b, hb⟩ := List.length_eq_one_iff.1 h1
    rw [hb] at ht hsz ⊢
    simp only [List.flatMap_cons, List.flatMap_nil, List.append_nil] at ht
    have hu := (hsz b (by simp)).2.2
    have hc : count b = n := by
      have := congrArg List.length ht
      simpa [triples] using this
    rw [hc] at ht hu
    exact ⟨b, rfl, hu, ht⟩

theorem same_batches {n size size' : Nat} {d d' : Data α} (hd : DataUniform n d) (hd' : DataUniform n d') (hs : 0 < size) (hn : n ≤ size)
    (hs' : 0 < size') (hn' : n ≤ size') (hp : (triples n d').Perm (triples n d)) :
    ∃ bs bs', batches d size = .ok bs ∧ batches d' size' = .ok bs' ∧ List.Forall₂ SameBatch bs' bs := by
  obtain ⟨bs, e, h⟩ := full_batches hd hs hn
  obtain ⟨bs', e', h'⟩ := full_batches hd' hs' hn'
  refine ⟨bs, bs', e, e', ?_⟩
  rcases h with ⟨h0, rfl⟩ | ⟨h0, b, rfl, hu, ht⟩
  · rcases h' with ⟨_, rfl⟩ | ⟨h1, _⟩
    · exact .nil
    · omega
  · rcases h' with ⟨h1, _⟩ | ⟨_, b', rfl, hu', ht'⟩
    · omega
    · exact .cons ⟨n, hu, hu', by rw [ht, ht']; exact hp⟩ .nil

theorem full_total_eq {n size : Nat} (hs : 0 < size) (hn : n ≤ size) : n / size + (if n % size > 0 then 1 else 0) = if 0 < n then 1 else 0 := by
  rcases Nat.lt_or_ge n size with h | h
  · rw [Nat.div_eq_of_lt h, Nat.mod_eq_of_lt h, Nat.zero_add]
  · have : n = size := by omega
    subst this
    rw [Nat.div_self hs, Nat.mod_self, if_neg (by omega), if_pos hs]

theorem full_fold_same {c c' : Cfg α P S K F} (hc : OrderFree c) (e1 : c'.split = c.split) (e2 : c'.grad = c.grad) (e3 : c'.update = c.update)
    (e4 : c'.flags = c.flags) {epoch : Nat} {bs bs' : List (Data α)} (h : List.Forall₂ SameBatch bs' bs) (i : Inner P S K) :
    bs'.foldlM (trainStep c' epoch) i = bs.foldlM (trainStep c epoch) i := by
  induction h generalizing i with
  | nil => rfl
  | @cons b' b l' l hb _ ih =>
    obtain ⟨n, h1, h2, h3⟩ := hb
    have : trainStep c' epoch i b' = trainStep c epoch i b := by
      have hg := hc.grad n b b' h1 h2 h3
      unfold trainStep
      rw [e1, e2, e3, e4]
      rcases c.split i.mrng with ⟨x, y⟩
      simp only [hg]
    rw [List.foldlM_cons, List.foldlM_cons, this]
    congr 1
    funext j
    exact ih j

theorem foldl_same {A B C : Type} {R : A → B → Prop} {f : C → A → C} {g : C → B → C} (hfg : ∀ c a b, R a b → f c a = g c b) {l : List A} {l' : List B}
    (h : List.Forall₂ R l l') (c : C) : l.foldl f c = l'.foldl g c := by
  induction h generalizing c with
  | nil => rfl
  | cons hab _ ih => rw [List.foldl_cons, List.foldl_cons, hfg c _ _ hab, ih]

theorem full_finish_same {c : Cfg α P S K F} (hcb : ∀ k k' e ps, (c.callback k e ps).2 = (c.callback k' e ps).2) {s s' : TState P S K F}
    (hss : outcome s' = outcome s) (k k' : K) (snap : Snap P S K F) : (epochFinish c s' k' snap).map outcome = (epochFinish c s k snap).map outcome := by
  obtain ⟨kr, ep, inn, vl, bst, pat⟩ := s
  obtain ⟨kr', ep', inn', vl', bst', pat'⟩ := s'
  simp only [outcome, Prod.mk.injEq] at hss
  obtain ⟨rfl, rfl, rfl, rfl, rfl⟩ := hss
  have hk := hcb k' k ep' (snap.inner.adam.map (·.params))
  unfold epochFinish
  cases h1 : c.callback k' ep' (snap.inner.adam.map (·.params)) with
  | mk a1 b1 =>
    cases h2 : c.callback k ep' (snap.inner.adam.map (·.params)) with
    | mk a2 b2 =>
      rw [h1, h2] at hk
      simp only at hk
      subst hk
      simp only [h1, h2]
      by_cases hl : b1.length ≠ snap.inner.adam.length
      · simp only [if_pos hl]; rfl
      · simp only [if_neg hl]; rfl

section
variable (c : Cfg α P S K F) (perm' : K → Nat → List Nat) (splitN' : K → Nat → List K) (train' val' : Data α) (size' vsize' : Nat)

/-- The same training with the samples in another order, other shuffles and other batch sizes. -/
def reorder : Cfg α P S K F :=
  { c with perm := perm', splitN := splitN', train := train', val := val', batchSize := size', valBatchSize := vsize' }

variable {c perm' splitN' train' val' size' vsize'} {n nv : Nat}

theorem full_valLoss_same (hc : OrderFree c) (hp : ∀ k n, (c.perm k n).Perm (List.range n)) (hp' : ∀ k n, (perm' k n).Perm (List.range n))
    (hv : DataUniform nv c.val) (hv' : DataUniform nv val') (hpv : (triples nv val').Perm (triples nv c.val))
    (hs : 0 < c.valBatchSize) (hn : nv ≤ c.valBatchSize) (hs' : 0 < vsize') (hn' : nv ≤ vsize') (i : Inner P S K) (k k' : K) (epoch : Nat) :
    batchedValLoss (reorder c perm' splitN' train' val' size' vsize') i k' epoch = batchedValLoss c i k epoch := by
  obtain ⟨bs, bs', e, e', hb⟩ := same_batches (shuffle_uniform hp c.splitN k hv) (shuffle_uniform hp' splitN' k' hv') hs hn hs' hn'
    (((shuffle_triples hp' splitN' k' hv').trans hpv).trans (shuffle_triples hp c.splitN k hv).symm)
  have e2 : batches ((reorder c perm' splitN' train' val' size' vsize').val.shuffle (reorder c perm' splitN' train' val' size' vsize').perm
      (reorder c perm' splitN' train' val' size' vsize').splitN k') (reorder c perm' splitN' train' val' size' vsize').valBatchSize = .ok bs' := e'
  have e3 : numSamples (reorder c perm' splitN' train' val' size' vsize').val.X = .ok nv := numSamples_uniform hv'.X
  have e4 := full_total_eq (size := (reorder c perm' splitN' train' val' size' vsize').valBatchSize) hs' hn'
  unfold batchedValLoss
  simp only [e, e2, e3, numSamples_uniform hv.X, bind, Except.bind, pure, Except.pure]
  rw [full_total_eq hs hn, e4]
  congr 1
  refine foldl_same (fun a b' b h => ?_) hb _
  obtain ⟨m, h1, h2, h3⟩ := h
  show c.add a (c.divNat (c.valLoss epoch b' i.mstate i.mrng _) _) = _
  rw [hc.loss m b b' h1 h2 h3]

theorem full_body_same (hc : OrderFree c) (hcb : ∀ k k' e ps, (c.callback k e ps).2 = (c.callback k' e ps).2)
    (hp : ∀ k n, (c.perm k n).Perm (List.range n)) (hp' : ∀ k n, (perm' k n).Perm (List.range n))
    (ht : DataUniform n c.train) (ht' : DataUniform n train') (hpt : (triples n train').Perm (triples n c.train))
    (hv : DataUniform nv c.val) (hv' : DataUniform nv val') (hpv : (triples nv val').Perm (triples nv c.val))
    (hts : 0 < c.batchSize) (htn : n ≤ c.batchSize) (hts' : 0 < size') (htn' : n ≤ size')
    (hs : 0 < c.valBatchSize) (hn : nv ≤ c.valBatchSize) (hs' : 0 < vsize') (hn' : nv ≤ vsize') {s s' : TState P S K F} (hss : outcome s' = outcome s) :
    (epochBody (reorder c perm' splitN' train' val' size' vsize') s').map outcome = (epochBody c s).map outcome := by
  obtain ⟨kr, ep, inn, vl, bst, pat⟩ := s
  obtain ⟨kr', ep', inn', vl', bst', pat'⟩ := s'
  simp only [outcome, Prod.mk.injEq] at hss
  obtain ⟨rfl, rfl, rfl, rfl, rfl⟩ := hss
  obtain ⟨bs, bs', e, e', hb⟩ := same_batches (shuffle_uniform hp c.splitN (c.split kr).2 ht) (shuffle_uniform hp' splitN' (c.split kr').2 ht') hts htn hts' htn'
    (((shuffle_triples hp' splitN' _ ht').trans hpt).trans (shuffle_triples hp c.splitN _ ht).symm)
  unfold epochBody epochTrain
  have e2 : batches ((reorder c perm' splitN' train' val' size' vsize').train.shuffle (reorder c perm' splitN' train' val' size' vsize').perm
      (reorder c perm' splitN' train' val' size' vsize').splitN ((reorder c perm' splitN' train' val' size' vsize').split kr').2)
      (reorder c perm' splitN' train' val' size' vsize').batchSize = .ok bs' := e'
  simp only [e, e2, bind, Except.bind, pure, Except.pure]
  rw [full_fold_same (c' := reorder c perm' splitN' train' val' size' vsize') hc rfl rfl rfl rfl hb]
  cases hf : bs.foldlM (trainStep c ep') inn' with
  | error x => rfl
  | ok j =>
    simp only
    rw [full_valLoss_same hc hp hp' hv hv' hpv hs hn hs' hn' j (c.split (c.split kr).1).2 _ ep']
    cases hl : batchedValLoss c j (c.split (c.split kr).1).2 ep' with
    | error x => rfl
    | ok v =>
      exact full_finish_same hcb rfl _ _ _

theorem full_loop_same (hc : OrderFree c) (hcb : ∀ k k' e ps, (c.callback k e ps).2 = (c.callback k' e ps).2)
    (hp : ∀ k n, (c.perm k n).Perm (List.range n)) (hp' : ∀ k n, (perm' k n).Perm (List.range n))
    (ht : DataUniform n c.train) (ht' : DataUniform n train') (hpt : (triples n train').Perm (triples n c.train))
    (hv : DataUniform nv c.val) (hv' : DataUniform nv val') (hpv : (triples nv val').Perm (triples nv c.val))
    (hts : 0 < c.batchSize) (htn : n ≤ c.batchSize) (hts' : 0 < size') (htn' : n ≤ size')
    (hs : 0 < c.valBatchSize) (hn : nv ≤ c.valBatchSize) (hs' : 0 < vsize') (hn' : nv ≤ vsize') (m : Nat) :
    ∀ {s s' : TState P S K F}, outcome s' = outcome s →
    (loop (reorder c perm' splitN' train' val' size' vsize') m s').map outcome = (loop c m s).map outcome := by
  induction m with
  | zero => intro s s' h; exact congrArg Except.ok h
  | succ m ih =>
    intro s s' h
    have hcond : epochCond (reorder c perm' splitN' train' val' size' vsize') s' = epochCond c s := by
      obtain ⟨kr, ep, inn, vl, bst, pat⟩ := s
      obtain ⟨kr', ep', inn', vl', bst', pat'⟩ := s'
      simp only [outcome, Prod.mk.injEq] at h
      obtain ⟨rfl, rfl, rfl, rfl, rfl⟩ := h
      rfl
    have hbody := full_body_same (splitN' := splitN') (c := c) hc hcb hp hp' ht ht' hpt hv hv' hpv hts htn hts' htn' hs hn hs' hn' h
    unfold loop
    rw [hcond]
    split
    · cases he : epochBody c s with
      | error x =>
        cases he' : epochBody (reorder c perm' splitN' train' val' size' vsize') s' with
        | error y => rw [he, he'] at hbody; simpa [Except.map, bind, Except.bind] using hbody
        | ok t => rw [he, he'] at hbody; cases hbody
      | ok t =>
        cases he' : epochBody (reorder c perm' splitN' train' val' size' vsize') s' with
        | error y => rw [he, he'] at hbody; cases hbody
        | ok t' =>
          rw [he, he'] at hbody
          exact ih (Except.ok.inj hbody)
    · exact congrArg Except.ok h

end

/-- **C104** With the whole data in one batch, for training and for validation, a training does not depend on the order of the samples, on the key for shuffling or on
how the data is shuffled: it ends after as many epochs with the same models and losses, or raises the same exception. -/
theorem C104_order (c : Cfg α P S K F) (hc : OrderFree c) (hcb : ∀ k k' e ps, (c.callback k e ps).2 = (c.callback k' e ps).2)
    (perm' : K → Nat → List Nat) (splitN' : K → Nat → List K) (hp : ∀ k n, (c.perm k n).Perm (List.range n)) (hp' : ∀ k n, (perm' k n).Perm (List.range n))
    (train' val' : Data α) (n nv : Nat) (ht : DataUniform n c.train) (ht' : DataUniform n train') (hpt : (triples n train').Perm (triples n c.train))
    (hv : DataUniform nv c.val) (hv' : DataUniform nv val') (hpv : (triples nv val').Perm (triples nv c.val))
    (size' vsize' : Nat) (hts : 0 < c.batchSize) (htn : n ≤ c.batchSize) (hts' : 0 < size') (htn' : n ≤ size')
    (hs : 0 < c.valBatchSize) (hn : nv ≤ c.valBatchSize) (hs' : 0 < vsize') (hn' : nv ≤ vsize') (k k' : K) (adam : List (OptState P)) (st : S) (rng : K) :
    (run { c with perm := perm', splitN := splitN', train := train', val := val', batchSize := size', valBatchSize := vsize' } k' adam st rng).map outcome =
      (run c k adam st rng).map outcome := by
  show (run (reorder c perm' splitN' train' val' size' vsize') k' adam st rng).map outcome = _
  have hl' := full_valLoss_same (splitN' := splitN') (train' := train') (size' := size') hc hp hp' hv hv' hpv hs hn hs' hn' ⟨adam, st, (c.split rng).1⟩ (c.split rng).2
    (c.split rng).2 0
  change batchedValLoss _ ⟨adam, st, ((reorder c perm' splitN' train' val' size' vsize').split rng).1⟩
    ((reorder c perm' splitN' train' val' size' vsize').split rng).2 0 = _ at hl'
  cases hl : batchedValLoss c ⟨adam, st, (c.split rng).1⟩ (c.split rng).2 0 with
  | error e =>
    rw [hl] at hl'
    simp only [run, initial, bind, Except.bind, pure, Except.pure, hl, hl']
  | ok v =>
    rw [hl] at hl'
    simp only [run, initial, bind, Except.bind, pure, Except.pure, hl, hl']
    exact full_loop_same hc hcb hp hp' ht ht' hpt hv hv' hpv hts htn hts' htn' hs hn hs' hn' c.epochs rfl

/-- **C104** In particular the result does not depend on the seed for the batches. -/
theorem C104_seed (c : Cfg α P S K F) (hc : OrderFree c) (hcb : ∀ k k' e ps, (c.callback k e ps).2 = (c.callback k' e ps).2)
    (hp : ∀ k n, (c.perm k n).Perm (List.range n)) (n nv : Nat) (ht : DataUniform n c.train) (hv : DataUniform nv c.val)
    (hts : 0 < c.batchSize) (htn : n ≤ c.batchSize) (hs : 0 < c.valBatchSize) (hn : nv ≤ c.valBatchSize) (k k' : K) (adam : List (OptState P)) (st : S) (rng : K) :
    (run c k' adam st rng).map outcome = (run c k adam st rng).map outcome :=
  C104_order c hc hcb c.perm c.splitN hp hp c.train c.val n nv ht ht (.refl _) hv hv (.refl _) c.batchSize c.valBatchSize hts htn hts htn hs hn hs hn k k' adam st rng

/-! ### The built-in losses do not depend on the order of the samples -/

section
open Verif.Loss
variable {𝕜 : Type} [RCLike 𝕜]

/-- The predictions, targets and uncertainties in arrays of triples of numbers. -/
def predsOf (Z : Leaves (Option 𝕜 × Option 𝕜 × Option 𝕜)) : Leaves (Option 𝕜) := Z.map fun z => z.map fun t => t.1
/-- The targets. -/
def targsOf (Z : Leaves (Option 𝕜 × Option 𝕜 × Option 𝕜)) : Leaves (Option 𝕜) := Z.map fun z => z.map fun t => t.2.1
/-- The uncertainties. -/
def uncsOf (Z : Leaves (Option 𝕜 × Option 𝕜 × Option 𝕜)) : Leaves (Option 𝕜) := Z.map fun z => z.map fun t => t.2.2

theorem map2_maps {T A B C : Type} (f : A → B → C) (g : T → A) (h : T → B) (Z : Leaves T) :
    map2 f (Z.map fun z => z.map g) (Z.map fun z => z.map h) = .ok (Z.map fun z => z.map fun t => f (g t) (h t)) := by
  unfold map2
  rw [if_neg (by simp), if_pos]
  · congr 1
    induction Z with
    | nil => rfl
    | cons z Z ih =>
      simp only [List.map_cons, List.zipWith_cons_cons, ih, List.cons.injEq, and_true]
      induction z with
      | nil => rfl
      | cons t z ih => simp [ih]
  · induction Z with
    | nil => rfl
    | cons z Z ih => simp

theorem map1_maps {T A B : Type} (f : A → B) (g : T → A) (Z : Leaves T) : map1 f (Z.map fun z => z.map g) = Z.map fun z => z.map fun t => f (g t) := by
  simp [map1]

theorem fsum_perm {x y : List (Option ℝ)} (h : x.Perm y) : fsum x = fsum y := by
  unfold fsum
  induction h with
  | nil => rfl
  | cons a _ ih => simp only [List.foldr_cons, ih]
  | swap a b l =>
    simp only [List.foldr_cons]
    generalize List.foldr (lift2 fun x1 x2 : ℝ => x1 + x2) (some 0) l = r
    cases a <;> cases b <;> cases r <;> simp [lift2]
    ring
  | trans _ _ h1 h2 => exact h1.trans h2

theorem mean_perm {T : Type} (f : T → Option ℝ) {Z Z' : Leaves T} (h : List.Forall₂ List.Perm Z' Z) :
    mean (Z'.map fun z => z.map f) = mean (Z.map fun z => z.map f) := by
  have h1 : (Z'.map fun z => z.map f).map fsum = (Z.map fun z => z.map f).map fsum := by
    induction h with
    | nil => rfl
    | cons hp _ ih =>
      rw [List.map_cons, List.map_cons, List.map_cons, List.map_cons, ih, fsum_perm (hp.map f)]
  have h2 : (Z'.map fun z => z.map f).map List.length = (Z.map fun z => z.map f).map List.length := by
    induction h with
    | nil => rfl
    | cons hp _ ih =>
      simp only [List.map_cons, List.length_map] at ih ⊢
      rw [hp.length_eq, ih (by simpa using congrArg List.tail h1)]
  unfold mean
  rw [h1, h2]

/-- **C104** The built-in losses are the same if the samples are in another order: the entries of the predictions, targets and uncertainties are rearranged together. -/
theorem C104_losses (k : Kind) (Z Z' : Leaves (Option 𝕜 × Option 𝕜 × Option 𝕜)) (h : List.Forall₂ List.Perm Z' Z) :
    loss k (predsOf Z') (targsOf Z') (uncsOf Z') = loss k (predsOf Z) (targsOf Z) (uncsOf Z) := by
  have hl := h.length_eq
  unfold loss predsOf targsOf uncsOf fsub fadd fmul fdivT fabs fabsSqr scalarAdd scalarMul
  cases k <;> simp only [map2_maps, map1_maps, bind, Except.bind, pure, Except.pure, List.length_map, hl]
  case huber δ =>
    split
    · rfl
    · exact congrArg Except.ok (mean_perm _ h)
  all_goals exact congrArg Except.ok (mean_perm _ h)

/-- The loss of a batch of `n` samples: `φ j` gives the entries of array `j` of predictions, targets and uncertainties that come from one sample, of `w` arrays. -/
noncomputable def batchLoss (k : Kind) (w n : Nat)
    (φ : Nat → List (Option α) × Option (List (Option α)) × Option (List (Option α)) → List (Option 𝕜 × Option 𝕜 × Option 𝕜)) (d : Data α) :
    Except PyErr (Option ℝ) :=
  let Z := (List.range w).map fun j => (triples n d).flatMap (φ j)
  loss k (predsOf Z) (targsOf Z) (uncsOf Z)

theorem batchLoss_perm (k : Kind) (w n : Nat)
    (φ : Nat → List (Option α) × Option (List (Option α)) × Option (List (Option α)) → List (Option 𝕜 × Option 𝕜 × Option 𝕜)) {d d' : Data α}
    (h : (triples n d').Perm (triples n d)) : batchLoss k w n φ d' = batchLoss k w n φ d := by
  refine C104_losses k _ _ ?_
  generalize List.range w = l
  induction l with
  | nil => exact .nil
  | cons j l ih => exact .cons (h.flatMap_right _) ih

/-- **C104** The condition of `C104_order` holds for every built-in loss and every model that predicts sample by sample (`φ e s k q j t`: in epoch `e`, with state `s`, key `k` and
parameters `q`), whatever the derivative `D` of the loss by the parameters is. -/
theorem C104_builtin (c : Cfg α P S K F) (kind : Kind) (w : Nat)
    (φ : Nat → S → K → List P → Nat → List (Option α) × Option (List (Option α)) × Option (List (Option α)) → List (Option 𝕜 × Option 𝕜 × Option 𝕜))
    (D : (List P → Except PyErr (Option ℝ)) → List P → List P) (V : Except PyErr (Option ℝ) → F) (T : Nat → S → K → List P → S)
    (hg : ∀ n d, DataUniform n d → ∀ e s k ps, c.grad e d s k ps = (D (fun q => batchLoss kind w n (φ e s k q) d) ps, T e s k ps))
    (hv : ∀ n d, DataUniform n d → ∀ e s k ps, c.valLoss e d s k ps = V (batchLoss kind w n (φ e s k ps) d)) : OrderFree c where
  grad n d d' h h' hp e s k ps := by
    rw [hg n d h, hg n d' h']
    have : (fun q => batchLoss kind w n (φ e s k q) d') = fun q => batchLoss kind w n (φ e s k q) d := funext fun q => batchLoss_perm kind w n _ hp
    rw [this]
  loss n d d' h h' hp e s k ps := by
    rw [hv n d h, hv n d' h', batchLoss_perm kind w n _ hp]

end

/-! ### Examples -/

/-- The gradient is minus the sum of the products of features and targets; the update doubles the parameter and subtracts the gradient. -/
def sumCfg (size : Nat) : Cfg Nat Int Unit Nat (Option Int) :=
  { demoCfg with
    grad := fun _ b s _ _ => ([-((triples (count b) b).map fun t => (((t.1.headD none).getD 0 * (((t.2.1.getD []).headD none).getD 0) : Nat) : Int)).sum], s)
    update := fun d a => { a with params := 2 * a.params - d }
    valLoss := fun _ _ _ _ ps => some ((ps.headD 0 - 500) * (ps.headD 0 - 500))
    batchSize := size }

theorem sum_orderFree (size : Nat) : OrderFree (sumCfg size) where
  grad n d d' h h' hp e s k ps := by
    simp only [sumCfg, count_uniform h, count_uniform h']
    rw [(hp.map _).sum_eq]
  loss n d d' h h' hp e s k ps := rfl

example : DataUniform 3 (sumCfg 5).train ∧ DataUniform 2 (sumCfg 5).val ∧
    DataUniform 3 (⟨[[3, 1, 2]], some [[30, 10, 20]], none⟩ : Data Nat) ∧
    (triples 3 (⟨[[3, 1, 2]], some [[30, 10, 20]], none⟩ : Data Nat)).Perm (triples 3 (sumCfg 5).train) := by
  refine ⟨⟨⟨by decide, by decide⟩, ?_, ?_⟩, ⟨⟨by decide, by decide⟩, ?_, ?_⟩, ⟨⟨by decide, by decide⟩, ?_, ?_⟩, by decide⟩ <;> intro y hy <;> cases hy <;> exact ⟨by decide, by decide⟩

-- one batch: keys 0 and 1 shuffle differently and give the same
example : (match run (sumCfg 5) 0 demoAdam () 0 with | .ok t => some (t.epoch, t.best.loss, t.best.inner.adam.map (·.params)) | .error _ => none) =
      some (4, some 6400, [420, 100]) ∧
    (match run (sumCfg 5) 1 demoAdam () 0 with | .ok t => some (t.epoch, t.best.loss, t.best.inner.adam.map (·.params)) | .error _ => none) =
      some (4, some 6400, [420, 100]) := by decide

-- with smaller batches the key matters
example : (match run (sumCfg 1) 0 demoAdam () 0 with | .ok t => some (t.best.inner.adam.map OptState.params) | .error _ => none) ≠
    (match run (sumCfg 1) 1 demoAdam () 0 with | .ok t => some (t.best.inner.adam.map OptState.params) | .error _ => none) := by decide

end Verif.Props
