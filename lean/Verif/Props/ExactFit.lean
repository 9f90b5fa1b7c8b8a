import Verif.Props.DeadUnits

/-! # C146: a training that starts at an exact fit stays there -/

namespace Verif.Props
open Batch BatchSpec Train TrainSpec Adam SymmetrySpec Prebuilt NetworkSpec
open HermTrain hiding gradC gradR update
open TrainUnitsSpec (gradR gradC)

variable {ι : Type} {α S K F : Type}

/-- A batch of `n` samples that are all samples of the data `d` with `N` samples. -/
def SamplesOf (N : Nat) (d : Data α) (n : Nat) (b : Data α) : Prop := DataUniform n b ∧ ∀ m < n, ∃ m' < N, triple b m = triple d m'

theorem batches_samplesOf {P : Type} (c : Cfg α P S K F) (hperm : ∀ k n, (c.perm k n).Perm (List.range n)) (N : Nat) (hd : DataUniform N c.train) (hb : 0 < c.batchSize) (s : TState P S K F) (k : K) (snap : Snap P S K F)
    (he : epochTrain c s = .ok (k, snap)) : ∃ bs, Steps c s.epoch bs s.inner snap.inner ∧ ∀ b ∈ bs, ∃ n, SamplesOf N c.train n b := by
  obtain ⟨bs, hs, -, sizes, hsz, hperm'⟩ := C27_each_sample_once c hperm N hd hb s k snap he
  refine ⟨bs, hs, fun b hbm => ⟨sizes b, hsz b hbm, fun m hm => ?_⟩⟩
  have hmem : triple b m ∈ bs.flatMap fun b => triples (sizes b) b := List.mem_flatMap.2 ⟨b, hbm, List.mem_map.2 ⟨m, List.mem_range.2 hm, rfl⟩⟩
  obtain ⟨m', hm', e⟩ := List.mem_map.1 (hperm'.subset hmem)
  exact ⟨m', List.mem_range.1 hm', e.symm⟩

theorem params_eq {A : Type} {x0 : List A} {adam : List (OptState A)} (hl : x0.length = adam.length) (h : ∀ (j : Nat) (a : OptState A), adam[j]? = some a → x0[j]? = some a.params) : adam.map (·.params) = x0 := by
  apply List.ext_getElem?
  intro j
  rw [List.getElem?_map]
  by_cases hj : j < adam.length
  · have e : adam[j]? = some adam[j] := List.getElem?_eq_getElem hj
    rw [h j _ e, e]
    rfl
  · rw [List.getElem?_eq_none (by omega), List.getElem?_eq_none (by omega)]
    rfl

theorem set_same {A : Type} (ps : List A) (j : Nat) (M : A) (h : ps[j]? = some M) : ps.set j M = ps := by
  obtain ⟨hj, rfl⟩ := List.getElem?_eq_some_iff.1 h
  exact List.set_getElem_self hj

/-- **C146 (real arrays).** If no parameters give a smaller loss than `x0` on any batch of samples of the training data, for example because the model with `x0` fits these data exactly, then a training with a new optimiser
that starts with `x0` ends with `x0`, in the last model and in the best one: for any numbers of epochs and batches and any learning rates. -/
theorem C146_real [DecidableEq ι] (c : Cfg α (ι → ℝ) S K F) (lr : Nat → ℝ) (b1 b2 eps clip : ℝ) (hc : 0 ≤ clip)
    (hu : c.update = update lr b1 b2 eps clip ∨ c.update = updateRinC lr b1 b2 eps clip) (L : Nat → Data α → S → K → List (ι → ℝ) → ℝ)
    (hg : ∀ e b st k (ps : List (ι → ℝ)) j M, ps[j]? = some M → c.flags[j]? = some true → ∀ g, (c.grad e b st k ps).1[(c.flags.take j).count true]? = some g →
      g = gradR (fun Q => L e b st k (ps.set j Q)) M)
    (hcb : ∀ k e (ps : List (ι → ℝ)), (c.callback k e ps).2 = ps) (hperm : ∀ k n, (c.perm k n).Perm (List.range n)) (N : Nat) (hd : DataUniform N c.train) (hb : 0 < c.batchSize)
    (k : K) (x0 : List (ι → ℝ)) (st : S) (rng : K) (t : TState (ι → ℝ) S K F) (hl : c.flags.length = x0.length) (h : run c k (x0.map Adam.init) st rng = .ok t)
    (hmin : ∀ e b st k n, SamplesOf N c.train n b → ∀ ps, L e b st k x0 ≤ L e b st k ps)
    (i : Inner (ι → ℝ) S K) (hi : i = t.inner ∨ i = t.best.inner) (j : Nat) (a : OptState (ι → ℝ)) (ha : i.adam[j]? = some a) : x0[j]? = some a.params := by
  have hk : KeptOn c (fun b => ∃ n, SamplesOf N c.train n b) fun j a => x0[j]? = some a.params ∧ ∀ q, a.m q = 0 := by
    refine ⟨?_, fun j a n h => h, hcb⟩
    intro epoch b i hB hlen hI j a g ha hf hd
    obtain ⟨n, hn⟩ := hB
    have hp : (i.adam.map (·.params))[j]? = some a.params := by rw [List.getElem?_map, ha]; rfl
    have hx : i.adam.map (·.params) = x0 := params_eq (by omega) fun j a ha => (hI j a ha).1
    have h0 : ∀ q, g q = 0 := by
      intro q
      rw [hg _ _ _ _ _ j _ hp hf g hd]
      refine IsLocalMin.deriv_eq_zero (Filter.Eventually.of_forall fun t => ?_)
      simp only [add_zero, Function.update_eq_self]
      rw [set_same _ _ _ hp, hx]
      exact hmin _ _ _ _ n hn _
    obtain ⟨hI1, hI2⟩ := hI j a ha
    have hpar : (update lr b1 b2 eps clip g a).params = a.params := by
      funext q
      simp only [update, h0, hI2, clipR_zero hc]
      simp
    have hm : ∀ q, (update lr b1 b2 eps clip g a).m q = 0 := by
      intro q
      simp only [update, h0, hI2, clipR_zero hc]
      simp
    rcases hu with hu | hu <;> rw [hu]
    · exact ⟨by rw [hpar]; exact hI1, hm⟩
    · exact ⟨by simp only [updateRinC]; rw [hpar]; exact hI1, hm⟩
  have h0 : AllHave (fun j (a : OptState (ι → ℝ)) => x0[j]? = some a.params ∧ ∀ q, a.m q = 0) (x0.map Adam.init) := by
    intro j a ha
    rw [List.getElem?_map, Option.map_eq_some_iff] at ha
    obtain ⟨P, hP, rfl⟩ := ha
    exact ⟨hP, fun _ => rfl⟩
  obtain ⟨r1, r2⟩ := run_on hk (batches_samplesOf c hperm N hd hb) (by simp [hl]) h h0
  rcases hi with rfl | rfl
  · exact (r1 j a ha).1
  · exact (r2 j a ha).1

/-- **C146 (complex arrays).** The same for complex arrays. -/
theorem C146_complex [DecidableEq ι] (c : Cfg α (ι → ℂ) S K F) (lr : Nat → ℝ) (b1 b2 eps clip : ℝ) (hc : 0 ≤ clip)
    (hu : c.update = updateC lr b1 b2 eps clip) (L : Nat → Data α → S → K → List (ι → ℂ) → ℝ)
    (hg : ∀ e b st k (ps : List (ι → ℂ)) j M, ps[j]? = some M → c.flags[j]? = some true → ∀ g, (c.grad e b st k ps).1[(c.flags.take j).count true]? = some g →
      g = gradC (fun Q => L e b st k (ps.set j Q)) M)
    (hcb : ∀ k e (ps : List (ι → ℂ)), (c.callback k e ps).2 = ps) (hperm : ∀ k n, (c.perm k n).Perm (List.range n)) (N : Nat) (hd : DataUniform N c.train) (hb : 0 < c.batchSize)
    (k : K) (x0 : List (ι → ℂ)) (st : S) (rng : K) (t : TState (ι → ℂ) S K F) (hl : c.flags.length = x0.length) (h : run c k (x0.map Adam.initC) st rng = .ok t)
    (hmin : ∀ e b st k n, SamplesOf N c.train n b → ∀ ps, L e b st k x0 ≤ L e b st k ps)
    (i : Inner (ι → ℂ) S K) (hi : i = t.inner ∨ i = t.best.inner) (j : Nat) (a : OptState (ι → ℂ)) (ha : i.adam[j]? = some a) : x0[j]? = some a.params := by
  have hk : KeptOn c (fun b => ∃ n, SamplesOf N c.train n b) fun j a => x0[j]? = some a.params ∧ ∀ q, a.m q = 0 := by
    refine ⟨?_, fun j a n h => h, hcb⟩
    intro epoch b i hB hlen hI j a g ha hf hd
    obtain ⟨n, hn⟩ := hB
    have hp : (i.adam.map (·.params))[j]? = some a.params := by rw [List.getElem?_map, ha]; rfl
    have hx : i.adam.map (·.params) = x0 := params_eq (by omega) fun j a ha => (hI j a ha).1
    have hz : ∀ q (w : ℂ), deriv (fun t : ℝ => L epoch b i.mstate (c.split i.mrng).2 ((i.adam.map (·.params)).set j (Function.update a.params q (a.params q + t * w)))) 0 = 0 := by
      intro q w
      refine IsLocalMin.deriv_eq_zero (Filter.Eventually.of_forall fun t => ?_)
      simp only [Complex.ofReal_zero, zero_mul, add_zero, Function.update_eq_self]
      rw [set_same _ _ _ hp, hx]
      exact hmin _ _ _ _ n hn _
    have h0 : ∀ q, g q = 0 := by
      intro q
      rw [hg _ _ _ _ _ j _ hp hf g hd]
      have e1 := hz q 1
      have e2 := hz q Complex.I
      simp only [mul_one] at e1
      simp only [gradC, e1, e2]
      simp
    obtain ⟨hI1, hI2⟩ := hI j a ha
    have hcz : clipC clip 0 = 0 := by simp [clipC, clipR_zero hc]
    rw [hu]
    refine ⟨?_, fun q => ?_⟩
    · rw [hI1]
      congr 1
      funext q
      simp only [updateC, h0, hI2, hcz]
      simp
    · simp only [updateC, h0, hI2, hcz]
      simp
  have h0 : AllHave (fun j (a : OptState (ι → ℂ)) => x0[j]? = some a.params ∧ ∀ q, a.m q = 0) (x0.map Adam.initC) := by
    intro j a ha
    rw [List.getElem?_map, Option.map_eq_some_iff] at ha
    obtain ⟨P, hP, rfl⟩ := ha
    exact ⟨hP, fun _ => rfl⟩
  obtain ⟨r1, r2⟩ := run_on hk (batches_samplesOf c hperm N hd hb) (by simp [hl]) h h0
  rcases hi with rfl | rfl
  · exact (r1 j a ha).1
  · exact (r2 j a ha).1

/-- The mean over the samples of a batch of a loss of single samples. -/
noncomputable def meanLoss {A : Type} (l : List (Option α) × Option (List (Option α)) × Option (List (Option α)) → List A → ℝ) (b : Data α) (ps : List A) : ℝ :=
  ((List.range (b.X.headD []).length).map fun m => l (triple b m) ps).sum / (b.X.headD []).length

theorem mean_min {A : Type} (l : List (Option α) × Option (List (Option α)) × Option (List (Option α)) → List A → ℝ) (N : Nat) (d : Data α) (x0 : List A) (hpos : ∀ s ps, 0 ≤ l s ps) (hfit : ∀ m < N, l (triple d m) x0 = 0)
    (n : Nat) (b : Data α) (h : SamplesOf N d n b) (ps : List A) : meanLoss l b x0 ≤ meanLoss l b ps := by
  have hlen : (b.X.headD []).length = n := by
    obtain ⟨hne, hall⟩ := h.1.X
    cases hX : b.X with
    | nil => exact absurd hX hne
    | cons y ys => exact hall y (by rw [hX]; exact List.mem_cons_self)
  have hz : meanLoss l b x0 = 0 := by
    unfold meanLoss
    rw [List.sum_eq_zero, zero_div]
    intro r hr
    obtain ⟨m, hm, rfl⟩ := List.mem_map.1 hr
    obtain ⟨m', hm', e⟩ := h.2 m (by rw [← hlen]; exact List.mem_range.1 hm)
    simp only [e]
    exact hfit m' hm'
  rw [hz]
  refine div_nonneg (List.sum_nonneg fun r hr => ?_) (Nat.cast_nonneg _)
  obtain ⟨m, -, rfl⟩ := List.mem_map.1 hr
  exact hpos _ _

/-- **C146 (exact fits).** If the loss of a batch is the mean of losses of its samples that are never negative, and the loss of every training sample is zero for the parameters `x0`, then a training with a new optimiser
that starts with `x0` ends with `x0`. -/
theorem C146_exact [DecidableEq ι] (c : Cfg α (ι → ℝ) S K F) (lr : Nat → ℝ) (b1 b2 eps clip : ℝ) (hc : 0 ≤ clip)
    (hu : c.update = update lr b1 b2 eps clip ∨ c.update = updateRinC lr b1 b2 eps clip) (l : List (Option α) × Option (List (Option α)) × Option (List (Option α)) → List (ι → ℝ) → ℝ)
    (hg : ∀ e b st k (ps : List (ι → ℝ)) j M, ps[j]? = some M → c.flags[j]? = some true → ∀ g, (c.grad e b st k ps).1[(c.flags.take j).count true]? = some g →
      g = gradR (fun Q => meanLoss l b (ps.set j Q)) M)
    (hcb : ∀ k e (ps : List (ι → ℝ)), (c.callback k e ps).2 = ps) (hperm : ∀ k n, (c.perm k n).Perm (List.range n)) (N : Nat) (hd : DataUniform N c.train) (hb : 0 < c.batchSize)
    (k : K) (x0 : List (ι → ℝ)) (st : S) (rng : K) (t : TState (ι → ℝ) S K F) (hl : c.flags.length = x0.length) (h : run c k (x0.map Adam.init) st rng = .ok t)
    (hpos : ∀ s ps, 0 ≤ l s ps) (hfit : ∀ m < N, l (triple c.train m) x0 = 0)
    (i : Inner (ι → ℝ) S K) (hi : i = t.inner ∨ i = t.best.inner) (j : Nat) (a : OptState (ι → ℝ)) (ha : i.adam[j]? = some a) : x0[j]? = some a.params :=
  C146_real c lr b1 b2 eps clip hc hu (fun _ b _ _ ps => meanLoss l b ps) hg hcb hperm N hd hb k x0 st rng t hl h (fun _ b _ _ n hn ps => mean_min l N c.train x0 hpos hfit n b hn ps) i hi j a ha

/-! ## Trainings to which this applies -/

/-- The squared error of a line through the origin with slope `ps[0]`, for one sample. -/
noncomputable def lineLoss (s : List (Option ℝ) × Option (List (Option ℝ)) × Option (List (Option ℝ))) (ps : List (Unit → ℝ)) : ℝ :=
  (ps.getD 0 0 () * (s.1.headD Option.none).getD 0 - ((s.2.1.getD []).headD Option.none).getD 0) ^ 2

/-- A training of the slope, on the samples (1, 3) and (2, 6). -/
noncomputable def lineCfg : Train.Cfg ℝ (Unit → ℝ) Unit Nat (Option ℝ) where
  perm _ n := List.range n
  splitN _ n := List.range n
  split k := (k + 1, k + 7)
  grad _ b s _ ps := (ps.mapIdx fun j M => gradR (fun Q => meanLoss lineLoss b (ps.set j Q)) M, s)
  valLoss _ b _ _ ps := some (meanLoss lineLoss b ps)
  update := update (fun _ => 1 / 100) 0.9 0.999 1e-8 1e3
  callback k _ ps := (k, ps)
  verbose := false
  interrupted _ := false
  flags := [true]
  train := ⟨[[1, 2]], some [[3, 6]], Option.none⟩
  val := ⟨[[1, 2]], some [[3, 5]], Option.none⟩
  batchSize := 1
  valBatchSize := 2
  epochs := 10
  target := some 0
  patience := 5
  minDelta := some 0
  lt a b := match a, b with
    | some r, some q => decide (r < q)
    | _, _ => false
  le a b := match a, b with
    | some r, some q => decide (r ≤ q)
    | _, _ => false
  sub a b := match a, b with
    | some r, some q => some (r - q)
    | _, _ => Option.none
  add a b := match a, b with
    | some r, some q => some (r + q)
    | _, _ => Option.none
  divNat a n := a.map (· / n)
  zero := some 0

/-- The slope 3 fits, and stays. -/
example : ∃ t, run lineCfg 0 ([fun _ => (3 : ℝ)].map Adam.init) () 0 = .ok t ∧ ∀ a : OptState (Unit → ℝ), t.inner.adam[0]? = some a → a.params () = 3 := by
  have hu : ∀ d ∈ [lineCfg.train, lineCfg.val], DataUniform 2 d := by
    intro d hd
    simp only [List.mem_cons, List.not_mem_nil, or_false] at hd
    rcases hd with rfl | rfl <;>
    exact ⟨⟨by simp [lineCfg], by simp [lineCfg]⟩, fun y hy => by cases hy; exact ⟨by simp, by simp⟩, fun u hu => by simp [lineCfg] at hu⟩
  obtain ⟨t, ht⟩ : ∃ t, run lineCfg 0 ([fun _ => (3 : ℝ)].map Adam.init) () 0 = .ok t := by
    refine C31_total lineCfg 2 2 (fun _ _ => List.Perm.refl _) (hu _ (by simp)) (hu _ (by simp)) Nat.one_pos Nat.two_pos (fun e b s k ps hps => ?_) (fun _ _ _ _ => rfl) 0 _ () 0 rfl
    simp [lineCfg] at hps ⊢
    omega
  refine ⟨t, ht, fun a ha => ?_⟩
  have := C146_exact lineCfg (fun _ => 1 / 100) 0.9 0.999 1e-8 1e3 (by norm_num) (.inl rfl) lineLoss (fun e b st k ps j M hM hf g hgr => by
      have hj : j = 0 := by
        cases j with
        | zero => rfl
        | succ j => simp [lineCfg] at hf
      subst hj
      simp only [lineCfg, List.take_zero, List.count_nil, List.getElem?_mapIdx, hM, Option.map_some, Option.some.injEq] at hgr
      exact hgr.symm) (fun _ _ _ => rfl) (fun _ _ => List.Perm.refl _) 2 (hu _ (by simp)) Nat.one_pos 0 [fun _ => 3] () 0 t rfl ht (fun s ps => sq_nonneg _)
    (fun m hm => by
      have : m = 0 ∨ m = 1 := by omega
      rcases this with rfl | rfl <;> simp [lineLoss, triple, sampleAt, lineCfg] <;> norm_num) _ (.inl rfl) 0 a ha
  simp only [List.getElem?_cons_zero, Option.some.injEq] at this
  rw [← this]

/-- The loss of a complex slope: the squared absolute value of the error. -/
noncomputable def lineLossC (s : List (Option ℝ) × Option (List (Option ℝ)) × Option (List (Option ℝ))) (ps : List (Unit → ℂ)) : ℝ :=
  Complex.normSq (ps.getD 0 0 () * ((s.1.headD Option.none).getD 0 : ℝ) - (((s.2.1.getD []).headD Option.none).getD 0 : ℝ))

/-- The same training with a complex slope. -/
noncomputable def lineCfgC : Train.Cfg ℝ (Unit → ℂ) Unit Nat (Option ℝ) where
  perm _ n := List.range n
  splitN _ n := List.range n
  split k := (k + 1, k + 7)
  grad _ b s _ ps := (ps.mapIdx fun j M => gradC (fun Q => meanLoss lineLossC b (ps.set j Q)) M, s)
  valLoss _ b _ _ ps := some (meanLoss lineLossC b ps)
  update := updateC (fun _ => 1 / 100) 0.9 0.999 1e-8 1e3
  callback k _ ps := (k, ps)
  verbose := false
  interrupted _ := false
  flags := [true]
  train := ⟨[[1, 2]], some [[3, 6]], Option.none⟩
  val := ⟨[[1, 2]], some [[3, 5]], Option.none⟩
  batchSize := 1
  valBatchSize := 2
  epochs := 10
  target := some 0
  patience := 5
  minDelta := some 0
  lt a b := match a, b with
    | some r, some q => decide (r < q)
    | _, _ => false
  le a b := match a, b with
    | some r, some q => decide (r ≤ q)
    | _, _ => false
  sub a b := match a, b with
    | some r, some q => some (r - q)
    | _, _ => Option.none
  add a b := match a, b with
    | some r, some q => some (r + q)
    | _, _ => Option.none
  divNat a n := a.map (· / n)
  zero := some 0

/-- The slope 3 fits, and stays. -/
example : ∃ t, run lineCfgC 0 ([fun _ => (3 : ℂ)].map Adam.initC) () 0 = .ok t ∧ ∀ a : OptState (Unit → ℂ), t.inner.adam[0]? = some a → a.params () = 3 := by
  have hu : ∀ d ∈ [lineCfgC.train, lineCfgC.val], DataUniform 2 d := by
    intro d hd
    simp only [List.mem_cons, List.not_mem_nil, or_false] at hd
    rcases hd with rfl | rfl <;>
    exact ⟨⟨by simp [lineCfgC], by simp [lineCfgC]⟩, fun y hy => by cases hy; exact ⟨by simp, by simp⟩, fun u hu => by simp [lineCfgC] at hu⟩
  obtain ⟨t, ht⟩ : ∃ t, run lineCfgC 0 ([fun _ => (3 : ℂ)].map Adam.initC) () 0 = .ok t := by
    refine C31_total lineCfgC 2 2 (fun _ _ => List.Perm.refl _) (hu _ (by simp)) (hu _ (by simp)) Nat.one_pos Nat.two_pos (fun e b s k ps hps => ?_) (fun _ _ _ _ => rfl) 0 _ () 0 rfl
    simp [lineCfgC] at hps ⊢
    omega
  refine ⟨t, ht, fun a ha => ?_⟩
  have := C146_complex lineCfgC (fun _ => 1 / 100) 0.9 0.999 1e-8 1e3 (by norm_num) rfl (fun _ b _ _ ps => meanLoss lineLossC b ps) (fun e b st k ps j M hM hf g hgr => by
      have hj : j = 0 := by
        cases j with
        | zero => rfl
        | succ j => simp [lineCfgC] at hf
      subst hj
      simp only [lineCfgC, List.take_zero, List.count_nil, List.getElem?_mapIdx, hM, Option.map_some, Option.some.injEq] at hgr
      exact hgr.symm) (fun _ _ _ => rfl) (fun _ _ => List.Perm.refl _) 2 (hu _ (by simp)) Nat.one_pos 0 [fun _ => 3] () 0 t rfl ht
    (fun _ b _ _ n hn ps => mean_min lineLossC 2 lineCfgC.train _ (fun s ps => Complex.normSq_nonneg _) (fun m hm => by
      have : m = 0 ∨ m = 1 := by omega
      rcases this with rfl | rfl <;> simp [lineLossC, triple, sampleAt, lineCfgC] <;> norm_num) n b hn ps) _ (.inl rfl) 0 a ha
  simp only [List.getElem?_cons_zero, Option.some.injEq] at this
  rw [← this]

/-- A network whose hidden units all have weight and bias 1, and whose output is 1 for every sample, fits the data of the example, where 1 is to be learnt: the training leaves it as it is. -/
example : let x0 : List (List Nat → ℝ) := [fun _ => 1, fun _ => 1, fun _ => 0, fun _ => 1]
    ∃ t, run hiddenCfg 0 (x0.map Adam.init) () 0 = .ok t ∧ ∀ (j : Nat) (a : OptState (List Nat → ℝ)), t.inner.adam[j]? = some a → x0[j]? = some a.params := by
  intro x0
  obtain ⟨t, ht⟩ : ∃ t, run hiddenCfg 0 (x0.map Adam.init) () 0 = .ok t := by
    refine C31_total hiddenCfg 2 2 (fun _ _ => List.Perm.refl _)
      ⟨⟨by simp [hiddenCfg], by simp [hiddenCfg]⟩, fun y hy => by cases hy; exact ⟨by simp, by simp⟩, fun u hu => by simp [hiddenCfg] at hu⟩
      ⟨⟨by simp [hiddenCfg], by simp [hiddenCfg]⟩, fun y hy => by cases hy; exact ⟨by simp, by simp⟩, fun u hu => by simp [hiddenCfg] at hu⟩
      Nat.one_pos Nat.two_pos (fun e b s k ps hps => ?_) (fun _ _ _ _ => rfl) 0 _ () 0 rfl
    simp [hiddenCfg] at hps ⊢
    omega
  have hflag : ∀ j, hiddenCfg.flags[j]? = some true → (hiddenCfg.flags.take j).count true = j := by
    intro j hj
    match j with
    | 0 | 1 | 2 | 3 => rfl
    | j + 4 => simp [hiddenCfg] at hj
  refine ⟨t, ht, fun j a ha => ?_⟩
  refine C146_real hiddenCfg (fun _ => 1 / 100) 0.9 0.999 1e-8 1e3 (by norm_num) (.inl rfl)
    (fun _ b _ _ ps => hiddenLoss ((featuresOf b).map (netOut (fun _ _ => 0) (fun _ _ => 0) 1 [(3, some fun x => max x 0), (1, Option.none)] ps))) (fun e b st k ps j M hM hf g hgr => by
      rw [hflag j hf] at hgr
      simp only [hiddenCfg, List.getElem?_mapIdx, hM, Option.map_some, Option.some.injEq] at hgr
      exact hgr.symm) (fun _ _ _ => rfl) (fun _ _ => List.Perm.refl _) 2
    ⟨⟨by simp [hiddenCfg], by simp [hiddenCfg]⟩, fun y hy => by cases hy; exact ⟨by simp, by simp⟩, fun u hu => by simp [hiddenCfg] at hu⟩ Nat.one_pos 0 x0 () 0 t rfl ht
    (fun e b st k n hn ps => ?_) _ (.inl rfl) j a ha
  have hz : hiddenLoss ((featuresOf b).map (netOut (fun _ _ => 0) (fun _ _ => 0) 1 [(3, some fun x => max x 0), (1, Option.none)] x0)) = 0 := by
    unfold hiddenLoss
    refine List.sum_eq_zero fun r hr => ?_
    rw [List.map_map] at hr
    obtain ⟨x, -, rfl⟩ := List.mem_map.1 hr
    simp only [Function.comp, netOut_eq]
    simp [x0, layersOf, layerAt, net, width, Layer.at, Layer.fn, List.mapIdx_cons]
  rw [hz]
  unfold hiddenLoss
  refine List.sum_nonneg fun r hr => ?_
  obtain ⟨x, -, rfl⟩ := List.mem_map.1 hr
  positivity

/-! ## A minimum for all data is not enough -/

/-- A training of the slope on the samples (1, 1) and (1, -1), one epoch with two batches. -/
noncomputable def tornCfg : Train.Cfg ℝ (Unit → ℝ) Unit Nat Bool where
  perm _ n := List.range n
  splitN _ n := List.range n
  split k := (k + 1, k + 7)
  grad _ b s _ ps := (ps.mapIdx fun j M => gradR (fun Q => meanLoss lineLoss b (ps.set j Q)) M, s)
  valLoss _ _ _ _ _ := true
  update := update (fun _ => 1) 0 0 1 1000
  callback k _ ps := (k, ps)
  verbose := false
  interrupted _ := false
  flags := [true]
  train := ⟨[[1, 1]], some [[1, -1]], Option.none⟩
  val := ⟨[[1, 1]], some [[1, -1]], Option.none⟩
  batchSize := 1
  valBatchSize := 2
  epochs := 1
  target := false
  patience := 5
  minDelta := false
  lt a b := !a && b
  le a b := !a || b
  sub a _ := a
  add a b := a || b
  divNat a _ := a
  zero := false

theorem line_gradient (y : ℝ) (M : Unit → ℝ) : gradR (fun Q => meanLoss lineLoss ⟨[[1]], some [[y]], Option.none⟩ ([M].set 0 Q)) M = fun _ => 2 * (M () - y) := by
  funext u
  have e : (fun t : ℝ => meanLoss lineLoss ⟨[[1]], some [[y]], Option.none⟩ ([M].set 0 (Function.update M u (M u + t)))) = fun t => (M () + t - y) ^ 2 := by
    funext t
    simp [meanLoss, lineLoss, triple, sampleAt]
  simp only [gradR, e]
  have h : HasDerivAt (fun t : ℝ => (M () + t - y) ^ 2) (2 * (M () - y)) 0 := by
    have h1 : HasDerivAt (fun t : ℝ => M () + t - y) 1 0 := ((hasDerivAt_id (0 : ℝ)).const_add (M ())).sub_const y
    exact (h1.pow 2).congr_deriv (by norm_num)
  exact h.deriv

/-- **C146 (every batch).** That no parameters give a smaller loss on the training data as a whole is not enough: with two samples that contradict each other, in two batches, a training leaves the best slope. -/
theorem C146_batches_needed : ∃ t, run tornCfg 0 ([fun _ => (0 : ℝ)].map Adam.init) () 0 = .ok t ∧ (∀ ps, meanLoss lineLoss tornCfg.train [fun _ => 0] ≤ meanLoss lineLoss tornCfg.train ps) ∧
    t.inner.adam.map (fun a => a.params ()) = [-4 / 39] := by
  obtain ⟨t, ht, htp⟩ : ∃ t, run tornCfg 0 ([fun _ => (0 : ℝ)].map Adam.init) () 0 = .ok t ∧
      t.inner.adam.map (fun a => a.params ()) =
        (let s0 : OptState (Unit → ℝ) := Adam.init fun _ => 0
        let s1 := update (fun _ => 1) 0 0 1 1000 (gradR (fun Q => meanLoss lineLoss ⟨[[1]], some [[1]], Option.none⟩ ([s0.params].set 0 Q)) s0.params) s0
        [(update (fun _ => 1) 0 0 1 1000 (gradR (fun Q => meanLoss lineLoss ⟨[[1]], some [[-1]], Option.none⟩ ([s1.params].set 0 Q)) s1.params) s1).params ()]) := ⟨_, rfl, rfl⟩
  refine ⟨t, ht, fun ps => ?_, ?_⟩
  · simp only [meanLoss, lineLoss, triple, sampleAt, tornCfg]
    generalize ps.getD 0 0 () = w
    norm_num [List.range_succ]
    nlinarith [sq_nonneg w]
  · rw [htp]
    simp only [line_gradient]
    have h1 : Real.sqrt 4 = 2 := by rw [show (4 : ℝ) = 2 ^ 2 by norm_num, Real.sqrt_sq (by norm_num)]
    have h2 : Real.sqrt (100 / 9) = 10 / 3 := by rw [show (100 / 9 : ℝ) = (10 / 3) ^ 2 by norm_num, Real.sqrt_sq (by norm_num)]
    have hs : (update (fun _ => 1) 0 0 1 1000 (fun _ : Unit => 2 * ((Adam.init fun _ : Unit => (0 : ℝ)).params () - 1)) (Adam.init fun _ : Unit => 0)).params = fun _ => 2 / 3 := by
      funext u
      norm_num [update, Adam.init, clipR, h1]
    rw [hs]
    simp only [update, Adam.init, clipR] at hs ⊢
    rw [congrFun hs ()]
    norm_num [h2]

end Verif.Props
