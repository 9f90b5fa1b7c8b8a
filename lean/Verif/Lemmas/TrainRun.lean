import Verif.Spec.TrainRun
import Verif.Lemmas.TrainLoop

namespace Verif.TrainRun
open Batch BatchSpec Train TrainSpec

variable {α P S K F : Type} {c : Cfg α P S K F}

/-! ## The model does what the description says -/

theorem cuts_mini {n size : Nat} {d : Data α} (hd : DataUniform n d) (hs : 0 < size) : MiniBatches n size d (cuts n size d) := by
  have hdm := div_mod n size
  have hr := Nat.mod_lt n hs
  have hlen : (cuts n size d).length = n / size + if n % size > 0 then 1 else 0 := by
    unfold cuts
    split <;> simp
  refine ⟨?_, ?_, fun j b hb => ?_⟩
  · rw [hlen]; split
    · rw [Nat.add_mul]; omega
    · rw [Nat.add_zero]; omega
  · rw [hlen]; split
    · rw [Nat.add_mul]; omega
    · rw [Nat.add_zero]; omega
  · unfold cuts at hb
    by_cases hj : j < n / size
    · rw [List.getElem?_append_left (by simpa using hj), List.getElem?_map, List.getElem?_range hj] at hb
      cases hb
      have hle := mul_div_le' n size j hj
      have hmin : min size (n - j * size) = size := Nat.min_eq_left (by omega)
      rw [hmin]
      exact ⟨cutData_uniform hd hle, fun i hi => cutData_triple hi⟩
    · rw [List.getElem?_append_right (by simpa using hj)] at hb
      simp only [List.length_map, List.length_range] at hb
      split at hb
      · rename_i hpos
        have hj' : j = n / size := by
          have := (List.getElem?_eq_some_iff.1 hb).1
          simp at this
          omega
        subst hj'
        simp at hb
        subst hb
        have hmin : min size (n - n / size * size) = n % size := by omega
        rw [hmin]
        exact ⟨cutData_uniform hd (by omega), fun i hi => cutData_triple hi⟩
      · simp at hb

theorem shuffle_reordered (hperm : ∀ k n, (c.perm k n).Perm (List.range n)) (key : K) {n : Nat} {d : Data α}
    (hd : DataUniform n d) : Reordered c key n d (d.shuffle c.perm c.splitN key) := by
  refine ⟨shuffle_uniform hperm c.splitN key hd, fun j i h => ?_⟩
  obtain ⟨X, Y, U⟩ := d
  unfold triple Data.shuffle
  simp only [permute_sample hperm c.splitN key hd.X.2 j i h, Option.map_map]
  congr 2
  · cases Y with
    | none => rfl
    | some y => simp [permute_sample hperm c.splitN key (hd.Y y rfl).2 j i h]
  · cases U with
    | none => rfl
    | some u => simp [permute_sample hperm c.splitN key (hd.U u rfl).2 j i h]

theorem steps_of {epoch : Nat} {bs : List (Data α)} {i i' : Inner P S K} (hl : c.flags.length = i.adam.length)
    (h : Steps c epoch bs i i') : StepsOf c epoch bs i i' ∧ i'.adam.length = i.adam.length := by
  induction h with
  | nil i => exact ⟨.nil _, rfl⟩
  | @cons b bs i i' adam ha _ ih =>
    obtain ⟨h1, h2⟩ := applyGrads_inv hl ha
    obtain ⟨i1, i2⟩ := ih (by simp [hl, h1])
    exact ⟨.cons ⟨rfl, rfl, h1, fun j a hj hf => (h2 j a hj).1 hf, fun j a hj ht => (h2 j a hj).2 ht⟩ i1, by rw [i2]; exact h1⟩

theorem loss_of (hperm : ∀ k n, (c.perm k n).Perm (List.range n)) {nv : Nat} (hv : DataUniform nv c.val)
    (hvs : 0 < c.valBatchSize) {i : Inner P S K} {key : K} {epoch : Nat} {loss : F}
    (h : batchedValLoss c i key epoch = .ok loss) : LossOf c nv i key epoch loss := by
  have hu := shuffle_uniform hperm c.splitN key hv
  refine ⟨_, _, shuffle_reordered hperm key hv, cuts_mini hu hvs, ?_⟩
  unfold batchedValLoss at h
  rw [batches_ok hu hvs, numSamples_uniform hv.X] at h
  simp only [bind, Except.bind, pure, Except.pure] at h
  cases h
  have hlen : (cuts nv c.valBatchSize (c.val.shuffle c.perm c.splitN key)).length =
      nv / c.valBatchSize + if nv % c.valBatchSize > 0 then 1 else 0 := by
    unfold cuts
    split <;> simp
  rw [hlen, List.foldl_map]

theorem evaluated_of (hperm : ∀ k n, (c.perm k n).Perm (List.range n)) {n nv : Nat} (ht : DataUniform n c.train)
    (hv : DataUniform nv c.val) (hs : 0 < c.batchSize) (hvs : 0 < c.valBatchSize) {s : TState P S K F} {k : K}
    {snap : Snap P S K F} (hl : c.flags.length = s.inner.adam.length) (h : epochTrain c s = .ok (k, snap)) :
    Evaluated c n nv s snap ∧ k = (c.split (c.split s.batchRng).1).1 ∧ snap.inner.adam.length = s.inner.adam.length := by
  obtain ⟨bs, h1, h2, h3, h4, h5⟩ := epochTrain_inv h
  have hu := shuffle_uniform hperm c.splitN (c.split s.batchRng).2 ht
  rw [batches_ok hu hs] at h1
  cases h1
  obtain ⟨s1, s2⟩ := steps_of hl h2
  exact ⟨⟨⟨_, _, shuffle_reordered hperm _ ht, cuts_mini hu hs, s1⟩, loss_of hperm hv hvs h4, h3⟩, h5, s2⟩

theorem finished_of {s s' : TState P S K F} {snap : Snap P S K F}
    (hl : c.flags.length = snap.inner.adam.length)
    (h : epochFinish c s (c.split (c.split s.batchRng).1).1 snap = .ok s') :
    Finished c s snap s' := by
  obtain ⟨h1, rfl⟩ := epochFinish_inv h
  generalize hps : (c.callback (c.split (c.split s.batchRng).1).1 s.epoch (snap.inner.adam.map (·.params))) = r at h1 ⊢
  obtain ⟨k', ps⟩ := r
  simp only at h1
  refine ⟨fun h => by simp [h], fun h => by simp [h], fun h => by simp [h], fun h => by simp [h], rfl, rfl, rfl, rfl,
    by rw [hps], ?_, ?_, ?_⟩
  · simp [h1, hl]
  · rw [hps]
    refine List.ext_getElem (by simp [h1, hl]) fun j a b => ?_
    simp
  · intro j a a' ha ha'
    simp only [List.getElem?_zipWith] at ha'
    rw [ha] at ha'
    split at ha'
    · next t b hb =>
      split at hb
      · next p a1 h2 h3 =>
        cases h3
        cases hb
        cases ha'
        refine ⟨rfl, rfl, fun ht => ?_, fun ht => ?_⟩
        · simp_all
        · simp_all
      · cases hb
    · cases ha'

theorem goesOn_iff {s : TState P S K F} : epochCond c s = true ↔ GoesOn c s := by
  unfold epochCond GoesOn
  cases c.verbose <;> cases c.interrupted s.epoch <;> simp [and_assoc]

theorem epochs_of (hperm : ∀ k n, (c.perm k n).Perm (List.range n)) {n nv : Nat} (ht : DataUniform n c.train)
    (hv : DataUniform nv c.val) (hs : 0 < c.batchSize) (hvs : 0 < c.valBatchSize) {s t : TState P S K F}
    {l : List (Snap P S K F)} (hl : c.flags.length = s.inner.adam.length) (h : History c s l t) : Epochs c n nv s l t := by
  induction h with
  | stop hc => exact .stop fun hg => by rw [goesOn_iff.2 hg] at hc; cases hc
  | @epoch s k snap s' l t hc he hf _ ih =>
    obtain ⟨e1, rfl, e3⟩ := evaluated_of hperm ht hv hs hvs hl he
    have f := finished_of (by rw [e3, hl]) hf
    exact .next (goesOn_iff.1 hc) e1 f (ih (by rw [f.number, e3, hl]))

/-! ## The description leaves no choice -/

theorem leaves_ext {n : Nat} {X X' : Leaves α} (hn : 0 < n) (h1 : ∀ x ∈ X, x.length = n) (h2 : ∀ x ∈ X', x.length = n)
    (h : ∀ i, i < n → sampleAt X i = sampleAt X' i) : X = X' := by
  have hlen : X.length = X'.length := by simpa [sampleAt] using congrArg List.length (h 0 hn)
  refine List.ext_getElem hlen fun k k1 k2 => ?_
  have l1 := h1 _ (List.getElem_mem k1)
  have l2 := h2 _ (List.getElem_mem k2)
  refine List.ext_getElem? fun i => ?_
  by_cases hi : i < n
  · have := congrArg (·[k]?) (h i hi)
    simpa [sampleAt, k1, k2] using this
  · rw [List.getElem?_eq_none (by omega), List.getElem?_eq_none (by omega)]

theorem data_ext {n : Nat} {d d' : Data α} (hn : 0 < n) (h1 : DataUniform n d) (h2 : DataUniform n d')
    (h : ∀ i, i < n → triple d i = triple d' i) : d = d' := by
  obtain ⟨X, Y, U⟩ := d
  obtain ⟨X', Y', U'⟩ := d'
  have hX : X = X' := leaves_ext hn h1.X.2 h2.X.2 fun i hi => congrArg (·.1) (h i hi)
  have hO : ∀ (Z Z' : Option (Leaves α)), (∀ z, Z = some z → Uniform n z) → (∀ z, Z' = some z → Uniform n z) →
      (∀ i, i < n → Z.map (sampleAt · i) = Z'.map (sampleAt · i)) → Z = Z' := by
    intro Z Z' z1 z2 hz
    cases Z with
    | none => cases Z' with
      | none => rfl
      | some z' => cases hz 0 hn
    | some z => cases Z' with
      | none => cases hz 0 hn
      | some z' =>
        rw [leaves_ext hn (z1 z rfl).2 (z2 z' rfl).2 fun i hi => by simpa using hz i hi]
  rw [hX, hO Y Y' h1.Y h2.Y fun i hi => congrArg (·.2.1) (h i hi), hO U U' h1.U h2.U fun i hi => congrArg (·.2.2) (h i hi)]

theorem reordered_unique (hperm : ∀ k n, (c.perm k n).Perm (List.range n)) {key : K} {n : Nat} {d d1 d2 : Data α} (hn : 0 < n)
    (h1 : Reordered c key n d d1) (h2 : Reordered c key n d d2) : d1 = d2 :=
  data_ext hn h1.1 h2.1 fun i hi => by
    have hi' : i < (c.perm key n).length := by rw [(hperm key n).length_eq, List.length_range]; exact hi
    rw [h1.2 i _ (List.getElem?_eq_getElem hi'), h2.2 i _ (List.getElem?_eq_getElem hi')]

theorem mini_unique {n size : Nat} {d : Data α} {bs bs' : List (Data α)} (hs : 0 < size) (h1 : MiniBatches n size d bs)
    (h2 : MiniBatches n size d bs') : bs = bs' := by
  have hlen : bs.length = bs'.length := by
    have a1 := h1.enough; have a2 := h1.needed; have b1 := h2.enough; have b2 := h2.needed
    have c1 : bs.length * size < (bs'.length + 1) * size := by rw [Nat.add_mul]; omega
    have c2 : bs'.length * size < (bs.length + 1) * size := by rw [Nat.add_mul]; omega
    have := Nat.lt_of_mul_lt_mul_right c1
    have := Nat.lt_of_mul_lt_mul_right c2
    omega
  refine List.ext_getElem hlen fun j j1 j2 => ?_
  obtain ⟨u1, t1⟩ := h1.each j _ (List.getElem?_eq_getElem j1)
  obtain ⟨u2, t2⟩ := h2.each j _ (List.getElem?_eq_getElem j2)
  refine data_ext ?_ u1 u2 fun i hi => by rw [t1 i hi, t2 i hi]
  have := h1.needed
  have : (j + 1) * size ≤ bs.length * size := Nat.mul_le_mul_right _ j1
  rw [Nat.add_mul] at this
  omega

theorem step_unique {epoch : Nat} {b : Data α} {i i1 i2 : Inner P S K} (hl : c.flags.length = i.adam.length)
    (h1 : StepOf c epoch b i i1) (h2 : StepOf c epoch b i i2) : i1 = i2 := by
  have ha : i1.adam = i2.adam := by
    refine List.ext_getElem? fun j => ?_
    by_cases hj : j < i.adam.length
    · have ga := List.getElem?_eq_getElem hj
      have gf := List.getElem?_eq_getElem (hl ▸ hj : j < c.flags.length)
      cases hf : c.flags[j]'(hl ▸ hj) with
      | false =>
        rw [hf] at gf
        rw [h1.frozen j _ ga gf, h2.frozen j _ ga gf]
      | true =>
        rw [hf] at gf
        obtain ⟨g1, e1, r1⟩ := h1.trained j _ ga gf
        obtain ⟨g2, e2, r2⟩ := h2.trained j _ ga gf
        rw [e1] at e2
        cases e2
        rw [r1, r2]
    · rw [List.getElem?_eq_none (by rw [h1.number]; omega), List.getElem?_eq_none (by rw [h2.number]; omega)]
  have hst := h1.state.trans h2.state.symm
  have hr := h1.rng.trans h2.rng.symm
  obtain ⟨_, _, _⟩ := i1
  obtain ⟨_, _, _⟩ := i2
  simp_all

theorem steps_unique {epoch : Nat} {bs : List (Data α)} {i i1 i2 : Inner P S K} (hl : c.flags.length = i.adam.length)
    (h1 : StepsOf c epoch bs i i1) (h2 : StepsOf c epoch bs i i2) : i1 = i2 ∧ i1.adam.length = i.adam.length := by
  induction h1 with
  | nil i => cases h2; exact ⟨rfl, rfl⟩
  | cons s1 _ ih =>
    cases h2 with
    | cons s2 r2 =>
      cases step_unique hl s1 s2
      obtain ⟨a, b⟩ := ih (by rw [s1.number, hl]) r2
      exact ⟨a, by rw [b, s1.number]⟩

theorem loss_unique (hperm : ∀ k n, (c.perm k n).Perm (List.range n)) {nv : Nat} (hnv : 0 < nv) (hvs : 0 < c.valBatchSize)
    {i : Inner P S K} {key : K} {epoch : Nat} {x y : F} (h1 : LossOf c nv i key epoch x) (h2 : LossOf c nv i key epoch y) :
    x = y := by
  obtain ⟨d1, b1, r1, m1, rfl⟩ := h1
  obtain ⟨d2, b2, r2, m2, rfl⟩ := h2
  cases reordered_unique hperm hnv r1 r2
  cases mini_unique hvs m1 m2
  rfl

theorem evaluated_unique (hperm : ∀ k n, (c.perm k n).Perm (List.range n)) {n nv : Nat} (hn : 0 < n) (hnv : 0 < nv)
    (hs : 0 < c.batchSize) (hvs : 0 < c.valBatchSize) {s : TState P S K F} {x y : Snap P S K F}
    (hl : c.flags.length = s.inner.adam.length) (h1 : Evaluated c n nv s x) (h2 : Evaluated c n nv s y) :
    x = y ∧ x.inner.adam.length = s.inner.adam.length := by
  obtain ⟨⟨d1, b1, r1, m1, s1⟩, l1, e1⟩ := h1
  obtain ⟨⟨d2, b2, r2, m2, s2⟩, l2, e2⟩ := h2
  cases reordered_unique hperm hn r1 r2
  cases mini_unique hs m1 m2
  obtain ⟨hi, hlen⟩ := steps_unique hl s1 s2
  obtain ⟨_, _, _⟩ := x
  obtain ⟨_, _, _⟩ := y
  simp only at hi e1 e2 l1 l2 hlen
  subst hi
  subst e1
  subst e2
  cases loss_unique hperm hnv hvs l1 l2
  exact ⟨rfl, hlen⟩

theorem finished_unique {s a b : TState P S K F} {snap : Snap P S K F} (hl : c.flags.length = snap.inner.adam.length)
    (h1 : Finished c s snap a) (h2 : Finished c s snap b) : a = b := by
  have hbest : a.best = b.best := by
    cases h : c.lt snap.loss s.best.loss with
    | true => rw [h1.better h, h2.better h]
    | false => rw [h1.notBetter h, h2.notBetter h]
  have hpat : a.patience = b.patience := by
    cases h : c.le snap.loss (c.sub s.best.loss c.minDelta) with
    | true => rw [h1.improved h, h2.improved h]
    | false => rw [h1.waited h, h2.waited h]
  have hadam : a.inner.adam = b.inner.adam := by
    refine List.ext_getElem (by rw [h1.number, h2.number]) fun j j1 j2 => ?_
    have hj : j < snap.inner.adam.length := by rw [← h1.number]; exact j1
    have g := List.getElem?_eq_getElem hj
    have gf := List.getElem?_eq_getElem (hl ▸ hj : j < c.flags.length)
    obtain ⟨x1, x2, x3, x4⟩ := h1.moments j _ _ g (List.getElem?_eq_getElem j1)
    obtain ⟨y1, y2, y3, y4⟩ := h2.moments j _ _ g (List.getElem?_eq_getElem j2)
    have hp : (a.inner.adam[j]).params = (b.inner.adam[j]).params := by
      have := congrArg (·[j]?) (h1.params.trans h2.params.symm)
      simpa [j1, j2] using this
    have he : (a.inner.adam[j]).epoch = (b.inner.adam[j]).epoch := by
      cases hf : c.flags[j]'(hl ▸ hj) with
      | true => rw [hf] at gf; rw [x3 gf, y3 gf]
      | false => rw [hf] at gf; rw [x4 gf, y4 gf]
    have hm := x1.trans y1.symm
    have hv := x2.trans y2.symm
    revert hp he hm hv
    generalize a.inner.adam[j] = u
    generalize b.inner.adam[j] = w
    intro hp he hm hv
    obtain ⟨_, _, _, _⟩ := u
    obtain ⟨_, _, _, _⟩ := w
    simp_all
  have e1 := h1.epoch.trans h2.epoch.symm
  have e2 := h1.valLoss.trans h2.valLoss.symm
  have e3 := h1.state.trans h2.state.symm
  have e4 := h1.rng.trans h2.rng.symm
  have e5 := h1.batchRng.trans h2.batchRng.symm
  obtain ⟨_, _, ⟨_, _, _⟩, _, _, _⟩ := a
  obtain ⟨_, _, ⟨_, _, _⟩, _, _, _⟩ := b
  simp only at hbest hpat hadam e1 e2 e3 e4 e5
  subst hbest hpat hadam e1 e2 e3 e4 e5
  rfl

theorem epochs_unique (hperm : ∀ k n, (c.perm k n).Perm (List.range n)) {n nv : Nat} (hn : 0 < n) (hnv : 0 < nv)
    (hs : 0 < c.batchSize) (hvs : 0 < c.valBatchSize) {s t t' : TState P S K F} {l l' : List (Snap P S K F)}
    (hl : c.flags.length = s.inner.adam.length) (h1 : Epochs c n nv s l t) (h2 : Epochs c n nv s l' t') : l = l' ∧ t = t' := by
  induction h1 generalizing l' t' with
  | stop hc =>
    cases h2 with
    | stop _ => exact ⟨rfl, rfl⟩
    | next hg _ _ _ => exact absurd hg hc
  | next hg he hf _ ih =>
    cases h2 with
    | stop hc => exact absurd hg hc
    | next _ he' hf' r =>
      obtain ⟨e, hlen⟩ := evaluated_unique hperm hn hnv hs hvs hl he he'
      cases e
      cases finished_unique (by rw [hlen, hl]) hf hf'
      obtain ⟨a, b⟩ := ih (by rw [hf.number, hlen, hl]) r
      exact ⟨by rw [a], b⟩

theorem start_unique (hperm : ∀ k n, (c.perm k n).Perm (List.range n)) {nv : Nat} (hnv : 0 < nv) (hvs : 0 < c.valBatchSize)
    {k : K} {adam : List (OptState P)} {st : S} {rng : K} {a b : TState P S K F} (h1 : Start c nv k adam st rng a)
    (h2 : Start c nv k adam st rng b) : a = b := by
  have hi := h1.inner.trans h2.inner.symm
  have hv : a.valLoss = b.valLoss := loss_unique hperm hnv hvs h1.loss (by rw [hi]; exact h2.loss)
  have hb : a.best = b.best := by rw [h1.best, h2.best, hv, hi]
  have e1 := h1.epoch.trans h2.epoch.symm
  have e2 := h1.batchRng.trans h2.batchRng.symm
  have e3 := h1.patience.trans h2.patience.symm
  obtain ⟨_, _, _, _, _, _⟩ := a
  obtain ⟨_, _, _, _, _, _⟩ := b
  simp only at hi hv hb e1 e2 e3
  subst hi hv hb e1 e2 e3
  rfl

/-! ## Every sample once -/

theorem reordered_perm (hperm : ∀ k n, (c.perm k n).Perm (List.range n)) {key : K} {n : Nat} {d d' : Data α}
    (h : Reordered c key n d d') : (triples n d').Perm (triples n d) :=
  map_range_perm (hperm key n) h.2

end Verif.TrainRun
