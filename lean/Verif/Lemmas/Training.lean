import Verif.Spec.Training
import Verif.Lemmas.Shuffle
import Mathlib.Tactic.ByContra
import Mathlib.Order.Basic

namespace Verif.Train
open Batch BatchSpec TrainSpec

variable {α P S K F : Type}

/-! ## batches of an epoch -/

/-- The number of samples of a batch. -/
def count (d : Data α) : Nat := match d.X with | [] => 0 | x :: _ => x.length

theorem count_uniform {n : Nat} {d : Data α} (h : DataUniform n d) : count d = n := by
  unfold count
  have h1 := h.X
  cases hX : d.X with
  | nil => rw [hX] at h1; exact absurd rfl h1.1
  | cons x X => exact h1.2 x (by rw [hX]; simp)

theorem numSamples_uniform {n : Nat} {X : Leaves α} (h : Uniform n X) : numSamples X = .ok n := by
  obtain ⟨hne, hlen⟩ := h
  cases X with
  | nil => exact absurd rfl hne
  | cons x X => simp [numSamples, hlen x (by simp)]

/-- Cutting `len` samples from `start`. -/
def cut (start len : Nat) (X : Leaves α) : Leaves α := X.map fun x => (x.drop start).take len

/-- Cutting all parts. -/
def cutData (start len : Nat) (d : Data α) : Data α := ⟨cut start len d.X, d.Y.map (cut start len), d.U.map (cut start len)⟩

theorem cut_ok {n : Nat} {X : Leaves α} (hX : Uniform n X) (size idx : Nat) (len : Option Nat)
    (hle : idx * size + len.getD size ≤ n) : batchLeaves X size idx len = .ok (cut (idx * size) (len.getD size) X) :=
  mapM_ok' _ _ _ fun x hx => dynSlice_ok (by rw [hX.2 x hx]; exact hle)

theorem cut_uniform {n : Nat} {X : Leaves α} (hX : Uniform n X) {start len : Nat} (hle : start + len ≤ n) :
    Uniform len (cut start len X) :=
  uniform_map hX _ fun x hx => by
    have := hX.2 x hx
    rw [List.length_take, List.length_drop]; omega

theorem cut_sample {X : Leaves α} {start len i : Nat} (hi : i < len) :
    sampleAt (cut start len X) i = sampleAt X (start + i) := by
  unfold sampleAt cut
  rw [List.map_map]
  refine List.map_congr_left fun x _ => ?_
  simp only [Function.comp, List.getElem?_take, List.getElem?_drop, hi, if_true]

theorem data_cut_ok {n : Nat} {d : Data α} (hd : DataUniform n d) (size idx : Nat) (len : Option Nat)
    (hle : idx * size + len.getD size ≤ n) :
    (d.mapM fun X => batchLeaves X size idx len) = .ok (cutData (idx * size) (len.getD size) d) := by
  obtain ⟨X, Y, U⟩ := d
  have h1 := cut_ok hd.X size idx len hle
  unfold Data.mapM cutData
  simp only [bind, Except.bind, pure, Except.pure] at h1 ⊢
  rw [h1]
  cases Y with
  | none =>
    cases U with
    | none => rfl
    | some u =>
      have := cut_ok (hd.U u rfl) size idx len hle
      simp [this]
  | some y =>
    have h2 := cut_ok (hd.Y y rfl) size idx len hle
    cases U with
    | none => simp [h2]
    | some u =>
      have := cut_ok (hd.U u rfl) size idx len hle
      simp [h2, this]

theorem cutData_uniform {n : Nat} {d : Data α} (hd : DataUniform n d) {start len : Nat} (hle : start + len ≤ n) :
    DataUniform len (cutData start len d) := by
  refine ⟨cut_uniform hd.X hle, fun y hy => ?_, fun u hu => ?_⟩
  · simp only [cutData, Option.map_eq_some_iff] at hy
    obtain ⟨y', hy', rfl⟩ := hy
    exact cut_uniform (hd.Y y' hy') hle
  · simp only [cutData, Option.map_eq_some_iff] at hu
    obtain ⟨u', hu', rfl⟩ := hu
    exact cut_uniform (hd.U u' hu') hle

theorem cutData_triple {d : Data α} {start len i : Nat} (hi : i < len) :
    triple (cutData start len d) i = triple d (start + i) := by
  obtain ⟨X, Y, U⟩ := d
  unfold triple cutData
  simp only [cut_sample hi, Option.map_map]
  congr 2
  · cases Y <;> simp [cut_sample hi]
  · cases U <;> simp [cut_sample hi]

/-- The batches of `n` samples as cuts. -/
def cuts (n size : Nat) (d : Data α) : List (Data α) :=
  ((List.range (n / size)).map fun i => cutData (i * size) size d) ++
    (if n % size > 0 then [cutData (n / size * size) (n % size) d] else [])

theorem batches_ok {n size : Nat} {d : Data α} (hd : DataUniform n d) (hs : 0 < size) :
    batches d size = .ok (cuts n size d) := by
  unfold batches cuts
  have h1 : ((List.range (n / size)).mapM fun i => d.mapM fun X => batchLeaves X size i none) =
      .ok ((List.range (n / size)).map fun i => cutData (i * size) size d) :=
    mapM_ok' _ _ _ fun i hi => data_cut_ok hd size i none (mul_div_le' n size i (List.mem_range.1 hi))
  have hdm := div_mod n size
  have h2 := data_cut_ok hd size (n / size) (some (n % size)) (by simp; omega)
  simp only [bind, Except.bind, pure, Except.pure, numSamples_uniform hd.X, throw, throwThe, MonadExceptOf.throw] at h1 h2 ⊢
  rw [if_neg (by omega)]
  simp only [h1]
  split
  · simp [h2]
  · simp

theorem batches_err {d : Data α} : batches d 0 = .error .zeroDivision ∨ batches d 0 = .error .indexError := by
  unfold batches numSamples
  cases d.X with
  | nil => right; rfl
  | cons x X => left; rfl

theorem range_blocks {B : Type} (f : Nat → B) (size nb : Nat) :
    ((List.range nb).flatMap fun i => (List.range size).map fun j => f (i * size + j)) = (List.range (nb * size)).map f := by
  induction nb with
  | zero => simp
  | succ nb ih =>
    rw [List.range_succ, List.flatMap_append, ih, Nat.succ_mul, List.range_add, List.map_append, List.map_map]
    simp [Function.comp_def]

theorem cuts_triples {n size : Nat} {d : Data α} (hd : DataUniform n d) :
    ((cuts n size d).flatMap fun b => triples (count b) b) = triples n d := by
  have hdm := div_mod n size
  have h1 : ∀ start len, start + len ≤ n →
      triples (count (cutData start len d)) (cutData start len d) = (List.range len).map fun j => triple d (start + j) := by
    intro start len hle
    rw [count_uniform (cutData_uniform hd hle)]
    exact List.map_congr_left fun j hj => cutData_triple (List.mem_range.1 hj)
  unfold cuts
  rw [List.flatMap_append, List.flatMap_map]
  have h2 : ((List.range (n / size)).flatMap fun i => triples (count (cutData (i * size) size d)) (cutData (i * size) size d))
      = (List.range (n / size * size)).map (triple d) := by
    rw [← range_blocks (triple d) size (n / size)]
    simp only [List.flatMap]
    congr 1
    exact List.map_congr_left fun i hi => h1 _ _ (mul_div_le' n size i (List.mem_range.1 hi))
  rw [h2]
  unfold triples
  conv => rhs; rw [← hdm, List.range_add, List.map_append]
  congr 1
  split
  · simp only [List.flatMap_cons, List.flatMap_nil, List.append_nil, List.map_map]
    exact h1 _ _ (by omega)
  · rename_i h
    have : n % size = 0 := by omega
    simp [this]

theorem cuts_sizes {n size : Nat} (hs : 0 < size) {d : Data α} (hd : DataUniform n d) :
    ∀ b ∈ cuts n size d, 0 < count b ∧ count b ≤ size ∧ DataUniform (count b) b := by
  have hdm := div_mod n size
  intro b hb
  unfold cuts at hb
  rcases List.mem_append.1 hb with h | h
  · obtain ⟨i, hi, rfl⟩ := List.mem_map.1 h
    have := cutData_uniform hd (mul_div_le' n size i (List.mem_range.1 hi))
    rw [count_uniform this]
    exact ⟨hs, Nat.le_refl _, this⟩
  · split at h
    · rename_i hr
      rw [List.mem_singleton] at h
      subst h
      have := cutData_uniform hd (start := n / size * size) (len := n % size) (by omega)
      rw [count_uniform this]
      exact ⟨hr, Nat.le_of_lt (Nat.mod_lt n hs), this⟩
    · simp at h

theorem shuffle_uniform {perm : K → Nat → List Nat} (hperm : ∀ k n, (perm k n).Perm (List.range n))
    (split : K → Nat → List K) (key : K) {n : Nat} {d : Data α} (hd : DataUniform n d) :
    DataUniform n (d.shuffle perm split key) := by
  refine ⟨permute_uniform hperm split key hd.X, fun y hy => ?_, fun u hu => ?_⟩
  · simp only [Data.shuffle, Option.map_eq_some_iff] at hy
    obtain ⟨y', hy', rfl⟩ := hy
    exact permute_uniform hperm split key (hd.Y y' hy')
  · simp only [Data.shuffle, Option.map_eq_some_iff] at hu
    obtain ⟨u', hu', rfl⟩ := hu
    exact permute_uniform hperm split key (hd.U u' hu')

theorem shuffle_triples {perm : K → Nat → List Nat} (hperm : ∀ k n, (perm k n).Perm (List.range n))
    (split : K → Nat → List K) (key : K) {n : Nat} {d : Data α} (hd : DataUniform n d) :
    (triples n (d.shuffle perm split key)).Perm (triples n d) :=
  map_range_perm (hperm key n) fun j i h => by
    obtain ⟨X, Y, U⟩ := d
    unfold triple Data.shuffle
    simp only [permute_sample hperm split key hd.X.2 j i h, Option.map_map]
    congr 2
    · cases Y with
      | none => rfl
      | some y => simp [permute_sample hperm split key (hd.Y y rfl).2 j i h]
    · cases U with
      | none => rfl
      | some u => simp [permute_sample hperm split key (hd.U u rfl).2 j i h]

/-! ## one epoch -/

variable {c : Cfg α P S K F}

theorem steps_of_fold {epoch : Nat} {bs : List (Data α)} {i i' : Inner P S K}
    (h : bs.foldlM (trainStep c epoch) i = .ok i') : Steps c epoch bs i i' := by
  induction bs generalizing i with
  | nil => cases h; exact .nil _
  | cons b bs ih =>
    rw [List.foldlM_cons] at h
    simp only [trainStep, bind, Except.bind, pure, Except.pure] at h ih
    split at h
    · cases h
    · rename_i x hx
      split at hx
      · cases hx
      · rename_i adam ha
        cases hx
        exact .cons ha (ih h)

theorem epochTrain_inv {s : TState P S K F} {k : K} {snap : Snap P S K F} (h : epochTrain c s = .ok (k, snap)) :
    ∃ bs, batches (c.train.shuffle c.perm c.splitN (c.split s.batchRng).2) c.batchSize = .ok bs ∧
      Steps c s.epoch bs s.inner snap.inner ∧ snap.epoch = s.epoch ∧
      batchedValLoss c snap.inner (c.split (c.split s.batchRng).1).2 s.epoch = .ok snap.loss ∧
      k = (c.split (c.split s.batchRng).1).1 := by
  unfold epochTrain at h
  simp only [bind, Except.bind, pure, Except.pure] at h
  split at h
  · cases h
  · rename_i bs hbs
    split at h
    · cases h
    · rename_i inner hin
      split at h
      · cases h
      · rename_i loss hl
        cases h
        exact ⟨bs, hbs, steps_of_fold hin, rfl, hl, rfl⟩

theorem epochFinish_inv {s s' : TState P S K F} {k : K} {snap : Snap P S K F} (h : epochFinish c s k snap = .ok s') :
    ((c.callback k s.epoch (snap.inner.adam.map (·.params))).2.length = snap.inner.adam.length) ∧
    s' = { batchRng := (c.callback k s.epoch (snap.inner.adam.map (·.params))).1, epoch := s.epoch + 1,
           inner := { snap.inner with adam := List.zipWith (fun (t : Bool) (a : OptState P) =>
              { a with epoch := a.epoch + t.toNat }) c.flags (List.zipWith (fun p (a : OptState P) => { a with params := p })
              (c.callback k s.epoch (snap.inner.adam.map (·.params))).2 snap.inner.adam) },
           valLoss := snap.loss, best := if c.lt snap.loss s.best.loss then snap else s.best,
           patience := if c.le snap.loss (c.sub s.best.loss c.minDelta) then c.patience else s.patience - 1 } := by
  unfold epochFinish at h
  simp only [bind, Except.bind, pure, Except.pure, throw, throwThe, MonadExceptOf.throw] at h
  split at h
  · cases h
  · rename_i hlen
    refine ⟨not_not.1 hlen, ?_⟩
    cases h
    congr 1
    split <;> simp

/-! ## the loop -/

theorem history_of_loop {n : Nat} {s t : TState P S K F} (hn : c.epochs ≤ s.epoch + n) (h : loop c n s = .ok t) :
    ∃ l, History c s l t := by
  induction n generalizing s with
  | zero =>
    cases h
    refine ⟨[], .stop ?_⟩
    unfold epochCond
    rw [decide_eq_false (by omega : ¬ t.epoch < c.epochs)]
    simp
  | succ n ih =>
    unfold loop at h
    split at h
    · rename_i hc
      simp only [epochBody, bind, Except.bind] at h
      split at h
      · cases h
      · rename_i s' hs'
        split at hs'
        · cases hs'
        · rename_i r hr
          obtain ⟨k, snap⟩ := r
          simp only at hs'
          have := (epochFinish_inv hs').2
          have he : s'.epoch = s.epoch + 1 := by rw [this]
          obtain ⟨l, hl⟩ := ih (by omega) h
          exact ⟨snap :: l, .epoch hc hr hs' hl⟩
    · rename_i hc
      cases h
      exact ⟨[], .stop (by simpa using hc)⟩

theorem run_inv {k : K} {adam : List (OptState P)} {st : S} {rng : K} {t : TState P S K F}
    (h : run c k adam st rng = .ok t) : ∃ s l, initial c k adam st rng = .ok s ∧ History c s l t := by
  unfold run at h
  simp only [bind, Except.bind] at h
  split at h
  · cases h
  · rename_i s hs
    obtain ⟨l, hl⟩ := history_of_loop (by omega) h
    exact ⟨s, l, hs, hl⟩

theorem initial_inv {k : K} {adam : List (OptState P)} {st : S} {rng : K} {s : TState P S K F}
    (h : initial c k adam st rng = .ok s) : s.epoch = 0 ∧ s.inner = ⟨adam, st, (c.split rng).1⟩ ∧
      s.best = ⟨s.valLoss, 0, s.inner⟩ ∧ s.patience = c.patience ∧ s.batchRng = k ∧
      batchedValLoss c s.inner (c.split rng).2 0 = .ok s.valLoss := by
  unfold initial at h
  simp only [bind, Except.bind, pure, Except.pure] at h
  split at h
  · cases h
  · rename_i loss hl
    cases h
    exact ⟨rfl, rfl, rfl, rfl, rfl, hl⟩

/-- The list of losses of a history. -/
theorem history_epoch {s t : TState P S K F} {l : List (Snap P S K F)} (h : History c s l t) :
    t.epoch = s.epoch + l.length ∧ ∀ (i : Nat) (x : Snap P S K F), l[i]? = some x → x.epoch = s.epoch + i := by
  induction h with
  | stop _ => simp
  | @epoch s k snap s' l t _ ht hf _ ih =>
    have he : s'.epoch = s.epoch + 1 := by rw [(epochFinish_inv hf).2]
    obtain ⟨bs, -, -, h3, -⟩ := epochTrain_inv ht
    refine ⟨by rw [ih.1, he]; simp; omega, fun i x hx => ?_⟩
    cases i with
    | zero => simp at hx; subst hx; simpa using h3
    | succ i => rw [ih.2 i x (by simpa using hx), he]; omega

/-- The best entry so far is the first best, and stays it. -/
theorem firstBest_step {lt le : F → F → Bool} (ho : FloatOrder lt le) {l : List (Snap P S K F)} {b x : Snap P S K F}
    (h : FirstBest lt le l b) : FirstBest lt le (l ++ [x]) (if lt x.loss b.loss then x else b) := by
  obtain ⟨i, h1, h2, h3, h4⟩ := h
  have hil := (List.getElem?_eq_some_iff.1 h1).1
  have hne : l ≠ [] := by rintro rfl; simp at hil
  split
  · rename_i hx
    refine ⟨l.length, by simp, ?_, ?_, Or.inr ?_⟩
    · intro y hy
      rcases List.mem_append.1 hy with h | h
      · by_contra hc
        have := ho.trans _ _ _ (by simpa using hc) hx
        rw [h2 y h] at this
        exact absurd this (by simp)
      · rw [List.mem_singleton] at h
        subst h
        exact ho.irrefl _
    · intro j y hj hy
      rw [List.getElem?_append_left hj] at hy
      by_contra hc
      have := ho.le_lt _ _ _ (by simpa using hc) hx
      rw [h2 y (List.mem_of_getElem? hy)] at this
      exact absurd this (by simp)
    · have h0 : 0 < l.length := by omega
      refine ⟨l[0], by simp [h0], ?_⟩
      rcases h4 with rfl | ⟨y, hy, hby⟩
      · rw [List.getElem?_eq_getElem h0] at h1
        cases h1
        exact hx
      · rw [List.getElem?_eq_getElem h0] at hy
        cases hy
        exact ho.trans _ _ _ hx hby
  · rename_i hx
    refine ⟨i, by rw [List.getElem?_append_left hil, h1], ?_, ?_, ?_⟩
    · intro y hy
      rcases List.mem_append.1 hy with h | h
      · exact h2 y h
      · rw [List.mem_singleton] at h
        subst h
        simpa using hx
    · intro j y hj hy
      rw [List.getElem?_append_left (by omega)] at hy
      exact h3 j y hj hy
    · rcases h4 with h | ⟨y, hy, hby⟩
      · exact .inl h
      · exact .inr ⟨y, by rw [List.getElem?_append_left (by omega)]; exact hy, hby⟩

theorem history_best (ho : FloatOrder c.lt c.le) {s t : TState P S K F} {l l0 : List (Snap P S K F)} (h : History c s l t)
    (h0 : FirstBest c.lt c.le l0 s.best) : FirstBest c.lt c.le (l0 ++ l) t.best := by
  induction h generalizing l0 with
  | stop _ => simpa using h0
  | @epoch s k snap s' l t _ ht hf _ ih =>
    have hb : s'.best = if c.lt snap.loss s.best.loss then snap else s.best := by rw [(epochFinish_inv hf).2]
    have := ih (l0 := l0 ++ [snap]) (by rw [hb]; exact firstBest_step ho h0)
    simpa using this

theorem history_best_loss {s t : TState P S K F} {l : List (Snap P S K F)} (h : History c s l t) :
    t.best.loss = bestLoss c.lt s.best.loss (l.map (·.loss)) := by
  induction h with
  | stop _ => rfl
  | @epoch s k snap s' l t _ ht hf _ ih =>
    have hb : s'.best = if c.lt snap.loss s.best.loss then snap else s.best := by rw [(epochFinish_inv hf).2]
    rw [ih, hb]
    simp only [bestLoss, List.map_cons, List.foldl_cons]
    congr 1
    split <;> rfl

/-! ## gradients and frozen parameters -/

theorem applyGrads_inv {update : P → OptState P → OptState P} {ts : List Bool} {as out : List (OptState P)} {ds : List P}
    (hl : ts.length = as.length) (h : applyGrads update ts as ds = .ok out) :
    out.length = as.length ∧ ∀ (i : Nat) (a : OptState P), as[i]? = some a →
      (ts[i]? = some false → out[i]? = some a) ∧
      (ts[i]? = some true → ∃ d, ds[(ts.take i).count true]? = some d ∧ out[i]? = some (update d a)) := by
  induction ts generalizing as out ds with
  | nil =>
    cases as with
    | nil => cases h; simp
    | cons a as => simp at hl
  | cons t ts ih =>
    cases as with
    | nil => simp at hl
    | cons a as =>
      have hl' : ts.length = as.length := by simpa using hl
      cases t with
      | true =>
        cases ds with
        | nil => simp [applyGrads] at h
        | cons d ds =>
          simp only [applyGrads, bind, Except.bind, pure, Except.pure] at h
          split at h
          · cases h
          · rename_i rest hr
            cases h
            obtain ⟨i1, i2⟩ := ih hl' hr
            refine ⟨by simp [i1], fun i b hb => ?_⟩
            cases i with
            | zero => simp at hb; subst hb; simp
            | succ i =>
              have := i2 i b (by simpa using hb)
              simpa using this
      | false =>
        simp only [applyGrads, bind, Except.bind, pure, Except.pure] at h
        split at h
        · cases h
        · rename_i rest hr
          cases h
          obtain ⟨i1, i2⟩ := ih hl' hr
          refine ⟨by simp [i1], fun i b hb => ?_⟩
          cases i with
          | zero => simp at hb; subst hb; simp
          | succ i =>
            have := i2 i b (by simpa using hb)
            simpa using this

theorem applyGrads_total (update : P → OptState P → OptState P) {ts : List Bool} {as : List (OptState P)} {ds : List P}
    (hd : ts.count true ≤ ds.length) : ∃ out, applyGrads update ts as ds = .ok out := by
  induction ts generalizing as ds with
  | nil => cases as <;> exact ⟨[], by simp [applyGrads]⟩
  | cons t ts ih =>
    cases as with
    | nil => exact ⟨[], by simp [applyGrads]⟩
    | cons a as =>
      cases t with
      | true =>
        cases ds with
        | nil => simp at hd
        | cons d ds =>
          obtain ⟨out, ho⟩ := ih (as := as) (ds := ds) (by simp at hd; omega)
          exact ⟨update d a :: out, by simp [applyGrads, ho, bind, Except.bind, pure, Except.pure]⟩
      | false =>
        obtain ⟨out, ho⟩ := ih (as := as) (ds := ds) (by simpa using hd)
        exact ⟨a :: out, by simp [applyGrads, ho, bind, Except.bind, pure, Except.pure]⟩

theorem steps_frozen {epoch : Nat} {bs : List (Data α)} {i i' : Inner P S K} (hl : c.flags.length = i.adam.length)
    (h : Steps c epoch bs i i') :
    i'.adam.length = i.adam.length ∧ ∀ (j : Nat), c.flags[j]? = some false → i'.adam[j]? = i.adam[j]? := by
  induction h with
  | nil i => simp
  | @cons b bs i i' adam ha _ ih =>
    obtain ⟨h1, h2⟩ := applyGrads_inv hl ha
    obtain ⟨h3, h4⟩ := ih (by simp [h1, hl])
    refine ⟨by rw [h3]; exact h1, fun j hj => ?_⟩
    rw [h4 j hj]
    simp only
    have hjl : j < i.adam.length := by rw [← hl]; exact (List.getElem?_eq_some_iff.1 hj).1
    have e : i.adam[j]? = some i.adam[j] := List.getElem?_eq_getElem hjl
    rw [e, (h2 j _ e).1 hj]

/-- What the callback and the counters do to a frozen parameter. -/
theorem finish_frozen {s s' : TState P S K F} {k : K} {snap : Snap P S K F} (hl : c.flags.length = snap.inner.adam.length)
    (h : epochFinish c s k snap = .ok s') :
    s'.inner.adam.length = snap.inner.adam.length ∧ ∀ (j : Nat), c.flags[j]? = some false →
      (∀ k e (ps : List P), (c.callback k e ps).2[j]? = ps[j]?) → s'.inner.adam[j]? = snap.inner.adam[j]? := by
  obtain ⟨h1, rfl⟩ := epochFinish_inv h
  refine ⟨by simp [h1, hl], fun j hj hc => ?_⟩
  have hjl : j < snap.inner.adam.length := by rw [← hl]; exact (List.getElem?_eq_some_iff.1 hj).1
  have e : snap.inner.adam[j]? = some snap.inner.adam[j] := List.getElem?_eq_getElem hjl
  have hp := hc k s.epoch (snap.inner.adam.map (·.params))
  rw [List.getElem?_map, e] at hp
  simp only [List.getElem?_zipWith, hj, hp, e, Option.map_some]
  simp

theorem history_frozen {s t : TState P S K F} {l : List (Snap P S K F)} (h : History c s l t)
    (hl : c.flags.length = s.inner.adam.length) (hbl : c.flags.length = s.best.inner.adam.length) {j : Nat}
    (hj : c.flags[j]? = some false) (hc : ∀ k e (ps : List P), (c.callback k e ps).2[j]? = ps[j]?)
    (hb : s.best.inner.adam[j]? = s.inner.adam[j]?) :
    t.inner.adam.length = s.inner.adam.length ∧ t.best.inner.adam.length = s.inner.adam.length ∧
    t.inner.adam[j]? = s.inner.adam[j]? ∧ t.best.inner.adam[j]? = s.inner.adam[j]? := by
  induction h with
  | stop _ => exact ⟨rfl, by omega, rfl, hb⟩
  | @epoch s k snap s' l t _ ht hf _ ih =>
    obtain ⟨bs, -, h2, -, -⟩ := epochTrain_inv ht
    obtain ⟨a1, a2⟩ := steps_frozen hl h2
    obtain ⟨b1, b2⟩ := finish_frozen (by omega) hf
    have e1 : s'.inner.adam[j]? = s.inner.adam[j]? := by rw [b2 j hj hc, a2 j hj]
    have hbest : s'.best = if c.lt snap.loss s.best.loss then snap else s.best := by rw [(epochFinish_inv hf).2]
    have hbb : s'.best.inner.adam[j]? = s.inner.adam[j]? ∧ c.flags.length = s'.best.inner.adam.length := by
      rw [hbest]
      split
      · exact ⟨a2 j hj, by omega⟩
      · exact ⟨hb, hbl⟩
    obtain ⟨i1, i2, i3, i4⟩ := ih (by omega) hbb.2 (by rw [hbb.1, e1])
    exact ⟨by omega, by omega, by rw [i3, e1], by rw [i4, e1]⟩

end Verif.Train
