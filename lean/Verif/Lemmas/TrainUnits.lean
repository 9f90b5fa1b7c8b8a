import Verif.Spec.TrainUnits
import Verif.Lemmas.Training

/-! # Lemmas for C126: trainings in other units -/

namespace Verif.TrainUnitsSpec
open Verif.Batch Verif.Train Verif.Adam

variable {α β P Q S K F G : Type}

theorem mapM_conv {A A' B B' E : Type} (f : A → Except E B) (f' : A' → Except E B') (a : A → A') (b : B → B')
    (h : ∀ x, f' (a x) = (f x).map b) (l : List A) : (l.map a).mapM f' = (l.mapM f).map (List.map b) := by
  induction l with
  | nil => rfl
  | cons x l ih =>
    rw [List.map_cons, List.mapM_cons, List.mapM_cons, h, ih]
    cases f x with
    | error e => rfl
    | ok y => cases l.mapM f <;> rfl

theorem dynSlice_conv (f : α → β) (s l : Nat) (x : List α) : dynSlice s l (x.map f) = (dynSlice s l x).map (List.map f) := by
  unfold dynSlice
  rw [List.length_map]
  split
  · rfl
  · simp only [Except.map, List.map_take, List.map_drop]

theorem batchLeaves_conv (f : α → β) (X : Leaves α) (size idx : Nat) (length : Option Nat) :
    batchLeaves (X.map (List.map f)) size idx length = (batchLeaves X size idx length).map (List.map (List.map f)) :=
  mapM_conv _ _ _ _ (fun x => dynSlice_conv f _ _ x) X

theorem numSamples_conv (f : α → β) (X : Leaves α) : numSamples (X.map (List.map f)) = numSamples X := by
  cases X with
  | nil => rfl
  | cons x X => simp [numSamples]

theorem permute_conv (f : α → β) (perm : K → Nat → List Nat) (key : K) (x : List α) :
    permuteLeaf perm key (x.map f) = (permuteLeaf perm key x).map f := by
  unfold permuteLeaf
  rw [List.length_map, List.map_filterMap]
  congr 1
  funext i
  rw [List.getElem?_map]

theorem leaves_conv (f : α → β) (perm : K → Nat → List Nat) (split : K → Nat → List K) (X : Leaves α) (key : K) :
    permuteLeaves perm split (X.map (List.map f)) key false = (permuteLeaves perm split X key false).map (List.map f) := by
  simp only [permuteLeaves, Bool.false_eq_true, if_false, List.map_map]
  exact List.map_congr_left fun x _ => permute_conv f perm key x

theorem shuffle_conv (x y u : α → β) (perm : K → Nat → List Nat) (split : K → Nat → List K) (key : K) (d : Data α) :
    (convert x y u d).shuffle perm split key = convert x y u (d.shuffle perm split key) := by
  obtain ⟨X, Y, U⟩ := d
  cases Y <;> cases U <;> simp [convert, Data.shuffle, leaves_conv]

theorem dataMapM_conv (x y u : α → β) (f : Leaves α → Except PyErr (Leaves α)) (f' : Leaves β → Except PyErr (Leaves β))
    (h : ∀ (w : α → β) X, f' (X.map (List.map w)) = (f X).map (List.map (List.map w))) (d : Data α) :
    (convert x y u d).mapM f' = (d.mapM f).map (convert x y u) := by
  obtain ⟨X, Y, U⟩ := d
  unfold Data.mapM convert
  simp only [h]
  cases f X with
  | error e => rfl
  | ok X' =>
    cases Y with
    | none =>
      cases U with
      | none => rfl
      | some U => simp only [Option.map_some, h]; cases f U <;> rfl
    | some Y =>
      simp only [Option.map_some, h]
      cases f Y with
      | error e => rfl
      | ok Y' =>
        cases U with
        | none => rfl
        | some U => simp only [Option.map_some, h]; cases f U <;> rfl

theorem batches_conv (x y u : α → β) (d : Data α) (size : Nat) :
    batches (convert x y u d) size = (batches d size).map (List.map (convert x y u)) := by
  unfold batches
  have hX : numSamples (convert x y u d).X = numSamples d.X := numSamples_conv x d.X
  have hb : ∀ (i : Nat) (o : Option Nat), ((convert x y u d).mapM fun X => batchLeaves X size i o) =
      (d.mapM fun X => batchLeaves X size i o).map (convert x y u) := fun i o =>
    dataMapM_conv x y u _ _ (fun w X => batchLeaves_conv w X size i o) d
  have hf : ∀ l : List Nat, (l.mapM fun i => (convert x y u d).mapM fun X => batchLeaves X size i none) =
      (l.mapM fun i => d.mapM fun X => batchLeaves X size i none).map (List.map (convert x y u)) := fun l => by
    have := mapM_conv (fun i => d.mapM fun X => batchLeaves X size i none) (fun i => (convert x y u d).mapM fun X => batchLeaves X size i none)
      id (convert x y u) (fun i => hb i none) l
    rwa [List.map_id] at this
  rw [hX]
  cases numSamples d.X with
  | error e => rfl
  | ok n =>
    simp only [bind, Except.bind]
    split
    · rfl
    · simp only [pure, Except.pure, hf]
      simp only [hb]
      cases (List.range (n / size)).mapM fun i => d.mapM fun X => batchLeaves X size i none with
      | error e => rfl
      | ok full =>
        by_cases hr : n % size > 0
        · simp only [Except.map, hr, if_true]
          cases d.mapM fun X => batchLeaves X size (n / size) (some (n % size)) with
          | error e => rfl
          | ok r => simp
        · simp only [Except.map, hr, if_false]

theorem applyGrads_conv {up : P → OptState P → OptState P} {up' : Q → OptState Q → OptState Q} {g : P → Q} {o : OptState P → OptState Q}
    (h : ∀ d a, up' (g d) (o a) = o (up d a)) : ∀ (fs : List Bool) (as : List (OptState P)) (ds : List P),
    applyGrads up' fs (as.map o) (ds.map g) = (applyGrads up fs as ds).map (List.map o)
  | [], _, _ => by simp [applyGrads, Except.map]
  | true :: fs, [], ds => by simp [applyGrads, Except.map]
  | false :: fs, [], ds => by simp [applyGrads, Except.map]
  | true :: fs, a :: as, [] => by simp [applyGrads, Except.map]
  | true :: fs, a :: as, d :: ds => by
    simp only [List.map_cons, applyGrads, applyGrads_conv h fs as ds, h]
    cases applyGrads up fs as ds <;> rfl
  | false :: fs, a :: as, ds => by
    simp only [List.map_cons, applyGrads, applyGrads_conv h fs as ds]
    cases applyGrads up fs as ds <;> rfl

variable {c : Cfg α P S K F} {c' : Cfg β Q S K G} {x y u : α → β} {p g m v : P → Q} {f : F → G}

theorem params_conv (p m v : P → Q) (as : List (OptState P)) :
    (as.map (convertOpt p m v)).map (·.params) = (as.map (·.params)).map p := by
  simp [convertOpt, Function.comp_def]

theorem step_conv (h : SameTraining c c' x y u p g m v f) (e : Nat) (i : Inner P S K) (b : Data α) :
    trainStep c' e (convertInner (convertOpt p m v) i) (convert x y u b) =
      (trainStep c e i b).map (convertInner (convertOpt p m v)) := by
  unfold trainStep
  simp only [convertInner, params_conv, h.split, h.grad, h.flags]
  rw [applyGrads_conv (o := convertOpt p m v) h.update]
  cases applyGrads c.update c.flags i.adam _ <;> rfl

theorem fold_conv (h : SameTraining c c' x y u p g m v f) (e : Nat) : ∀ (bs : List (Data α)) (i : Inner P S K),
    (bs.map (convert x y u)).foldlM (trainStep c' e) (convertInner (convertOpt p m v) i) =
      (bs.foldlM (trainStep c e) i).map (convertInner (convertOpt p m v))
  | [], _ => rfl
  | b :: bs, i => by
    rw [List.map_cons, List.foldlM_cons, List.foldlM_cons, step_conv h]
    cases trainStep c e i b with
    | error e => rfl
    | ok j => exact fold_conv h e bs j

theorem val_conv (h : SameTraining c c' x y u p g m v f) (i : Inner P S K) (k : K) (e : Nat) :
    batchedValLoss c' (convertInner (convertOpt p m v) i) k e = (batchedValLoss c i k e).map f := by
  unfold batchedValLoss
  rw [h.val, h.perm, h.splitN, shuffle_conv, h.valBatchSize, batches_conv]
  have hn : numSamples (convert x y u c.val).X = numSamples c.val.X := numSamples_conv x c.val.X
  rw [hn]
  cases batches (c.val.shuffle c.perm c.splitN k) c.valBatchSize with
  | error e => rfl
  | ok bs =>
    cases numSamples c.val.X with
    | error e => rfl
    | ok n =>
      simp only [Except.map, bind, Except.bind, pure, Except.pure, convertInner, params_conv]
      congr 1
      rw [List.foldl_map, h.zero]
      generalize c.zero = z
      induction bs generalizing z with
      | nil => rfl
      | cons b bs ih => rw [List.foldl_cons, List.foldl_cons, h.valLoss, h.divNat, h.add, ih]

theorem train_conv (h : SameTraining c c' x y u p g m v f) (s : TState P S K F) :
    epochTrain c' (convertState (convertOpt p m v) f s) =
      (epochTrain c s).map fun r => (r.1, convertSnap (convertOpt p m v) f r.2) := by
  unfold epochTrain
  simp only [convertState, h.split, h.train, h.perm, h.splitN, shuffle_conv, h.batchSize, batches_conv]
  cases batches (c.train.shuffle c.perm c.splitN (c.split s.batchRng).2) c.batchSize with
  | error e => rfl
  | ok bs =>
    simp only [Except.map, bind, Except.bind, fold_conv h]
    cases bs.foldlM (trainStep c s.epoch) s.inner with
    | error e => rfl
    | ok i =>
      simp only [val_conv h]
      cases batchedValLoss c i (c.split (c.split s.batchRng).1).2 s.epoch <;> rfl

theorem finish_conv (h : SameTraining c c' x y u p g m v f) (s : TState P S K F) (k : K) (sn : Snap P S K F) :
    epochFinish c' (convertState (convertOpt p m v) f s) k (convertSnap (convertOpt p m v) f sn) =
      (epochFinish c s k sn).map (convertState (convertOpt p m v) f) := by
  unfold epochFinish
  simp only [convertState, convertSnap, convertInner, params_conv, h.callback, h.minDelta, h.sub, h.le, h.lt, h.patience, h.flags, List.length_map]
  by_cases hl : (c.callback k s.epoch (sn.inner.adam.map (·.params))).2.length = sn.inner.adam.length
  · have e1 : ∀ (ps : List P) (as : List (OptState P)),
        List.zipWith (fun q (a : OptState Q) => { a with params := q }) (ps.map p) (as.map (convertOpt p m v)) =
        (List.zipWith (fun q (a : OptState P) => { a with params := q }) ps as).map (convertOpt p m v) := fun ps as => by
      rw [List.zipWith_map, List.map_zipWith]; rfl
    have e2 : ∀ (fs : List Bool) (as : List (OptState P)),
        List.zipWith (fun (t : Bool) (a : OptState Q) => { a with epoch := a.epoch + t.toNat }) fs (as.map (convertOpt p m v)) =
        (List.zipWith (fun (t : Bool) (a : OptState P) => { a with epoch := a.epoch + t.toNat }) fs as).map (convertOpt p m v) := fun fs as => by
      rw [List.zipWith_map_right, List.map_zipWith]; rfl
    simp only [hl, ne_eq, not_true_eq_false, if_false, e1, e2]
    simp only [bind, Except.bind, pure, Except.pure, Except.map]
    by_cases hb : c.lt sn.loss s.best.loss = true <;> simp [hb, convertState, convertSnap, convertInner]
  · simp only [ne_eq, hl, not_false_eq_true, if_true]
    rfl

theorem loop_conv (h : SameTraining c c' x y u p g m v f) : ∀ (n : Nat) (s : TState P S K F),
    loop c' n (convertState (convertOpt p m v) f s) = (loop c n s).map (convertState (convertOpt p m v) f)
  | 0, _ => rfl
  | n + 1, s => by
    have hc : epochCond c' (convertState (convertOpt p m v) f s) = epochCond c s := by
      simp only [epochCond, convertState, convertSnap, h.verbose, h.interrupted, h.epochs, h.target, h.lt]
      congr
    unfold loop
    rw [hc]
    split
    · unfold epochBody
      rw [train_conv h]
      cases epochTrain c s with
      | error e => rfl
      | ok r =>
        simp only [Except.map, bind, Except.bind]
        rw [finish_conv h]
        cases epochFinish c s r.1 r.2 with
        | error e => rfl
        | ok s' => exact loop_conv h n s'
    · rfl

theorem run_conv (h : SameTraining c c' x y u p g m v f) (k : K) (as : List (OptState P)) (st : S) (rng : K) :
    run c' k (as.map (convertOpt p m v)) st rng = (run c k as st rng).map (convertState (convertOpt p m v) f) := by
  unfold run
  have hi : initial c' k (as.map (convertOpt p m v)) st rng = (initial c k as st rng).map (convertState (convertOpt p m v) f) := by
    unfold initial
    simp only [h.split]
    have := val_conv h ⟨as, st, (c.split rng).1⟩ (c.split rng).2 0
    simp only [convertInner] at this
    rw [this]
    cases batchedValLoss c ⟨as, st, (c.split rng).1⟩ (c.split rng).2 0 with
    | error e => rfl
    | ok l => simp [Except.map, bind, Except.bind, pure, Except.pure, convertState, convertSnap, convertInner, h.patience]
  rw [hi, h.epochs]
  cases initial c k as st rng with
  | error e => rfl
  | ok s => exact loop_conv h _ s

end Verif.TrainUnitsSpec
