import Verif.Props.SymmetryAll
import Verif.Props.NoEffect
import Verif.Props.Activations

/-! # C139: hidden units that are never active are never trained -/

namespace Verif.Props
open Batch BatchSpec Train TrainSpec Adam SymmetrySpec Prebuilt NetworkSpec
open HermTrain hiding gradC gradR update
open TrainUnitsSpec (gradR gradC)

variable {α S K F : Type}

/-- The features of the samples of a batch. -/
def rowsOf (feat : List (Option α) → Nat → ℝ) (b : Data α) : List (Nat → ℝ) := (List.range (b.X.headD []).length).map fun i => feat (sampleAt b.X i)

/-- What unit `r` of the first layer is given to activate, for the features `x`. -/
noncomputable def preActivation (f r : Nat) (ps : List (List Nat → ℝ)) (x : Nat → ℝ) : ℝ := ∑ q ∈ Finset.range f, ps.getD 0 0 [r, q] * x q + ps.getD 1 0 [r]

/-- The entries of array `j` that belong to unit `r` of the first layer: its weights, its bias, its weights in the next layer. -/
def ofUnit (r : Nat) : Nat → List Nat → Prop
  | 0, i => ∃ q, i = [r, q]
  | 1, i => i = [r]
  | 2, i => ∃ s, i = [s, r]
  | _, _ => False

theorem netOut_eq (draw : Nat → List Nat → ℝ) (drawB : List Nat → List Nat → ℝ) (f : Nat) (hs : List (Nat × Option (ℝ → ℝ))) (ps : List (List Nat → ℝ)) (x : Nat → ℝ) :
    netOut draw drawB f hs ps x = some ((List.range (width f (layersOf hs ps))).map (net f (layersOf hs ps) x)) := by
  obtain ⟨y, h1, h2⟩ := predictNet_eq draw drawB f (layersOf hs ps) x
  simp only [netOut, h1, Option.map_some]
  congr 1
  exact List.map_congr_left fun r hr => h2 r (List.mem_range.1 hr)

theorem netOut_dead (draw : Nat → List Nat → ℝ) (drawB : List Nat → List Nat → ℝ) (f n r : Nat) (φ : ℝ → ℝ) (hφ : ∀ u < 0, φ u = 0) (h2 : Nat × Option (ℝ → ℝ))
    (rest : List (Nat × Option (ℝ → ℝ))) (ps ps' : List (List Nat → ℝ)) (x : Nat → ℝ) (hsame : ∀ j i, ¬ ofUnit r j i → ps'.getD j 0 i = ps.getD j 0 i)
    (hp : preActivation f r ps x < 0) (hp' : preActivation f r ps' x < 0) :
    netOut draw drawB f ((n, some φ) :: h2 :: rest) ps' x = netOut draw drawB f ((n, some φ) :: h2 :: rest) ps x := by
  rw [netOut_eq, netOut_eq, width_layers _ ps' ps]
  congr 2
  have hl : ∀ ps, layersOf ((n, some φ) :: h2 :: rest) ps = layerAt ps 0 (n, some φ) :: layerAt ps 1 h2 :: rest.mapIdx fun k => layerAt ps (k + 1 + 1) := fun ps => by
    simp only [layersOf, List.mapIdx_cons, zero_add]
  rw [hl, hl]
  have h0 : (layerAt ps' 0 (n, some φ)).at f x = (layerAt ps 0 (n, some φ)).at f x := by
    funext s
    by_cases hs : s = r
    · subst hs
      have e1 : (layerAt ps 0 (n, some φ)).at f x s = φ (preActivation f s ps x) := rfl
      have e2 : (layerAt ps' 0 (n, some φ)).at f x s = φ (preActivation f s ps' x) := rfl
      rw [e1, e2, hφ _ hp, hφ _ hp']
    · simp only [Layer.at, layerAt, Layer.fn, mul_zero, zero_add, Option.elim_some]
      have hb : ps'.getD 1 0 [s] = ps.getD 1 0 [s] := hsame 1 _ (by simp [ofUnit, hs])
      have hw : ∀ q, ps'.getD 0 0 [s, q] = ps.getD 0 0 [s, q] := fun q => hsame 0 _ (by simp [ofUnit, hs])
      simp only [hb, hw]
  have hy : (layerAt ps 0 (n, some φ)).at f x r = 0 := by
    have e1 : (layerAt ps 0 (n, some φ)).at f x r = φ (preActivation f r ps x) := rfl
    rw [e1, hφ _ hp]
  have h1 : ∀ m (y : Nat → ℝ), y r = 0 → (layerAt ps' 1 h2).at m y = (layerAt ps 1 h2).at m y := by
    intro m y hy
    funext s
    simp only [Layer.at, layerAt, Layer.fn, Option.elim_some]
    have hb : ps'.getD (2 * 1 + 1) 0 [s] = ps.getD (2 * 1 + 1) 0 [s] := hsame 3 _ (by simp [ofUnit])
    rw [hb]
    have hsum : ∑ q ∈ Finset.range m, ps'.getD (2 * 1) 0 [s, q] * y q = ∑ q ∈ Finset.range m, ps.getD (2 * 1) 0 [s, q] * y q := by
     refine Finset.sum_congr rfl fun q _ => ?_
     by_cases hq : q = r
     · rw [hq, hy, mul_zero, mul_zero]
     · have hw : ps'.getD (2 * 1) 0 [s, q] = ps.getD (2 * 1) 0 [s, q] := hsame 2 _ (by simp [ofUnit, hq])
       rw [hw]
    rw [hsum]
  have htail : ∀ k, layerAt ps' (k + 1 + 1) = layerAt ps (k + 1 + 1) := by
    intro k
    funext h
    have e1 : ∀ i, ps'.getD (2 * (k + 1 + 1)) 0 i = ps.getD (2 * (k + 1 + 1)) 0 i := fun i => hsame (2 * k + 1 + 3) i (by simp [ofUnit])
    have e2 : ∀ i, ps'.getD (2 * (k + 1 + 1) + 1) 0 i = ps.getD (2 * (k + 1 + 1) + 1) 0 i := fun i => hsame (2 * k + 2 + 3) i (by simp [ofUnit])
    simp only [layerAt, e1, e2]
  simp only [net, htail, h0]
  rw [show (layerAt ps' 0 (n, some φ)).out = (layerAt ps 0 (n, some φ)).out from rfl, show (layerAt ps' 1 h2).out = (layerAt ps 1 h2).out from rfl, h1 _ _ hy]

theorem pre_line (f r : Nat) (ps : List (List Nat → ℝ)) (j : Nat) (M : List Nat → ℝ) (hM : ps[j]? = some M) (i : List Nat) (x : Nat → ℝ) :
    ∃ s, ∀ t, preActivation f r (ps.set j (Function.update M i (M i + t))) x = preActivation f r ps x + t * s := by
  have hj := (List.getElem?_eq_some_iff.1 hM).1
  have hg : ∀ k q t, (ps.set j (Function.update M i (M i + t))).getD k 0 q = ps.getD k 0 q + t * if k = j ∧ q = i then 1 else 0 := by
    intro k q t
    rw [List.getD_eq_getElem?_getD, List.getElem?_set, List.getD_eq_getElem?_getD]
    by_cases hk : j = k
    · subst hk
      rw [if_pos rfl, if_pos hj, hM]
      simp only [Option.getD_some, true_and]
      by_cases hq : q = i
      · subst hq; simp
      · simp [hq, Function.update_of_ne]
    · have : ¬ k = j := fun h => hk h.symm
      simp [hk, this]
  refine ⟨∑ q ∈ Finset.range f, (if 0 = j ∧ [r, q] = i then 1 else 0) * x q + if 1 = j ∧ [r] = i then 1 else 0, fun t => ?_⟩
  simp only [preActivation, hg, add_mul, Finset.sum_add_distrib, mul_add, Finset.mul_sum, mul_assoc]
  ring

/-- **C139 (inactive units).** If the activation of the first layer of a network is zero for negative numbers, like that of `ReLU`, and one of its units is given negative numbers for all samples of the training data, then a training
with a new optimiser changes neither the weights nor the bias of this unit nor the weights that the next layer has for it: in the last model and in the best one they have the values they started with, whatever the loss,
and however the rest of the network is trained. (`feat` reads the features of a sample.) -/
theorem C139_inactive (c : Cfg α (List Nat → ℝ) S K F) (lr : Nat → ℝ) (b1 b2 eps clip : ℝ) (hc : 0 ≤ clip)
    (hu : c.update = update lr b1 b2 eps clip ∨ c.update = updateRinC lr b1 b2 eps clip) (draw : Nat → List Nat → ℝ) (drawB : List Nat → List Nat → ℝ) (f n : Nat) (φ : ℝ → ℝ) (hφ : ∀ u < 0, φ u = 0)
    (h2 : Nat × Option (ℝ → ℝ)) (rest : List (Nat × Option (ℝ → ℝ))) (feat : List (Option α) → Nat → ℝ) (loss : Nat → Data α → S → K → List (Option (List ℝ)) → ℝ)
    (hg : ∀ e b st k (ps : List (List Nat → ℝ)) j M, ps[j]? = some M → c.flags[j]? = some true → ∀ g, (c.grad e b st k ps).1[(c.flags.take j).count true]? = some g →
      g = gradR (fun Q => loss e b st k ((rowsOf feat b).map (netOut draw drawB f ((n, some φ) :: h2 :: rest) (ps.set j Q)))) M)
    (hcb : ∀ k e (ps : List (List Nat → ℝ)), (c.callback k e ps).2 = ps) (hperm : ∀ k n, (c.perm k n).Perm (List.range n)) (N : Nat) (hd : DataUniform N c.train) (hb : 0 < c.batchSize)
    (k : K) (x0 : List (List Nat → ℝ)) (st : S) (rng : K) (t : TState (List Nat → ℝ) S K F) (hl : c.flags.length = x0.length) (hx : 2 ≤ x0.length)
    (h : run c k (x0.map Adam.init) st rng = .ok t) (r : Nat) (hr : ∀ m < N, preActivation f r x0 (feat (sampleAt c.train.X m)) < 0)
    (i : Inner (List Nat → ℝ) S K) (hi : i = t.inner ∨ i = t.best.inner) (j : Nat) (a : OptState (List Nat → ℝ)) (ha : i.adam[j]? = some a) (q : List Nat) (hq : ofUnit r j q) :
    a.params q = x0.getD j 0 q := by
  have hk : KeptOn c (fun b => ∀ x ∈ rowsOf feat b, ∃ m < N, x = feat (sampleAt c.train.X m)) fun j a => ∀ q, ofUnit r j q → a.params q = x0.getD j 0 q ∧ a.m q = 0 := by
    refine ⟨?_, fun j a n h => h, hcb⟩
    intro epoch b i hB hlen hI j a g ha hf hd q hq
    have hp : (i.adam.map (·.params))[j]? = some a.params := by rw [List.getElem?_map, ha]; rfl
    have hget : ∀ j' < 2, ∀ q, ofUnit r j' q → (i.adam.map (·.params)).getD j' 0 q = x0.getD j' 0 q := by
      intro j' hj' q hq
      have e : i.adam[j']? = some (i.adam[j']'(by omega)) := List.getElem?_eq_getElem (by omega)
      rw [List.getD_eq_getElem?_getD, List.getElem?_map, e]
      exact (hI j' _ e q hq).1
    have hpre : ∀ x ∈ rowsOf feat b, preActivation f r (i.adam.map (·.params)) x < 0 := by
      intro x hx
      obtain ⟨m, hm, rfl⟩ := hB x hx
      have := hr m hm
      unfold preActivation at this ⊢
      rw [hget 1 (by norm_num) [r] rfl, Finset.sum_congr rfl fun q _ => by rw [hget 0 (by norm_num) [r, q] ⟨q, rfl⟩]]
      exact this
    have h0 : g q = 0 := by
      rw [hg _ _ _ _ _ j _ hp hf g hd]
      simp only [gradR]
      have hev : ∀ᶠ t in nhds (0 : ℝ), ∀ x ∈ {x | x ∈ rowsOf feat b}, preActivation f r ((i.adam.map (·.params)).set j (Function.update a.params q (a.params q + t))) x < 0 := by
        rw [Filter.eventually_all_finite (List.finite_toSet (rowsOf feat b))]
        intro x hx
        obtain ⟨s, hs⟩ := pre_line f r (i.adam.map (·.params)) j a.params hp q x
        simp only [hs]
        have hcont : ContinuousAt (fun t : ℝ => preActivation f r (i.adam.map (·.params)) x + t * s) 0 := by fun_prop
        exact hcont.tendsto.eventually_lt_const (by simpa using hpre x hx)
      have heq : (fun t : ℝ => loss epoch b i.mstate (c.split i.mrng).2 ((rowsOf feat b).map (netOut draw drawB f ((n, some φ) :: h2 :: rest)
          ((i.adam.map (·.params)).set j (Function.update a.params q (a.params q + t)))))) =ᶠ[nhds 0]
          fun _ => loss epoch b i.mstate (c.split i.mrng).2 ((rowsOf feat b).map (netOut draw drawB f ((n, some φ) :: h2 :: rest) (i.adam.map (·.params)))) := by
        filter_upwards [hev] with t ht
        congr 1
        refine List.map_congr_left fun x hx => ?_
        refine netOut_dead draw drawB f n r φ hφ h2 rest _ _ x (fun j' q' hn => ?_) (hpre x hx) (ht x hx)
        rw [List.getD_eq_getElem?_getD, List.getElem?_set, List.getD_eq_getElem?_getD]
        split
        · rename_i hjj
          subst hjj
          have hne : q' ≠ q := fun e => hn (e ▸ hq)
          rw [hp, if_pos (List.getElem?_eq_some_iff.1 hp).1]
          simp [Function.update_of_ne hne]
        · rfl
      rw [heq.deriv_eq, deriv_const]
    have hI' := hI j a ha q hq
    rcases hu with hu | hu <;> rw [hu] <;> simp only [updateRinC, update, h0, hI'.1, hI'.2, clipR_zero hc] <;> simp
  have h0 : AllHave (fun j (a : OptState (List Nat → ℝ)) => ∀ q, ofUnit r j q → a.params q = x0.getD j 0 q ∧ a.m q = 0) (x0.map Adam.init) := by
    intro j a ha q _
    rw [List.getElem?_map, Option.map_eq_some_iff] at ha
    obtain ⟨P, hP, rfl⟩ := ha
    rw [List.getD_eq_getElem?_getD, hP]
    exact ⟨rfl, rfl⟩
  have hbatch : ∀ s k snap, epochTrain c s = .ok (k, snap) → ∃ bs, Steps c s.epoch bs s.inner snap.inner ∧ ∀ b ∈ bs, ∀ x ∈ rowsOf feat b, ∃ m < N, x = feat (sampleAt c.train.X m) := by
    intro s k snap he
    obtain ⟨bs, hs, -, sizes, hsz, hperm'⟩ := C27_each_sample_once c hperm N hd hb s k snap he
    refine ⟨bs, hs, fun b hbm x hx => ?_⟩
    obtain ⟨m, hm, rfl⟩ := List.mem_map.1 hx
    have hlen : (b.X.headD []).length = sizes b := by
      obtain ⟨hne, hall⟩ := (hsz b hbm).X
      cases hX : b.X with
      | nil => exact absurd hX hne
      | cons y ys => exact hall y (by rw [hX]; exact List.mem_cons_self)
    have hmem : triple b m ∈ bs.flatMap fun b => triples (sizes b) b := List.mem_flatMap.2 ⟨b, hbm, List.mem_map.2 ⟨m, by rw [← hlen]; exact hm, rfl⟩⟩
    obtain ⟨m', hm', e⟩ := List.mem_map.1 (hperm'.subset hmem)
    exact ⟨m', List.mem_range.1 hm', by rw [show sampleAt c.train.X m' = sampleAt b.X m from congrArg Prod.fst e]⟩
  obtain ⟨r1, r2⟩ := run_on hk hbatch (by simp [hl]) h h0
  rcases hi with rfl | rfl
  · exact (r1 j a ha q hq).1
  · exact (r2 j a ha q hq).1

/-! ## A training to which this applies -/

/-- The features of a sample of the example. -/
def rowFeatures (s : List (Option (List ℝ))) (i : Nat) : ℝ := ((s.headD Option.none).getD []).getD i 0

theorem rows_example (b : Data (List ℝ)) : rowsOf rowFeatures b = featuresOf b := by
  unfold rowsOf featuresOf
  cases hX : b.X with
  | nil => rfl
  | cons y ys =>
    apply List.ext_getElem
    · simp
    · intro i h1 h2
      simp only [List.length_map, List.length_range, List.headD_cons] at h1
      rw [List.getElem_map, List.getElem_map, List.getElem_range]
      funext q
      simp only [List.headD_cons, rowFeatures, sampleAt, List.map_cons, List.getElem?_eq_getElem h1, Option.getD_some]

/-- The weights of the second of three hidden units are negative, those of the others are positive, and the features 1 and 2 are positive: the second unit stays as it is. -/
example : let x0 : List (List Nat → ℝ) := [fun i => if i.headD 0 = 1 then -1 else 1, fun i => if i.headD 0 = 1 then -1 else 0, fun _ => 1, fun _ => 0]
    ∃ t, run hiddenCfg 0 (x0.map Adam.init) () 0 = .ok t ∧ ∀ a, t.best.inner.adam[0]? = some a → a.params [1, 0] = (-1 : ℝ) := by
  intro x0
  obtain ⟨t, ht⟩ : ∃ t, run hiddenCfg 0 (x0.map Adam.init) () 0 = .ok t := by
    refine C31_total hiddenCfg 2 2 (fun _ _ => List.Perm.refl _)
      ⟨⟨by simp [hiddenCfg], by simp [hiddenCfg]⟩, fun y hy => by cases hy; exact ⟨by simp, by simp⟩, fun u hu => by simp [hiddenCfg] at hu⟩
      ⟨⟨by simp [hiddenCfg], by simp [hiddenCfg]⟩, fun y hy => by cases hy; exact ⟨by simp, by simp⟩, fun u hu => by simp [hiddenCfg] at hu⟩
      Nat.one_pos Nat.two_pos (fun e b s k ps hps => ?_) (fun _ _ _ _ => rfl) 0 _ () 0 rfl
    simp [hiddenCfg] at hps ⊢
    omega
  have hflag : ∀ j, hiddenCfg.flags[j]? = some true → (hiddenCfg.flags.take j).count true = j := by
    intro j hj
    match j with
    | 0 | 1 | 2 | 3 => rfl
    | j + 4 => simp [hiddenCfg] at hj
  refine ⟨t, ht, fun a ha => ?_⟩
  have := C139_inactive hiddenCfg (fun _ => 1 / 100) 0.9 0.999 1e-8 1e3 (by norm_num) (.inl rfl) (fun _ _ => 0) (fun _ _ => 0) 1 3 (fun x => max x 0) (fun u hu => max_eq_right hu.le)
    (1, Option.none) [] rowFeatures (fun _ _ _ _ rs => hiddenLoss rs) (fun e b st k ps j M hM hf g hgr => by
      rw [hflag j hf] at hgr
      simp only [hiddenCfg, List.getElem?_mapIdx, hM, Option.map_some, Option.some.injEq] at hgr
      rw [rows_example]
      exact hgr.symm) (fun _ _ _ => rfl) (fun _ _ => List.Perm.refl _) 2
    ⟨⟨by simp [hiddenCfg], by simp [hiddenCfg]⟩, fun y hy => by cases hy; exact ⟨by simp, by simp⟩, fun u hu => by simp [hiddenCfg] at hu⟩ Nat.one_pos 0 x0 () 0 t rfl (by simp [x0]) ht 1
    (fun m hm => by
      have : m = 0 ∨ m = 1 := by omega
      rcases this with rfl | rfl <;> simp [preActivation, x0, rowFeatures, sampleAt, hiddenCfg] <;> norm_num) _ (.inr rfl) 0 a ha [1, 0] ⟨0, rfl⟩
  rw [this]
  simp [x0]

end Verif.Props
