import Verif.Lemmas.TrainAll
import Verif.Props.Symmetry
import Verif.Props.Network
import Verif.Props.Training

/-! # C138: symmetries that concern several parameter arrays; equal hidden units stay equal -/

namespace Verif.Props
open Batch Train Adam SymmetrySpec Prebuilt NetworkSpec
open HermTrain hiding gradC gradR update
open TrainUnitsSpec (gradR gradC)

variable {ι : Type} {α S K F : Type}

/-- The changed array, for real arrays. -/
def actR (σ : Symmetry ι) (P : ι → ℝ) : ι → ℝ := fun i => σ.sign i * P (σ.perm i)

theorem set_fixed {A : Type} (act : Nat → A → A) (ps : List A) (h : ∀ (j : Nat) P, ps[j]? = some P → act j P = P) (j : Nat) (Q : A) :
    (ps.set j Q).mapIdx act = ps.set j (act j Q) := by
  apply List.ext_getElem?
  intro i
  rw [List.getElem?_mapIdx, List.getElem?_set, List.getElem?_set]
  split
  · rename_i hi
    subst hi
    split <;> rfl
  · cases hp : ps[i]? with
    | none => rfl
    | some P => rw [Option.map_some, h i P hp]

theorem gradR_act [DecidableEq ι] (σ : Symmetry ι) (L : (ι → ℝ) → ℝ) (hL : ∀ Q, L (actR σ Q) = L Q) (P : ι → ℝ) (hP : actR σ P = P) :
    actR σ (gradR L P) = gradR L P := by
  have hb : ∀ (i : ι) (z : ℝ), L (Function.update P (σ.perm i) (P (σ.perm i) + z)) = L (Function.update P i (P i + σ.sign i * z)) := fun i z => by
    rw [← hL (Function.update P (σ.perm i) (P (σ.perm i) + z))]
    congr 1
    funext k
    by_cases hk : k = i
    · subst hk
      have := congrFun hP k
      simp only [actR] at this ⊢
      rw [Function.update_self, Function.update_self, mul_add, this]
    · have hk' : σ.perm k ≠ σ.perm i := fun h => hk (σ.perm.injective h)
      rw [Function.update_of_ne hk]
      simp only [actR]
      rw [Function.update_of_ne hk']
      exact congrFun hP k
  funext i
  simp only [actR, gradR, hb]
  rw [deriv_comp_mul_left (σ.sign i) (fun t => L (Function.update P i (P i + t))) 0, mul_zero, smul_eq_mul, ← mul_assoc, σ.unit, one_mul]

/-- Array and averages of an optimiser state of a real array have the symmetry. -/
structure HasSymmetryR (σ : Symmetry ι) (a : OptState (ι → ℝ)) : Prop where
  params : actR σ a.params = a.params
  m : actR σ a.m = a.m
  v : ∀ i, a.v (σ.perm i) = a.v i

theorem stepR (lr : Nat → ℝ) (b1 b2 eps clip : ℝ) (hc : 0 ≤ clip) (σ : Symmetry ι) (g : ι → ℝ) (hg : actR σ g = g)
    (a : OptState (ι → ℝ)) (ha : HasSymmetryR σ a) : HasSymmetryR σ (update lr b1 b2 eps clip g a) := by
  have hclip : ∀ i, σ.sign i * clipR clip (g (σ.perm i)) = clipR clip (g i) := fun i => by
    have h := congrFun hg i
    simp only [actR] at h
    rcases mul_self_eq_one_iff.1 (σ.unit i) with hs | hs <;> rw [hs] at h ⊢ <;> rw [← h]
    · simp
    · rw [neg_one_mul, neg_one_mul, HermTrain.clipR_neg hc]
  have hm : ∀ i, σ.sign i * (update lr b1 b2 eps clip g a).m (σ.perm i) = (update lr b1 b2 eps clip g a).m i := fun i => by
    have h := congrFun ha.m i
    simp only [actR, update] at h ⊢
    rw [← h, ← hclip i]
    ring
  have hv : ∀ i, (update lr b1 b2 eps clip g a).v (σ.perm i) = (update lr b1 b2 eps clip g a).v i := fun i => by
    simp only [update]
    rw [ha.v i, ← hclip i, mul_pow, pow_two (σ.sign i), σ.unit, one_mul]
  refine ⟨?_, funext hm, hv⟩
  have e1 : ∀ j, (update lr b1 b2 eps clip g a).params j = a.params j - lr a.epoch * ((update lr b1 b2 eps clip g a).m j / (1 - b1 ^ (a.epoch + 1))) /
      (Real.sqrt ((update lr b1 b2 eps clip g a).v j / (1 - b2 ^ (a.epoch + 1))) + eps) := fun _ => rfl
  funext i
  have hp := congrFun ha.params i
  simp only [actR] at hp ⊢
  rw [e1, e1, hv i, ← hm i, ← hp]
  ring

/-- **C138 (real arrays).** If the loss does not change when entries of several parameter arrays are exchanged or change their sign at the same time, then parameters that have this symmetry before a training have it in the last
model and in the best one. The arrays may be changed in different ways, one or the other not at all; arrays that are not trained stay as they are. -/
theorem C138_real [DecidableEq ι] (c : Cfg α (ι → ℝ) S K F) (lr : Nat → ℝ) (b1 b2 eps clip : ℝ) (hc : 0 ≤ clip)
    (hu : c.update = update lr b1 b2 eps clip ∨ c.update = updateRinC lr b1 b2 eps clip) (σ : Nat → Symmetry ι) (L : Nat → Data α → S → K → List (ι → ℝ) → ℝ)
    (hL : ∀ e b st k (ps : List (ι → ℝ)), L e b st k (ps.mapIdx fun j => actR (σ j)) = L e b st k ps)
    (hg : ∀ e b st k (ps : List (ι → ℝ)) j M, ps[j]? = some M → c.flags[j]? = some true → ∀ g, (c.grad e b st k ps).1[(c.flags.take j).count true]? = some g →
      g = gradR (fun Q => L e b st k (ps.set j Q)) M)
    (hcb : ∀ k e (ps : List (ι → ℝ)), (c.callback k e ps).2 = ps) (k : K) (x0 : List (ι → ℝ)) (st : S) (rng : K)
    (t : TState (ι → ℝ) S K F) (hl : c.flags.length = x0.length) (h : run c k (x0.map Adam.init) st rng = .ok t)
    (hs : ∀ (j : Nat) P, x0[j]? = some P → actR (σ j) P = P) (i : Inner (ι → ℝ) S K) (hi : i = t.inner ∨ i = t.best.inner) (j : Nat) (a : OptState (ι → ℝ)) (ha : i.adam[j]? = some a) :
    actR (σ j) a.params = a.params := by
  have hk : KeptAll c fun j a => HasSymmetryR (σ j) a := by
    refine ⟨?_, fun j a n h => ⟨h.params, h.m, h.v⟩, hcb⟩
    intro epoch b i hI j a g ha hf hd
    have hps : ∀ (j : Nat) P, (i.adam.map (·.params))[j]? = some P → actR (σ j) P = P := by
      intro j P hP
      rw [List.getElem?_map, Option.map_eq_some_iff] at hP
      obtain ⟨a, ha, rfl⟩ := hP
      exact (hI j a ha).params
    have hp : (i.adam.map (·.params))[j]? = some a.params := by rw [List.getElem?_map, ha]; rfl
    have hgr : actR (σ j) g = g := by
      rw [hg _ _ _ _ _ j _ hp hf g hd]
      refine gradR_act (σ j) _ (fun Q => ?_) _ (hI j a ha).params
      rw [← set_fixed (fun j => actR (σ j)) _ hps, hL]
    have := stepR lr b1 b2 eps clip hc (σ j) g hgr a (hI j a ha)
    rcases hu with hu | hu <;> rw [hu]
    · exact this
    · exact ⟨this.params, this.m, this.v⟩
  have h0 : AllHave (fun j a => HasSymmetryR (σ j) a) (x0.map Adam.init) := by
    intro j a ha
    rw [List.getElem?_map, Option.map_eq_some_iff] at ha
    obtain ⟨P, hP, rfl⟩ := ha
    exact ⟨hs j P hP, by funext i; simp [actR, Adam.init], fun i => rfl⟩
  obtain ⟨r1, r2⟩ := run_all hk (by simp [hl]) h h0
  rcases hi with rfl | rfl
  · exact (r1 j a ha).params
  · exact (r2 j a ha).params

/-- **C138 (complex arrays).** The same for complex arrays, where entries may also be conjugated. -/
theorem C138_complex [DecidableEq ι] (c : Cfg α (ι → ℂ) S K F) (lr : Nat → ℝ) (b1 b2 eps clip : ℝ) (hc : 0 ≤ clip) (h0 : 0 ≤ b2) (h1 : b2 < 1)
    (hu : c.update = updateC lr b1 b2 eps clip) (σ : Nat → Symmetry ι) (L : Nat → Data α → S → K → List (ι → ℂ) → ℝ)
    (hL : ∀ e b st k (ps : List (ι → ℂ)), L e b st k (ps.mapIdx fun j => act (σ j)) = L e b st k ps)
    (hg : ∀ e b st k (ps : List (ι → ℂ)) j M, ps[j]? = some M → c.flags[j]? = some true → ∀ g, (c.grad e b st k ps).1[(c.flags.take j).count true]? = some g →
      g = gradC (fun Q => L e b st k (ps.set j Q)) M)
    (hcb : ∀ k e (ps : List (ι → ℂ)), (c.callback k e ps).2 = ps) (k : K) (x0 : List (ι → ℂ)) (st : S) (rng : K)
    (t : TState (ι → ℂ) S K F) (hl : c.flags.length = x0.length) (h : run c k (x0.map initC) st rng = .ok t)
    (hs : ∀ (j : Nat) P, x0[j]? = some P → act (σ j) P = P) (i : Inner (ι → ℂ) S K) (hi : i = t.inner ∨ i = t.best.inner) (j : Nat) (a : OptState (ι → ℂ)) (ha : i.adam[j]? = some a) :
    act (σ j) a.params = a.params := by
  have hk : KeptAll c fun j a => HasSymmetry (σ j) a := by
    refine ⟨?_, fun j a n h => ⟨h.params, h.m, h.v, h.real⟩, hcb⟩
    intro epoch b i hI j a g ha hf hd
    have hps : ∀ (j : Nat) P, (i.adam.map (·.params))[j]? = some P → act (σ j) P = P := by
      intro j P hP
      rw [List.getElem?_map, Option.map_eq_some_iff] at hP
      obtain ⟨a, ha, rfl⟩ := hP
      exact (hI j a ha).params
    have hp : (i.adam.map (·.params))[j]? = some a.params := by rw [List.getElem?_map, ha]; rfl
    rw [hg _ _ _ _ _ j _ hp hf g hd, hu]
    refine C127_step lr b1 b2 eps clip hc h0 h1 (σ j) _ (C127_gradient (σ j) _ (fun Q => ?_) _ (hI j a ha).params) a (hI j a ha)
    rw [← set_fixed (fun j => act (σ j)) _ hps, hL]
  have h0 : AllHave (fun j a => HasSymmetry (σ j) a) (x0.map initC) := by
    intro j a ha
    rw [List.getElem?_map, Option.map_eq_some_iff] at ha
    obtain ⟨P, hP, rfl⟩ := ha
    exact C127_fresh _ _ (hs j P hP)
  obtain ⟨r1, r2⟩ := run_all hk (by simp [hl]) h h0
  rcases hi with rfl | rfl
  · exact (r1 j a ha).params
  · exact (r2 j a ha).params

/-- A loss of two complex arrays that does not change when the first two entries of both are exchanged and everything is conjugated, and arrays with this symmetry. -/
example : let σ : Nat → Symmetry Nat := fun _ => ⟨Equiv.swap 0 1, fun _ => 1, fun _ => one_mul 1, true⟩
    let L : List (Nat → ℂ) → ℝ := fun ps => Complex.normSq (ps.getD 0 0 0 + ps.getD 1 0 0) + Complex.normSq (ps.getD 0 0 1 + ps.getD 1 0 1)
    let x0 : List (Nat → ℂ) := [fun i => if i = 0 then 1 + Complex.I else if i = 1 then 1 - Complex.I else 0, fun _ => 1]
    (∀ P Q : Nat → ℂ, L ([P, Q].mapIdx fun j => act (σ j)) = L [P, Q]) ∧ ∀ (j : Nat) P, x0[j]? = some P → act (σ j) P = P := by
  refine ⟨fun P Q => ?_, fun j P hP => ?_⟩
  · simp [act, twist, ← map_add, Complex.normSq_conj, add_comm]
  · match j with
    | 0 =>
      cases hP
      funext i
      match i with
      | 0 => simp [act, twist, sub_eq_add_neg]
      | 1 => simp [act, twist, sub_eq_add_neg]
      | i + 2 => simp [act, twist, Equiv.swap_apply_of_ne_of_ne]
    | 1 =>
      cases hP
      funext i
      simp [act, twist]
    | j + 2 => simp at hP

/-! ## hidden units -/

/-- Layer `k` of such a network. -/
def layerAt (ps : List (List Nat → ℝ)) (k : Nat) (h : Nat × Option (ℝ → ℝ)) : Layer :=
  ⟨h.1, fun r j => ps.getD (2 * k) 0 [r, j], some fun r => ps.getD (2 * k + 1) 0 [r], h.2⟩

/-- The layers of a network of `LinearNN`s with biases, of the given widths and activations, whose parameter arrays are in the list, weights and bias of each layer in turn. -/
def layersOf (hs : List (Nat × Option (ℝ → ℝ))) (ps : List (List Nat → ℝ)) : List Layer :=
  hs.mapIdx (layerAt ps)

/-- The prediction of the network for a sample. -/
noncomputable def netOut (draw : Nat → List Nat → ℝ) (drawB : List Nat → List Nat → ℝ) (f : Nat) (hs : List (Nat × Option (ℝ → ℝ))) (ps : List (List Nat → ℝ)) (x : Nat → ℝ) : Option (List ℝ) :=
  (predictNet draw drawB f (layersOf hs ps) x).map fun y => (List.range (width f (layersOf hs ps))).map y

/-- Units `r` and `r'` of layer `l` have the same weights, the same bias, and the next layer has the same weights for them. -/
def SameUnits (l r r' : Nat) (ps : List (List Nat → ℝ)) : Prop :=
  (∀ q, ps.getD (2 * l) 0 [r, q] = ps.getD (2 * l) 0 [r', q]) ∧ ps.getD (2 * l + 1) 0 [r] = ps.getD (2 * l + 1) 0 [r'] ∧ ∀ q, ps.getD (2 * l + 2) 0 [q, r] = ps.getD (2 * l + 2) 0 [q, r']

/-- Permuting the entries of an array with `len` axes along axis `k`. -/
def onAxis (len k : Nat) (σ : Equiv.Perm Nat) : Equiv.Perm (List Nat) where
  toFun i := if i.length = len then i.modify k σ else i
  invFun i := if i.length = len then i.modify k σ.symm else i
  left_inv i := by
    by_cases h : i.length = len
    · have e : ((σ.symm : Nat → Nat) ∘ σ) = id := by funext x; simp
      simp [h, List.modify_modify_eq, e]
    · simp [h]
  right_inv i := by
    by_cases h : i.length = len
    · have e : ((σ : Nat → Nat) ∘ σ.symm) = id := by funext x; simp
      simp [h, List.modify_modify_eq, e]
    · simp [h]

/-- The symmetry that puts the units of layer `l` in another order. -/
def unitsSym (l : Nat) (σ : Equiv.Perm Nat) (j : Nat) : Symmetry (List Nat) :=
  ⟨if j = 2 * l then onAxis 2 0 σ else if j = 2 * l + 1 then onAxis 1 0 σ else if j = 2 * l + 2 then onAxis 2 1 σ else Equiv.refl _, fun _ => 1, fun _ => one_mul 1, false⟩

theorem getD_act (σ : Nat → Symmetry ι) (ps : List (ι → ℝ)) (j : Nat) (i : ι) : (ps.mapIdx fun j => actR (σ j)).getD j 0 i = (σ j).sign i * ps.getD j 0 ((σ j).perm i) := by
  rw [List.getD_eq_getElem?_getD, List.getElem?_mapIdx, List.getD_eq_getElem?_getD]
  cases ps[j]? <;> simp [actR]

theorem width_layers (hs : List (Nat × Option (ℝ → ℝ))) (ps ps' : List (List Nat → ℝ)) (f : Nat) : width f (layersOf hs ps) = width f (layersOf hs ps') := by
  have key : ∀ (Ls Ls' : List Layer) (f : Nat), Ls.map (·.out) = Ls'.map (·.out) → width f Ls = width f Ls' := by
    intro Ls
    induction Ls with
    | nil => intro Ls' f h; cases Ls' with
      | nil => rfl
      | cons _ _ => simp at h
    | cons L Ls ih => intro Ls' f h; cases Ls' with
      | nil => simp at h
      | cons L' Ls' =>
        simp only [List.map_cons, List.cons.injEq] at h
        simp only [width, h.1]
        exact ih _ _ h.2
  refine key _ _ f ?_
  apply List.ext_getElem?
  intro i
  simp only [layersOf, List.getElem?_map, List.getElem?_mapIdx]
  cases hs[i]? <;> rfl

theorem layers_perm (pre post : List (Nat × Option (ℝ → ℝ))) (A B : Nat × Option (ℝ → ℝ)) (σ : Equiv.Perm Nat) (ps : List (List Nat → ℝ)) :
    ∃ pre' L M post', L.out = A.1 ∧ layersOf (pre ++ A :: B :: post) ps = pre' ++ L :: M :: post' ∧
      layersOf (pre ++ A :: B :: post) (ps.mapIdx fun j => actR (unitsSym pre.length σ j)) = pre' ++ permOut σ L :: permIn σ M :: post' := by
  have hne : ∀ k h, k ≠ pre.length → k ≠ pre.length + 1 → layerAt (ps.mapIdx fun j => actR (unitsSym pre.length σ j)) k h = layerAt ps k h := by
    intro k h g1 g2
    have h1 : 2 * k ≠ 2 * pre.length := by omega
    have h2 : 2 * k ≠ 2 * pre.length + 1 := by omega
    have h3 : 2 * k ≠ 2 * pre.length + 2 := by omega
    have h4 : 2 * k + 1 ≠ 2 * pre.length := by omega
    have h5 : 2 * k + 1 ≠ 2 * pre.length + 1 := by omega
    have h6 : 2 * k + 1 ≠ 2 * pre.length + 2 := by omega
    simp only [layerAt, getD_act]
    simp only [unitsSym, if_neg h1, if_neg h2, if_neg h3, if_neg h4, if_neg h5, if_neg h6, Equiv.refl_apply, one_mul]
  refine ⟨pre.mapIdx (layerAt ps), layerAt ps pre.length A, layerAt ps (pre.length + 1) B, post.mapIdx fun i => layerAt ps (i + 1 + 1 + pre.length), rfl, ?_, ?_⟩
  · simp only [layersOf, List.mapIdx_append, List.mapIdx_cons, zero_add, Nat.add_comm 1]
  · simp only [layersOf, List.mapIdx_append, List.mapIdx_cons, zero_add, Nat.add_comm 1]
    congr 1
    · apply List.ext_getElem?
      intro i
      rw [List.getElem?_mapIdx, List.getElem?_mapIdx]
      by_cases hi : i < pre.length
      · rw [show layerAt (ps.mapIdx fun j => actR (unitsSym pre.length σ j)) i = layerAt ps i from funext fun h => hne i h (by omega) (by omega)]
      · rw [List.getElem?_eq_none (by omega)]; rfl
    · congr 1
      · simp only [layerAt, getD_act]
        simp [unitsSym, permOut, onAxis]
      · congr 1
        · have h3 : 2 * (pre.length + 1) = 2 * pre.length + 2 := by omega
          have h4 : 2 * pre.length + 2 + 1 ≠ 2 * pre.length := by omega
          have h5 : 2 * pre.length + 2 + 1 ≠ 2 * pre.length + 1 := by omega
          have h6 : 2 * pre.length + 2 + 1 ≠ 2 * pre.length + 2 := by omega
          simp only [layerAt, getD_act, h3]
          simp only [unitsSym, if_neg h4, if_neg h5, if_neg h6]
          simp [permIn, onAxis]
        · congr 1
          funext i h
          exact hne _ h (by omega) (by omega)

theorem netOut_perm (draw : Nat → List Nat → ℝ) (drawB : List Nat → List Nat → ℝ) (f : Nat) (hs : List (Nat × Option (ℝ → ℝ))) (l : Nat) (n : Nat) (φ : Option (ℝ → ℝ)) (hl : hs[l]? = some (n, φ))
    (hlast : l + 1 < hs.length) (σ : Equiv.Perm Nat) (hσ : ∀ r, σ r < n ↔ r < n) (ps : List (List Nat → ℝ)) (x : Nat → ℝ) :
    netOut draw drawB f hs (ps.mapIdx fun j => actR (unitsSym l σ j)) x = netOut draw drawB f hs ps x := by
  have hh : hs = hs.take l ++ (n, φ) :: hs[l + 1] :: hs.drop (l + 2) := by
    have h1 : hs[l]'(by omega) = (n, φ) := by rw [List.getElem?_eq_getElem (by omega)] at hl; exact Option.some.inj hl
    rw [← h1, ← List.drop_eq_getElem_cons hlast, ← List.drop_eq_getElem_cons, List.take_append_drop]
  have hlen : (hs.take l).length = l := by rw [List.length_take]; omega
  obtain ⟨pre', L, M, post', e1, e2, e3⟩ := layers_perm (hs.take l) (hs.drop (l + 2)) (n, φ) hs[l + 1] σ ps
  rw [← hh] at e2 e3
  rw [hlen] at e3
  obtain ⟨y, y', h1, h2, h3⟩ := (C135_hidden draw drawB f pre' post' L M x).2 σ (by rw [e1]; exact hσ)
  rw [← e2] at h1 h3
  rw [← e3] at h2
  simp only [netOut, h1, h2, Option.map_some]
  rw [width_layers hs _ ps]
  congr 1
  refine List.map_congr_left fun r hr => ?_
  exact (h3 r (List.mem_range.1 hr)).symm

/-- **C138 (hidden units).** Two units of a hidden layer that start with equal weights, an equal bias and equal weights in the next layer stay equal, whatever data and loss a network is trained with: in the last model and in the
best one they compute the same, and the network can do no more than one with a unit less. (`xs` are the features in a batch.) -/
theorem C138_units (c : Cfg α (List Nat → ℝ) S K F) (lr : Nat → ℝ) (b1 b2 eps clip : ℝ) (hc : 0 ≤ clip)
    (hu : c.update = update lr b1 b2 eps clip ∨ c.update = updateRinC lr b1 b2 eps clip) (draw : Nat → List Nat → ℝ) (drawB : List Nat → List Nat → ℝ) (f : Nat)
    (hs : List (Nat × Option (ℝ → ℝ))) (xs : Data α → List (Nat → ℝ)) (loss : Nat → Data α → S → K → List (Option (List ℝ)) → ℝ)
    (hg : ∀ e b st k (ps : List (List Nat → ℝ)) j M, ps[j]? = some M → c.flags[j]? = some true → ∀ g, (c.grad e b st k ps).1[(c.flags.take j).count true]? = some g →
      g = gradR (fun Q => loss e b st k ((xs b).map (netOut draw drawB f hs (ps.set j Q)))) M)
    (hcb : ∀ k e (ps : List (List Nat → ℝ)), (c.callback k e ps).2 = ps) (l n : Nat) (φ : Option (ℝ → ℝ)) (hn : hs[l]? = some (n, φ)) (hlast : l + 1 < hs.length)
    (r r' : Nat) (hr : r < n) (hr' : r' < n) (k : K) (x0 : List (List Nat → ℝ)) (st : S) (rng : K)
    (t : TState (List Nat → ℝ) S K F) (hl : c.flags.length = x0.length) (h : run c k (x0.map Adam.init) st rng = .ok t) (h0 : SameUnits l r r' x0)
    (i : Inner (List Nat → ℝ) S K) (hi : i = t.inner ∨ i = t.best.inner) : SameUnits l r r' (i.adam.map (·.params)) := by
  have hswap : ∀ q, Equiv.swap r r' q < n ↔ q < n := by
    intro q
    rw [Equiv.swap_apply_def]
    split
    · subst_vars; simp [hr, hr']
    · split
      · subst_vars; simp [hr, hr']
      · rfl
  have hfix : ∀ (j : Nat) P, x0[j]? = some P → actR (unitsSym l (Equiv.swap r r') j) P = P := by
    intro j P hP
    have hd : x0.getD j 0 = P := by rw [List.getD_eq_getElem?_getD, hP]; rfl
    obtain ⟨g1, g2, g3⟩ := h0
    funext q
    simp only [actR, unitsSym, one_mul]
    split
    · rename_i hj
      subst hj
      rw [hd] at g1
      match q with
      | [a, b] =>
        simp only [onAxis, Equiv.coe_fn_mk, List.length_cons, List.length_nil, if_true, List.modify_zero_cons, Equiv.swap_apply_def]
        split
        · subst_vars; exact (g1 b).symm
        · split
          · subst_vars; exact g1 b
          · rfl
      | [] => rfl
      | [_] => rfl
      | _ :: _ :: _ :: _ => simp [onAxis]
    · split
      · rename_i hj
        subst hj
        rw [hd] at g2
        match q with
        | [a] =>
          simp only [onAxis, Equiv.coe_fn_mk, List.length_cons, List.length_nil, if_true, List.modify_zero_cons, Equiv.swap_apply_def]
          split
          · subst_vars; exact g2.symm
          · split
            · subst_vars; exact g2
            · rfl
        | [] => rfl
        | _ :: _ :: _ => simp [onAxis]
      · split
        · rename_i hj
          subst hj
          rw [hd] at g3
          match q with
          | [b, a] =>
            simp only [onAxis, Equiv.coe_fn_mk, List.length_cons, List.length_nil, if_true, List.modify_succ_cons, List.modify_zero_cons, Equiv.swap_apply_def]
            split
            · subst_vars; exact (g3 b).symm
            · split
              · subst_vars; exact g3 b
              · rfl
          | [] => rfl
          | [_] => rfl
          | _ :: _ :: _ :: _ => simp [onAxis]
        · rfl
  have key := C138_real c lr b1 b2 eps clip hc hu (unitsSym l (Equiv.swap r r')) (fun e b st k ps => loss e b st k ((xs b).map (netOut draw drawB f hs ps)))
    (fun e b st k ps => by
      congr 2
      funext x
      exact netOut_perm draw drawB f hs l n φ hn hlast _ hswap ps x) hg hcb k x0 st rng t hl h hfix i hi
  have key' : ∀ j q, (i.adam.map (·.params)).getD j 0 ((unitsSym l (Equiv.swap r r') j).perm q) = (i.adam.map (·.params)).getD j 0 q := by
    intro j q
    rw [List.getD_eq_getElem?_getD, List.getElem?_map]
    cases ha : i.adam[j]? with
    | none => rfl
    | some a =>
      have := congrFun (key j a ha) q
      simpa [actR, unitsSym] using this
  refine ⟨fun q => ?_, ?_, fun q => ?_⟩
  · have := key' (2 * l) [r', q]
    simpa [unitsSym, onAxis] using this
  · have := key' (2 * l + 1) [r']
    simpa [unitsSym, onAxis] using this
  · have := key' (2 * l + 2) [q, r']
    simpa [unitsSym, onAxis] using this

/-! ## A training to which this applies -/

/-- The loss of the example: the sum of the squared predictions for the samples. -/
noncomputable def hiddenLoss (rs : List (Option (List ℝ))) : ℝ := (rs.map fun r => ((r.getD []).headD 0 - 1) ^ 2).sum

/-- The features of the samples of a batch. -/
def featuresOf (b : Data (List ℝ)) : List (Nat → ℝ) := (b.1.headD []).map fun x i => x.getD i 0

/-- A training of a network with one feature, a hidden layer of three units with ReLU, and one output, on two samples. -/
noncomputable def hiddenCfg : Train.Cfg (List ℝ) (List Nat → ℝ) Unit Nat (Option ℝ) where
  perm _ n := List.range n
  splitN _ n := List.range n
  split k := (k + 1, k + 7)
  grad _ b s _ ps := (ps.mapIdx fun j M => gradR (fun Q => hiddenLoss ((featuresOf b).map (netOut (fun _ _ => 0) (fun _ _ => 0) 1 [(3, some fun x => max x 0), (1, Option.none)] (ps.set j Q)))) M, s)
  valLoss _ b _ _ ps := some (hiddenLoss ((featuresOf b).map (netOut (fun _ _ => 0) (fun _ _ => 0) 1 [(3, some fun x => max x 0), (1, Option.none)] ps)))
  update := update (fun _ => 1 / 100) 0.9 0.999 1e-8 1e3
  callback k _ ps := (k, ps)
  verbose := false
  interrupted _ := false
  flags := [true, true, true, true]
  train := ⟨[[[1], [2]]], some [[[3], [4]]], Option.none⟩
  val := ⟨[[[1], [2]]], some [[[3], [4]]], Option.none⟩
  batchSize := 1
  valBatchSize := 2
  epochs := 10
  target := some 0
  patience := 5
  minDelta := some 0
  lt a b := match a, b with
    | some r, some q => decide (r < q)
    | _, _ => false
  le a b := match a, b with
    | some r, some q => decide (r ≤ q)
    | _, _ => false
  sub a b := match a, b with
    | some r, some q => some (r - q)
    | _, _ => Option.none
  add a b := match a, b with
    | some r, some q => some (r + q)
    | _, _ => Option.none
  divNat a n := a.map (· / n)
  zero := some 0

/-- It runs, and if all weights are equal at first the hidden units stay equal. -/
example (w : ℝ) : ∃ t, run hiddenCfg 0 ([fun _ => w, fun _ => w, fun _ => w, fun _ => w].map Adam.init) () 0 = .ok t ∧
    SameUnits 0 0 2 (t.inner.adam.map (·.params)) ∧ SameUnits 0 0 1 (t.best.inner.adam.map (·.params)) := by
  obtain ⟨t, ht⟩ : ∃ t, run hiddenCfg 0 ([fun _ => w, fun _ => w, fun _ => w, fun _ => w].map Adam.init) () 0 = .ok t := by
    refine C31_total hiddenCfg 2 2 (fun _ _ => List.Perm.refl _)
      ⟨⟨by simp [hiddenCfg], by simp [hiddenCfg]⟩, fun y hy => by cases hy; exact ⟨by simp, by simp⟩, fun u hu => by simp [hiddenCfg] at hu⟩
      ⟨⟨by simp [hiddenCfg], by simp [hiddenCfg]⟩, fun y hy => by cases hy; exact ⟨by simp, by simp⟩, fun u hu => by simp [hiddenCfg] at hu⟩
      Nat.one_pos Nat.two_pos (fun e b s k ps hps => ?_) (fun _ _ _ _ => rfl) 0 _ () 0 rfl
    simp [hiddenCfg] at hps ⊢
    omega
  have hflag : ∀ j, hiddenCfg.flags[j]? = some true → (hiddenCfg.flags.take j).count true = j := by
    intro j hj
    match j with
    | 0 | 1 | 2 | 3 => rfl
    | j + 4 => simp [hiddenCfg] at hj
  have key := fun r r' (hr : r < 3) (hr' : r' < 3) => C138_units hiddenCfg (fun _ => 1 / 100) 0.9 0.999 1e-8 1e3 (by norm_num) (.inl rfl) (fun _ _ => 0) (fun _ _ => 0) 1
    [(3, some fun x => max x 0), (1, Option.none)] featuresOf (fun _ _ _ _ rs => hiddenLoss rs) (fun e b st k ps j M hM hf g hgr => by
      rw [hflag j hf] at hgr
      simp only [hiddenCfg, List.getElem?_mapIdx, hM, Option.map_some, Option.some.injEq] at hgr
      exact hgr.symm) (fun _ _ _ => rfl) 0 3 _ rfl (by simp) r r' hr hr' 0 [fun _ => w, fun _ => w, fun _ => w, fun _ => w] () 0 t rfl ht ⟨fun _ => rfl, rfl, fun _ => rfl⟩
  exact ⟨t, ht, key 0 2 (by norm_num) (by norm_num) _ (.inl rfl), key 0 1 (by norm_num) (by norm_num) _ (.inr rfl)⟩

end Verif.Props
