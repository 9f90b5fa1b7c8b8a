import Verif.Lemmas.HermTrain
import Verif.Lemmas.TrainLoop
import Verif.Lemmas.NdArr
import Mathlib.Tactic.NormNum
import Mathlib.Tactic.FinCases

/-! # Training keeps Hermitian matrices Hermitian (C114) -/

namespace Verif.Props

open Verif.Train Verif.TrainSpec Verif.HermTrain
open scoped ComplexConjugate

variable {α S K F : Type}

/-- **C114** The modules with Hermitian matrices (affine matrices, sums of expectation values, sums of transition amplitudes)
give the same outputs, for all data, for two parameter arrays with the same Hermitian parts. -/
theorem C114_modules (M M' : List Nat → ℂ) (h : SameHermitian M M') :
    (∀ (p n : Nat) (bias : Bool) (s : ℝ) (data : Tree (List (List ℂ))),
      Hermitian.affineCallable bias s (mats p n M) data = Hermitian.affineCallable bias s (mats p n M') data) ∧
    (∀ (q l n r : Nat) (nrm : Hermitian.Mat n n → ℝ) (centered : Bool) (data : Tree (List (Hermitian.Mat n r))),
      Observables.expectCallable nrm centered (families q l n M) data = Observables.expectCallable nrm centered (families q l n M') data ∧
      Observables.ampCallable nrm centered (families q l n M) data = Observables.ampCallable nrm centered (families q l n M') data) := by
  constructor
  · intro p n bias s data
    have e : (mats p n M).map Hermitian.hermPart = (mats p n M').map Hermitian.hermPart := by
      simp only [mats, List.map_map]
      refine List.map_congr_left fun k _ => ?_
      ext i j
      have := h [k] i j
      simp only [List.cons_append, List.nil_append] at this
      simp only [Function.comp_apply, Hermitian.hermPart, Matrix.of_apply, this]
    simp only [Hermitian.affineCallable, e]
  · intro q l n r nrm centered data
    have e : Observables.forceHerm (families q l n M) = Observables.forceHerm (families q l n M') := by
      funext k m
      ext i j
      have := h [k, m] i j
      simp only [List.cons_append, List.nil_append] at this
      simp only [Observables.forceHerm, families, Hermitian.hermPart, Matrix.of_apply, this]
    simp only [Observables.expectCallable, Observables.ampCallable, e, and_self]

example : SameHermitian (fun i => if i = [0, 0, 1] then 2 else 0) (fun i => if i = [0, 0, 1] ∨ i = [0, 1, 0] then 1 else 0) := by
  intro k a b
  simp only [show ([0, 0, 1] : List Nat) = [0] ++ [0, 1] from rfl, show ([0, 1, 0] : List Nat) = [0] ++ [1, 0] from rfl, index_ne]
  by_cases h1 : k = [0] ∧ a = 0 ∧ b = 1
  · obtain ⟨rfl, rfl, rfl⟩ := h1; simp; norm_num
  · by_cases h2 : k = [0] ∧ a = 1 ∧ b = 0
    · obtain ⟨rfl, rfl, rfl⟩ := h2; simp [show (conj (2 : ℂ)) = 2 from Complex.conj_ofReal 2]; norm_num
    · have h3 : ¬ (k = [0] ∧ b = 0 ∧ a = 1) := fun h => h2 ⟨h.1, h.2.2, h.2.1⟩
      have h4 : ¬ (k = [0] ∧ b = 1 ∧ a = 0) := fun h => h1 ⟨h.1, h.2.2, h.2.1⟩
      simp [h1, h2, h3, h4]

/-- **C114** Freshly compiled matrices are Hermitian whatever is drawn, and they scale with the magnitude that was asked for. -/
theorem C114_compiled (mag : ℝ) (re im : List Nat → ℂ) :
    AllHermitian (fresh mag re im) ∧ (∀ r : ℝ, fresh (r * mag) re im = fun i => r * fresh mag re im i) ∧
      (∀ i : List Nat, ‖fresh mag re im i‖ ≤
        |mag| * ((‖re i‖ + ‖im i‖ + (‖re (swapLast i)‖ + ‖im (swapLast i)‖)) / 2)) := by
  refine ⟨?_, ?_, ?_⟩
  · intro k a b
    simp only [fresh, hermPart, swapLast_append, map_div₀, map_add, map_mul, map_neg, Complex.conj_conj, Complex.conj_ofReal, Complex.conj_I]
    rw [show (conj (2 : ℂ)) = 2 from Complex.conj_ofReal 2]
    ring
  · intro r
    funext i
    simp only [fresh, hermPart, map_add, map_mul, Complex.conj_ofReal, Complex.ofReal_mul]
    ring
  · intro i
    have e : fresh mag re im i = (mag : ℂ) * ((re i + Complex.I * im i + conj (re (swapLast i) + Complex.I * im (swapLast i))) / 2) := by
      simp only [fresh, hermPart, map_add, map_mul, Complex.conj_ofReal]
      ring
    have h1 : ‖re i + Complex.I * im i‖ ≤ ‖re i‖ + ‖im i‖ := by
      refine (norm_add_le _ _).trans ?_
      simp
    have h2 : ‖conj (re (swapLast i) + Complex.I * im (swapLast i))‖ ≤ ‖re (swapLast i)‖ + ‖im (swapLast i)‖ := by
      rw [Complex.norm_conj]
      refine (norm_add_le _ _).trans ?_
      simp
    rw [e, norm_mul, Complex.norm_real, Real.norm_eq_abs]
    refine mul_le_mul_of_nonneg_left ?_ (abs_nonneg _)
    rw [norm_div, Complex.norm_ofNat]
    refine div_le_div_of_nonneg_right ?_ (by norm_num)
    exact (norm_add_le _ _).trans (add_le_add h1 h2)

example : fresh 2 (fun _ => 1) (fun i => if i = [0, 0, 1] then 1 else 0) [0, 0, 1] = 2 + Complex.I := by
  simp only [fresh, hermPart, swapLast]
  simp [show (conj (2 : ℂ)) = 2 from Complex.conj_ofReal 2]
  ring

/-- The hypotheses about a training run: the optimiser of the library; the gradient of array `j` is that of a loss that uses the
array only through the Hermitian parts of its matrices; the callback does not write the array. -/
structure TrainsHermitian (c : Cfg α PArr S K F) (j : Nat) : Prop where
  update : ∃ cplx lr b1 b2 eps clip, c.update = HermTrain.update cplx lr b1 b2 eps clip ∧ 0 ≤ clip ∧ 0 ≤ b2 ∧ b2 < 1
  loss : ∃ L : Nat → Data α → S → K → List PArr → ℝ,
    (∀ e b st k (ps : List PArr), SeesHermitian fun M => L e b st k (ps.set j (.cplx M))) ∧
    ∀ e b st k (ps : List PArr) M, ps[j]? = some (.cplx M) → (c.grad e b st k ps).1[(c.flags.take j).count true]? =
      some (.cplx (gradC (fun M => L e b st k (ps.set j (.cplx M))) M))
  callback : ∀ k e (ps : List PArr), (c.callback k e ps).2[j]? = ps[j]?

/-- **C114** A training never changes what is not Hermitian in the matrices: in the last model and in the best one, after any number
of epochs and batches, for all losses, learning rates and clipping, the difference between a matrix and its adjoint is what it was
at the beginning. The moments stay such that a continued training keeps it too. -/
theorem C114_rest_unchanged (c : Cfg α PArr S K F) (j : Nat) (hc : TrainsHermitian c j) (k : K) (adam : List (OptState PArr)) (st : S)
    (rng : K) (t : TState PArr S K F) (hl : c.flags.length = adam.length) (h : run c k adam st rng = .ok t)
    (M m v : List Nat → ℂ) (n : Nat) (ha : adam[j]? = some ⟨.cplx M, .cplx m, .cplx v, n⟩) (hm : GoodMoments m v) :
    ∀ i, i = t.inner ∨ i = t.best.inner → ∃ M' m' v' n', i.adam[j]? = some ⟨.cplx M', .cplx m', .cplx v', n'⟩ ∧
      SameRest M' M ∧ GoodMoments m' v' := by
  obtain ⟨⟨cp, lr, b1, b2, eps, clip, hu, h0, h1, h2⟩, ⟨L, hL, hg⟩, hcb⟩ := hc
  have key : Kept c j fun a => ∃ M' m' v' n', a = ⟨.cplx M', .cplx m', .cplx v', n'⟩ ∧ SameRest M' M ∧ GoodMoments m' v' := by
    refine ⟨?_, ?_, hcb⟩
    · rintro epoch b i a g ha - ⟨M', m', v', n', rfl, r1, r2⟩ hd
      have hp : (i.adam.map (·.params))[j]? = some (.cplx M') := by rw [List.getElem?_map, ha]; rfl
      rw [hg _ _ _ _ _ _ hp] at hd
      cases hd
      rw [hu]
      obtain ⟨q1, q2⟩ := hermC (lr := lr) (b1 := b1) (eps := eps) h0 h1 h2
        (gradC_hermitian (hL epoch b i.mstate (c.split i.mrng).2 (i.adam.map (·.params))) M') (s := ⟨M', m', v', n'⟩) r2
      exact ⟨_, _, _, _, rfl, fun k a b => (q1 k a b).trans (r1 k a b), q2⟩
    · rintro a n ⟨M', m', v', n', rfl, r1, r2⟩
      exact ⟨M', m', v', n, rfl, r1, r2⟩
  obtain ⟨⟨a, p1, p2⟩, ⟨b, p3, p4⟩⟩ := run_kept key hl h ⟨_, ha, M, m, v, n, rfl, fun _ _ _ => rfl, hm⟩
  rintro i (rfl | rfl)
  · obtain ⟨M', m', v', n', rfl, r⟩ := p2
    exact ⟨M', m', v', n', p1, r⟩
  · obtain ⟨M', m', v', n', rfl, r⟩ := p4
    exact ⟨M', m', v', n', p3, r⟩

/-- **C114** Matrices that are Hermitian before a training are Hermitian after it, and are taken by `set_params`: the trained model can
be saved and loaded. Moments are zero at the beginning, or what an earlier training left. -/
theorem C114_stays_hermitian (c : Cfg α PArr S K F) (j : Nat) (hc : TrainsHermitian c j) (k : K) (adam : List (OptState PArr)) (st : S)
    (rng : K) (t : TState PArr S K F) (hl : c.flags.length = adam.length) (h : run c k adam st rng = .ok t)
    (M m v : List Nat → ℂ) (n : Nat) (ha : adam[j]? = some ⟨.cplx M, .cplx m, .cplx v, n⟩) (hm : GoodMoments m v) (hM : AllHermitian M) :
    ∀ i, i = t.inner ∨ i = t.best.inner → ∃ M' m' v' n', i.adam[j]? = some ⟨.cplx M', .cplx m', .cplx v', n'⟩ ∧
      AllHermitian M' ∧ GoodMoments m' v' ∧ ∀ lead N, setParams (lead ++ [N, N]) M' = .ok M' := by
  intro i hi
  obtain ⟨M', m', v', n', r1, r2, r3⟩ := C114_rest_unchanged c j hc k adam st rng t hl h M m v n ha hm i hi
  have hH : AllHermitian M' := by
    intro l a b
    have h1 := r2 l b a
    rw [hM l a b, sub_self] at h1
    exact sub_eq_zero.1 h1
  refine ⟨M', m', v', n', r1, hH, r3, fun lead N => ?_⟩
  unfold setParams
  rw [if_pos]
  intro x hx
  have hlen : ¬ x.length < 2 := by
    have := (NArr.mem_indices.1 hx).1
    simp at this
    omega
  rcases index_cases x with hs | ⟨l, a, b, rfl⟩
  · exact absurd hs hlen
  · rw [swapLast_append, ← hH l b a]
    unfold close
    rw [sub_self, norm_zero]
    positivity

/-- The same for real arrays (both optimisers): symmetric matrices stay symmetric. -/
theorem C114_stays_symmetric (c : Cfg α PArr S K F) (j : Nat) (cplx : Bool) (lr : Nat → ℝ) (b1 b2 eps clip : ℝ)
    (hu : c.update = HermTrain.update cplx lr b1 b2 eps clip) (L : Nat → Data α → S → K → List PArr → ℝ)
    (hL : ∀ e b st k (ps : List PArr), SeesSymmetric fun M => L e b st k (ps.set j (.real M)))
    (hg : ∀ e b st k (ps : List PArr) M, ps[j]? = some (.real M) → (c.grad e b st k ps).1[(c.flags.take j).count true]? =
      some (.real (gradR (fun M => L e b st k (ps.set j (.real M))) M)))
    (hcb : ∀ k e (ps : List PArr), (c.callback k e ps).2[j]? = ps[j]?) (k : K) (adam : List (OptState PArr)) (st : S)
    (rng : K) (t : TState PArr S K F) (hl : c.flags.length = adam.length) (h : run c k adam st rng = .ok t)
    (M m v : List Nat → ℝ) (n : Nat) (ha : adam[j]? = some ⟨.real M, .real m, .real v, n⟩)
    (hm : AllSymmetric m) (hv : AllSymmetric v) (hM : AllSymmetric M) :
    ∀ i, i = t.inner ∨ i = t.best.inner → ∃ M' m' v' n', i.adam[j]? = some ⟨.real M', .real m', .real v', n'⟩ ∧
      AllSymmetric M' ∧ AllSymmetric m' ∧ AllSymmetric v' := by
  have key : Kept c j fun a => ∃ M' m' v' n', a = ⟨.real M', .real m', .real v', n'⟩ ∧ AllSymmetric M' ∧ AllSymmetric m' ∧ AllSymmetric v' := by
    refine ⟨?_, ?_, hcb⟩
    · rintro epoch b i a g ha - ⟨M', m', v', n', rfl, r1, r2, r3⟩ hd
      have hp : (i.adam.map (·.params))[j]? = some (.real M') := by rw [List.getElem?_map, ha]; rfl
      rw [hg _ _ _ _ _ _ hp] at hd
      cases hd
      rw [hu]
      obtain ⟨q1, q2, q3⟩ := symR (lr := lr) (b1 := b1) (b2 := b2) (eps := eps) (clip := clip)
        (gradR_symmetric (hL epoch b i.mstate (c.split i.mrng).2 (i.adam.map (·.params))) M') (s := ⟨M', m', v', n'⟩) r2 r3
      have q1' : AllSymmetric (Adam.update lr b1 b2 eps clip
          (gradR (fun M => L epoch b i.mstate (c.split i.mrng).2 ((i.adam.map (·.params)).set j (.real M))) M') ⟨M', m', v', n'⟩).params := by
        intro l a b
        have h1 := q1 l b a
        simp only [r1 l a b, sub_self] at h1
        exact sub_eq_zero.1 h1
      cases cplx with
      | true => exact ⟨_, _, _, _, rfl, q1', q2, q3⟩
      | false => exact ⟨_, _, _, _, rfl, q1', q2, q3⟩
    · rintro a n ⟨M', m', v', n', rfl, r⟩
      exact ⟨M', m', v', n, rfl, r⟩
  obtain ⟨⟨a, p1, p2⟩, ⟨b, p3, p4⟩⟩ := run_kept key hl h ⟨_, ha, M, m, v, n, rfl, hM, hm, hv⟩
  rintro i (rfl | rfl)
  · obtain ⟨M', m', v', n', rfl, r⟩ := p2
    exact ⟨M', m', v', n', p1, r⟩
  · obtain ⟨M', m', v', n', rfl, r⟩ := p4
    exact ⟨M', m', v', n', p3, r⟩

/-! ## A run, and matrices that are Hermitian only up to rounding -/

/-- The loss of the example: the square of the real part and the imaginary part of the Hermitian part of entry `(0, 1)` of matrix 0. -/
noncomputable def hermLoss (M : List Nat → ℂ) : ℝ := (hermPart M [0, 0, 1]).re ^ 2 + (hermPart M [0, 0, 1]).im

theorem hermLoss_sees : SeesHermitian hermLoss := by
  intro M M' h
  have e : hermPart M [0, 0, 1] = hermPart M' [0, 0, 1] := by
    have := h [0] 0 1
    simp only [List.cons_append, List.nil_append] at this
    simp only [hermPart, swapLast, this]
  simp only [hermLoss, e]

/-- A training with a complex array of matrices and a real array; the loss is that of the example plus the real array. -/
noncomputable def hermCfg : Cfg Nat PArr Unit Nat (Option Int) where
  perm k n := if k % 2 = 0 then List.range n else (List.range n).reverse
  splitN k n := (List.range n).map (· + k)
  split k := (k + 1, k + 7)
  grad _ _ s _ (ps : List PArr) := (match ps[0]? with
    | some (PArr.cplx M) => [.cplx (gradC hermLoss M), .real fun _ => 1]
    | _ => [.real fun _ => 1, .real fun _ => 1], s)
  valLoss _ _ _ _ _ := some 1
  update := HermTrain.update true (fun _ => 0.1) 0.9 0.999 1e-8 1000
  callback k _ ps := (k, ps)
  verbose := false
  interrupted _ := false
  flags := [true, true]
  train := ⟨[[1, 2, 3]], some [[10, 20, 30]], none⟩
  val := ⟨[[1, 2]], some [[10, 20]], none⟩
  batchSize := 2
  valBatchSize := 2
  epochs := 10
  target := some 0
  patience := 20
  minDelta := some 0
  lt a b := match a, b with | some a, some b => decide (a < b) | _, _ => false
  le a b := match a, b with | some a, some b => decide (a ≤ b) | _, _ => false
  sub a b := match a, b with | some a, some b => some (a - b) | _, _ => none
  add a b := match a, b with | some a, some b => some (a + b) | _, _ => none
  divNat a n := a.map (· / n)
  zero := some 0

theorem hermCfg_trains : TrainsHermitian hermCfg 0 where
  update := ⟨true, fun _ => 0.1, 0.9, 0.999, 1e-8, 1000, rfl, by norm_num, by norm_num, by norm_num⟩
  loss := by
    refine ⟨fun _ _ _ _ (ps : List PArr) => match ps[0]? with | some (PArr.cplx M) => hermLoss M | _ => 0, ?_, ?_⟩
    · intro e b st k ps M M' h
      cases ps with
      | nil => rfl
      | cons p ps => exact hermLoss_sees M M' h
    · intro e b st k ps M h
      cases ps with
      | nil => simp at h
      | cons p ps =>
        simp only [List.getElem?_cons_zero, Option.some.injEq] at h
        subst h
        rfl
  callback _ _ _ := rfl

/-- The matrices `[[0, 2i], [-2i, 0]]`, and Hermitian matrices in general, can be trained with it: there is a result, and it is Hermitian. -/
example : ∃ t M', run hermCfg 0 [⟨.cplx (fun i => if i = [0, 0, 1] then 2 * Complex.I else if i = [0, 1, 0] then -2 * Complex.I else 0),
      .cplx fun _ => 0, .cplx fun _ => 0, 0⟩, ⟨.real fun _ => 5, .real fun _ => 0, .real fun _ => 0, 0⟩] () 0 = .ok t ∧
    (t.best.inner.adam[0]?.map (·.params)) = some (.cplx M') ∧ AllHermitian M' ∧ setParams [1, 2, 2] M' = .ok M' := by
  obtain ⟨t, ht⟩ := run_total (c := hermCfg) (n := 3) (nv := 2)
    (by intro k n; simp only [hermCfg]; split; exacts [List.Perm.refl _, List.reverse_perm _])
    ⟨⟨by decide, by decide⟩, fun y hy => by cases hy; exact ⟨by decide, by decide⟩, fun u hu => by simp [hermCfg] at hu⟩
    ⟨⟨by decide, by decide⟩, fun y hy => by cases hy; exact ⟨by decide, by decide⟩, fun u hu => by simp [hermCfg] at hu⟩
    (by decide) (by decide)
    (by intro e b s k ps _; simp only [hermCfg]; split <;> simp)
    (fun _ _ _ _ => rfl) 0 [⟨.cplx (fun i => if i = [0, 0, 1] then 2 * Complex.I else if i = [0, 1, 0] then -2 * Complex.I else 0),
      .cplx fun _ => 0, .cplx fun _ => 0, 0⟩, ⟨.real fun _ => 5, .real fun _ => 0, .real fun _ => 0, 0⟩] () 0 rfl
  obtain ⟨M', m', v', n', r1, r2, -, r3⟩ := C114_stays_hermitian hermCfg 0 hermCfg_trains 0 _ () 0 t rfl ht _ _ _ _ rfl
    ⟨fun _ _ _ => by simp, fun _ _ _ => by simp, fun i => ⟨0, le_rfl, by simp⟩⟩
    (by
      intro k a b
      cases k with
      | nil => simp
      | cons x k =>
        cases k with
        | cons y k =>
          have h1 : ∀ c d : Nat, x :: y :: k ++ [c, d] ≠ [0, 0, 1] ∧ x :: y :: k ++ [c, d] ≠ [0, 1, 0] := by
            intro c d
            constructor <;> (intro h; have := congrArg List.length h; simp at this)
          simp only [(h1 _ _).1, (h1 _ _).2, if_false, map_zero]
        | nil =>
          simp only [List.cons_append, List.nil_append, List.cons.injEq, and_true]
          by_cases hx : x = 0 ∧ a = 0 ∧ b = 1
          · obtain ⟨rfl, rfl, rfl⟩ := hx; simp [show (conj (2 : ℂ)) = 2 from Complex.conj_ofReal 2]
          · by_cases hy : x = 0 ∧ a = 1 ∧ b = 0
            · obtain ⟨rfl, rfl, rfl⟩ := hy; simp [show (conj (2 : ℂ)) = 2 from Complex.conj_ofReal 2]
            · have hx' : ¬ (x = 0 ∧ b = 0 ∧ a = 1) := fun h => hy ⟨h.1, h.2.2, h.2.1⟩
              have hy' : ¬ (x = 0 ∧ b = 1 ∧ a = 0) := fun h => hx ⟨h.1, h.2.2, h.2.1⟩
              simp only [hx, hy, hx', hy', if_false, map_zero])
    t.best.inner (.inr rfl)
  exact ⟨t, M', ht, by rw [r1]; rfl, r2, r3 [1] 2⟩

/-- Matrices that are Hermitian up to a relative error of `10⁻⁶`. -/
noncomputable def nearly : List Nat → ℂ := fun i => if i = [0, 0, 1] then 1 else if i = [0, 1, 0] then ((1 + 1e-6 : ℝ) : ℂ) else 0

/-- The loss of the second example: the real part of the Hermitian part of entry `(0, 1)`, times two. -/
noncomputable def offLoss (M : List Nat → ℂ) : ℝ := (M [0, 0, 1]).re + (M [0, 1, 0]).re

/-- **C114, refuted for matrices that are Hermitian up to rounding**: `set_params` takes them, because its tolerance is relative to the
entries, but the first training step with a loss of the modules makes of them matrices that `set_params` refuses: such a trained model
can be saved but not loaded. -/
theorem C114_nearly_hermitian_refuted :
    setParams [1, 2, 2] nearly = .ok nearly ∧ SeesHermitian offLoss ∧
      setParams [1, 2, 2] (Adam.updateC (fun _ => 1 + 1e-8) 0.9 0.999 1e-8 1000 (gradC offLoss nearly) (Adam.initC nearly)).params =
        .error .valueError := by
  refine ⟨?_, ?_, ?_⟩
  · unfold setParams
    rw [if_pos]
    intro i hi
    have hi' : i ∈ [[0, 0, 0], [0, 0, 1], [0, 1, 0], [0, 1, 1]] := hi
    simp only [List.mem_cons, List.not_mem_nil, or_false] at hi'
    rcases hi' with rfl | rfl | rfl | rfl
    · simp [close, nearly, swapLast]; norm_num
    · have e : close (nearly [0, 0, 1]) (conj (nearly (swapLast [0, 0, 1]))) = close 1 ((1 + 1e-6 : ℝ) : ℂ) := by
        have e1 : nearly [0, 0, 1] = 1 := by simp [nearly]
        have e2 : nearly (swapLast [0, 0, 1]) = ((1 + 1e-6 : ℝ) : ℂ) := by simp [nearly, swapLast]
        rw [e1, e2, Complex.conj_ofReal]
      rw [e]
      unfold close
      rw [← Complex.ofReal_one, ← Complex.ofReal_sub, Complex.norm_real, Complex.norm_real, Real.norm_eq_abs, Real.norm_eq_abs,
        abs_of_nonpos (by norm_num), abs_of_pos (by norm_num)]
      norm_num
    · have e : close (nearly [0, 1, 0]) (conj (nearly (swapLast [0, 1, 0]))) = close ((1 + 1e-6 : ℝ) : ℂ) 1 := by
        simp only [nearly, swapLast]; simp
      rw [e]
      unfold close
      rw [← Complex.ofReal_one, ← Complex.ofReal_sub, Complex.norm_real, Complex.norm_real, Real.norm_eq_abs, Real.norm_eq_abs,
        abs_of_pos (by norm_num), abs_of_pos (by norm_num)]
      norm_num
    · simp [close, nearly, swapLast]; norm_num
  · intro M M' h
    have h1 := congrArg Complex.re (h [0] 0 1)
    simpa [offLoss] using h1
  · have hg : ∀ i, i = [0, 0, 1] ∨ i = [0, 1, 0] → gradC offLoss nearly i = 1 := by
      have d1 : ∀ x : ℝ, deriv (fun t : ℝ => x + t) 0 = 1 := fun x => by simp
      rintro i (rfl | rfl)
      · have e1 : (fun t : ℝ => offLoss (bump nearly [0, 0, 1] t)) = fun t : ℝ => (2 + 1e-6) + t := by
          funext t; simp [offLoss, bump, nearly]; ring
        have e2 : (fun t : ℝ => offLoss (bump nearly [0, 0, 1] (t * Complex.I))) = fun _ => 2 + 1e-6 := by
          funext t; simp [offLoss, bump, nearly]; ring
        simp only [gradC, e1, e2, d1, deriv_const]; simp
      · have e1 : (fun t : ℝ => offLoss (bump nearly [0, 1, 0] t)) = fun t : ℝ => (2 + 1e-6) + t := by
          funext t; simp [offLoss, bump, nearly]; ring
        have e2 : (fun t : ℝ => offLoss (bump nearly [0, 1, 0] (t * Complex.I))) = fun _ => 2 + 1e-6 := by
          funext t; simp [offLoss, bump, nearly]; ring
        simp only [gradC, e1, e2, d1, deriv_const]; simp
    have hc : Adam.clipC 1000 1 = 1 := by
      simp [Adam.clipC, Adam.clipR]
      norm_num
    have hp : ∀ i, i = [0, 0, 1] ∨ i = [0, 1, 0] →
        (Adam.updateC (fun _ => 1 + 1e-8) 0.9 0.999 1e-8 1000 (gradC offLoss nearly) (Adam.initC nearly)).params i = nearly i - 1 := by
      intro i hi
      simp only [Adam.updateC, Adam.initC, hg i hi, hc, mul_zero, zero_add, pow_one, mul_one, map_one]
      have a1 : (1 - ((0.9 : ℝ) : ℂ)) / (1 - ((0.9 : ℝ) : ℂ)) = 1 := by
        rw [← Complex.ofReal_one, ← Complex.ofReal_sub, ← Complex.ofReal_div]
        norm_num
      have a2 : (1 - ((0.999 : ℝ) : ℂ)) / (1 - ((0.999 : ℝ) : ℂ)) = 1 := by
        rw [← Complex.ofReal_one, ← Complex.ofReal_sub, ← Complex.ofReal_div]
        norm_num
      rw [a1, a2, Complex.one_cpow, mul_one]
      have a3 : (((1 : ℝ) + 1e-8 : ℝ) : ℂ) / (1 + ((1e-8 : ℝ) : ℂ)) = 1 := by
        rw [← Complex.ofReal_one, ← Complex.ofReal_add, ← Complex.ofReal_div]
        norm_num
      rw [a3]
    unfold setParams
    rw [if_neg]
    intro hall
    have h1 := hall [0, 0, 1] (by decide)
    rw [show swapLast [0, 0, 1] = [0, 1, 0] from rfl, hp _ (.inl rfl), hp _ (.inr rfl)] at h1
    have e1 : nearly [0, 0, 1] - 1 = ((0 : ℝ) : ℂ) := by simp [nearly]
    have e2 : conj (nearly [0, 1, 0] - 1) = ((1e-6 : ℝ) : ℂ) := by
      have : nearly [0, 1, 0] - 1 = ((1e-6 : ℝ) : ℂ) := by simp [nearly]
      rw [this, Complex.conj_ofReal]
    rw [e1, e2] at h1
    unfold close at h1
    rw [← Complex.ofReal_sub, Complex.norm_real, Complex.norm_real, Real.norm_eq_abs, Real.norm_eq_abs,
        abs_of_nonpos (by norm_num), abs_of_pos (by norm_num)] at h1
    norm_num at h1

end Verif.Props
