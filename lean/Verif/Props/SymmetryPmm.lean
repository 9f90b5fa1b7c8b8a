import Verif.Props.Symmetry
import Mathlib.LinearAlgebra.Matrix.Charpoly.Basic

/-! # C127: symmetries of matrix models -/

namespace Verif.Props

open Verif.Batch Verif.Train Verif.Adam Verif.SymmetrySpec Verif.Loss Hermitian Eigen Pmm PmmSpec Matrix
open Verif.TrainUnitsSpec (gradC)

variable {n p : Nat} {S K F : Type}

/-- The matrix that exchanges basis states and changes their signs. -/
noncomputable def signedPerm (π : Equiv.Perm (Fin n)) (ε : Fin n → ℝ) : Mat n n := .of fun i k => if k = π i then (ε i : ℂ) else 0

theorem rotate_signedPerm (π : Equiv.Perm (Fin n)) (ε : Fin n → ℝ) (A : Mat n n) (i j : Fin n) :
    rotate (signedPerm π ε) A i j = ε i * ε j * A (π i) (π j) := by
  unfold rotate signedPerm
  simp only [Matrix.mul_apply, Matrix.conjTranspose_apply, Matrix.of_apply, ite_mul, zero_mul, Finset.sum_ite_eq', Finset.sum_ite_eq, Finset.mem_univ, if_true, apply_ite star, star_zero,
    mul_ite, mul_zero, Complex.star_def, Complex.conj_ofReal]
  ring

theorem signedPerm_unitary (π : Equiv.Perm (Fin n)) (ε : Fin n → ℝ) (h : ∀ i, ε i * ε i = 1) : (signedPerm π ε)ᴴ * signedPerm π ε = 1 := by
  rw [mul_eq_one_comm]
  ext i j
  have := rotate_signedPerm π ε 1 i j
  rw [rotate, Matrix.mul_one] at this
  rw [this]
  by_cases hij : i = j
  · subst hij
    rw [Matrix.one_apply_eq, Matrix.one_apply_eq, mul_one, ← Complex.ofReal_mul, h, Complex.ofReal_one]
  · rw [Matrix.one_apply_ne hij, Matrix.one_apply_ne fun h => hij (π.injective h), mul_zero]

theorem herm_conj (A : Mat n n) : herm (A.map (starRingEnd ℂ)) = (herm A)ᵀ := by
  ext i j
  simp [herm, add_comm]
  ring

/-- **C127** Exchanging basis states and changing their signs, in all matrices of a model at once, changes no prediction; without smoothing, conjugating
all matrices does not either. -/
theorem C127_predictions (ev : Mat n n → List ℝ) (hev : IsEigvalsh ev) (c : Eigen.Cfg) (s : ℝ) (π : Equiv.Perm (Fin n)) (ε : Fin n → ℝ) (h : ∀ i, ε i * ε i = 1)
    (b : Bool) (hb : b = true → s = 0) (P : Fin (p + 1) × Fin n × Fin n → ℂ) (d : Tree (List (Fin p → ℝ))) :
    eigenvalueCall ev c true s (stored (act (basis π ε h b) P)) (Tree.map (fun xs => xs.map sample) d) =
      eigenvalueCall ev c true s (stored P) (Tree.map (fun xs => xs.map sample) d) := by
  let N : Fin (p + 1) → Mat n n := fun q => .of fun i j => P (q, i, j)
  let N' : Fin (p + 1) → Mat n n := fun q => .of fun i j => twist b (P (q, i, j))
  have hst : stored P = (some (N 0)).toList ++ List.ofFn fun q : Fin p => N q.succ := stored_cons P
  have hr : ∀ q, (.of fun i j => act (basis π ε h b) P (q, i, j) : Mat n n) = rotate (signedPerm π ε) (N' q) := fun q => by
    ext i j
    rw [rotate_signedPerm]
    simp [act, basis, N']
  have hst' : stored (act (basis π ε h b) P) = ((some (N' 0)).map (rotate (signedPerm π ε))).toList ++ List.ofFn fun q : Fin p => rotate (signedPerm π ε) (N' q.succ) := by
    rw [stored_cons, hr]
    simp only [hr]
    rfl
  have h1 := call_model ev c s (some (N 0)) (fun q : Fin p => N q.succ) d
  have h2 := call_model ev c s ((some (N' 0)).map (rotate (signedPerm π ε))) (fun q : Fin p => rotate (signedPerm π ε) (N' q.succ)) d
  rw [← hst] at h1
  rw [← hst'] at h2
  refine h2.trans (Eq.trans ?_ h1.symm)
  congr 1
  funext x
  refine ev_charpoly hev (modelMatrix_isHermitian _ _ _ _) (modelMatrix_isHermitian _ _ _ _) ?_
  have hG := signedPerm_unitary π ε h
  rw [model_gauge hG, rotate, Matrix.charpoly_mul_comm, ← Matrix.mul_assoc, hG, Matrix.one_mul]
  cases b with
  | false =>
    have : N' = N := by funext q; ext i j; simp [N', N, twist]
    rw [this]
  | true =>
    have : N' = fun q => (N q).map (starRingEnd ℂ) := by funext q; ext i j; simp [N', N, twist]
    rw [this, hb rfl, modelMatrix_some, modelMatrix_some]
    simp only [Complex.ofReal_zero, zero_smul, add_zero, herm_conj]
    rw [← Matrix.charpoly_transpose]
    congr 1
    simp only [Matrix.transpose_add, Matrix.transpose_sum, Matrix.transpose_smul, Matrix.transpose_transpose]

theorem fitLoss_act (ev : Mat n n → List ℝ) (hev : IsEigvalsh ev) (cfg : Eigen.Cfg) (s : ℝ) (π : Equiv.Perm (Fin n)) (ε : Fin n → ℝ) (h : ∀ i, ε i * ε i = 1)
    (b : Bool) (hb : b = true → s = 0) (P : Fin (p + 1) × Fin n × Fin n → ℂ) (d : Data (List ℝ)) :
    fitLoss ev cfg s (act (basis π ε h b) P) d = fitLoss ev cfg s P d := by
  unfold fitLoss
  split
  · rename_i X Y _ _
    have := C127_predictions ev hev cfg s π ε h b hb P (.leaf (X.map fun r => fun i : Fin p => r.getD i 0))
    simp only [Tree.map] at this
    rw [this]
  · rfl

/-- **C127** Fits of eigenvalues keep the symmetries of the matrices: exchanged basis states, signs of basis states and, without smoothing, conjugation. -/
theorem C127_fit (c : Train.Cfg (List ℝ) (Fin (p + 1) × Fin n × Fin n → ℂ) S K (Option ℝ)) (ev : Mat n n → List ℝ) (hev : IsEigvalsh ev) (cfg : Eigen.Cfg) (s : ℝ)
    (hf : FitsEigenvalues c ev cfg s) (hfl : c.flags = [true]) (lr : Nat → ℝ) (b1 b2 eps clip : ℝ) (hc : 0 ≤ clip) (h0 : 0 ≤ b2) (h1 : b2 < 1)
    (hu : c.update = updateC lr b1 b2 eps clip) (π : Equiv.Perm (Fin n)) (ε : Fin n → ℝ) (h : ∀ i, ε i * ε i = 1) (b : Bool) (hb : b = true → s = 0)
    (x0 : Fin (p + 1) × Fin n × Fin n → ℂ) (hx : act (basis π ε h b) x0 = x0) (k : K) (st : S) (rng : K)
    (t : TState (Fin (p + 1) × Fin n × Fin n → ℂ) S K (Option ℝ)) (hr : run c k [initC x0] st rng = .ok t) (i : Inner (Fin (p + 1) × Fin n × Fin n → ℂ) S K)
    (hi : i = t.inner ∨ i = t.best.inner) : ∃ x, i.adam[0]? = some x ∧ act (basis π ε h b) x.params = x.params := by
  have := C127_training c 0 lr b1 b2 eps clip hc h0 h1 hu (basis π ε h b)
    (fun _ d _ _ ps => match ps with | [P] => (fitLoss ev cfg s P d).getD 0 | _ => 0)
    (by
      intro e d st k ps M
      match ps with
      | [] => rfl
      | _ :: _ :: _ => rfl
      | [_] => simp only [List.set_cons_zero, fitLoss_act ev hev cfg s π ε h b hb M d])
    (by
      intro e d st k ps M hM g hg
      rw [hf.grad] at hg
      match ps with
      | [] => simp at hg
      | _ :: _ :: _ => simp at hg
      | [P] =>
        simp only [List.getElem?_cons_zero, Option.some.injEq] at hM
        subst hM
        simp only [List.take_zero, List.count_nil, List.getElem?_cons_zero, Option.some.injEq] at hg
        rw [← hg]
        rfl)
    (by intro k e ps; rw [hf.callback])
    k [initC x0] st rng t (by rw [hfl]; rfl) hr (initC x0) rfl (C127_fresh _ x0 hx)
  obtain ⟨⟨x, hx1, hx2⟩, ⟨y, hy1, hy2⟩⟩ := this
  rcases hi with rfl | rfl
  · exact ⟨x, hx1, hx2.params⟩
  · exact ⟨y, hy1, hy2.params⟩

/-- **C127** Block-diagonal models stay block-diagonal: if no matrix of the model has an entry between basis states of two groups, then no fit of eigenvalues,
with any smoothing, ever makes one. -/
theorem C127_blocks (c : Train.Cfg (List ℝ) (Fin (p + 1) × Fin n × Fin n → ℂ) S K (Option ℝ)) (ev : Mat n n → List ℝ) (hev : IsEigvalsh ev) (cfg : Eigen.Cfg) (s : ℝ)
    (hf : FitsEigenvalues c ev cfg s) (hfl : c.flags = [true]) (lr : Nat → ℝ) (b1 b2 eps clip : ℝ) (hc : 0 ≤ clip) (h0 : 0 ≤ b2) (h1 : b2 < 1)
    (hu : c.update = updateC lr b1 b2 eps clip) (group : Fin n → Bool)
    (x0 : Fin (p + 1) × Fin n × Fin n → ℂ) (hx : ∀ q i j, group i ≠ group j → x0 (q, i, j) = 0) (k : K) (st : S) (rng : K)
    (t : TState (Fin (p + 1) × Fin n × Fin n → ℂ) S K (Option ℝ)) (hr : run c k [initC x0] st rng = .ok t) (i : Inner (Fin (p + 1) × Fin n × Fin n → ℂ) S K)
    (hi : i = t.inner ∨ i = t.best.inner) : ∃ x, i.adam[0]? = some x ∧ ∀ q i j, group i ≠ group j → x.params (q, i, j) = 0 := by
  have hε : ∀ i, (if group i then (1 : ℝ) else -1) * (if group i then (1 : ℝ) else -1) = 1 := fun i => by split <;> norm_num
  obtain ⟨x, h2, h3⟩ := C127_fit c ev hev cfg s hf hfl lr b1 b2 eps clip hc h0 h1 hu 1 (fun i => if group i then 1 else -1) hε false (by simp) x0 (by
    funext ⟨q, i, j⟩
    by_cases hg : group i = group j
    · have := hε j
      simp only [act, basis, twist, Bool.false_eq_true, if_false, RingHom.id_apply, hg, this, Complex.ofReal_one, one_mul]
      rfl
    · rw [hx q i j hg]
      simp only [act, basis, twist, Bool.false_eq_true, if_false, RingHom.id_apply]
      refine mul_eq_zero_of_right _ ?_
      exact hx q i j hg) k st rng t hr i hi
  refine ⟨x, h2, fun q i j hg => ?_⟩
  have h4 := congrFun h3 (q, i, j)
  have e : ((if group i then (1 : ℝ) else -1) * (if group j then (1 : ℝ) else -1)) = -1 := by
    cases hi : group i <;> cases hj : group j <;> simp_all
  simp only [act, basis, twist, Bool.false_eq_true, if_false, RingHom.id_apply, e] at h4
  change ((-1 : ℝ) : ℂ) * x.params (q, i, j) = _ at h4
  push_cast at h4
  linear_combination (-1 / 2 : ℂ) * h4

/-- **C127** Models with real matrices stay real without smoothing, although their parameters are complex arrays. -/
theorem C127_real (c : Train.Cfg (List ℝ) (Fin (p + 1) × Fin n × Fin n → ℂ) S K (Option ℝ)) (ev : Mat n n → List ℝ) (hev : IsEigvalsh ev) (cfg : Eigen.Cfg)
    (hf : FitsEigenvalues c ev cfg 0) (hfl : c.flags = [true]) (lr : Nat → ℝ) (b1 b2 eps clip : ℝ) (hc : 0 ≤ clip) (h0 : 0 ≤ b2) (h1 : b2 < 1)
    (hu : c.update = updateC lr b1 b2 eps clip) (x0 : Fin (p + 1) × Fin n × Fin n → ℂ) (hx : ∀ q, (x0 q).im = 0) (k : K) (st : S) (rng : K)
    (t : TState (Fin (p + 1) × Fin n × Fin n → ℂ) S K (Option ℝ)) (hr : run c k [initC x0] st rng = .ok t) (i : Inner (Fin (p + 1) × Fin n × Fin n → ℂ) S K)
    (hi : i = t.inner ∨ i = t.best.inner) : ∃ x, i.adam[0]? = some x ∧ ∀ q, (x.params q).im = 0 := by
  obtain ⟨x, h2, h3⟩ := C127_fit c ev hev cfg 0 hf hfl lr b1 b2 eps clip hc h0 h1 hu 1 (fun _ => 1) (fun _ => by norm_num) true (fun _ => rfl) x0 (by
    funext q
    simp only [act, basis, twist, if_true, mul_one, Complex.ofReal_one, one_mul]
    exact Complex.conj_eq_iff_im.2 (hx q)) k st rng t hr i hi
  refine ⟨x, h2, fun q => ?_⟩
  have h4 := congrFun h3 q
  simp only [act, basis, twist, if_true, mul_one, Complex.ofReal_one, one_mul] at h4
  exact Complex.conj_eq_iff_im.1 h4

/-- **C127** Basis states that can be exchanged without changing the matrices can be exchanged after any fit, with any smoothing. -/
theorem C127_exchange (c : Train.Cfg (List ℝ) (Fin (p + 1) × Fin n × Fin n → ℂ) S K (Option ℝ)) (ev : Mat n n → List ℝ) (hev : IsEigvalsh ev) (cfg : Eigen.Cfg) (s : ℝ)
    (hf : FitsEigenvalues c ev cfg s) (hfl : c.flags = [true]) (lr : Nat → ℝ) (b1 b2 eps clip : ℝ) (hc : 0 ≤ clip) (h0 : 0 ≤ b2) (h1 : b2 < 1)
    (hu : c.update = updateC lr b1 b2 eps clip) (π : Equiv.Perm (Fin n)) (x0 : Fin (p + 1) × Fin n × Fin n → ℂ)
    (hx : ∀ q i j, x0 (q, π i, π j) = x0 (q, i, j)) (k : K) (st : S) (rng : K)
    (t : TState (Fin (p + 1) × Fin n × Fin n → ℂ) S K (Option ℝ)) (hr : run c k [initC x0] st rng = .ok t) (i : Inner (Fin (p + 1) × Fin n × Fin n → ℂ) S K)
    (hi : i = t.inner ∨ i = t.best.inner) : ∃ x, i.adam[0]? = some x ∧ ∀ q i j, x.params (q, π i, π j) = x.params (q, i, j) := by
  obtain ⟨x, h2, h3⟩ := C127_fit c ev hev cfg s hf hfl lr b1 b2 eps clip hc h0 h1 hu π (fun _ => 1) (fun _ => by norm_num) false (by simp) x0 (by
    funext ⟨q, i, j⟩
    simp only [act, basis, twist, Bool.false_eq_true, if_false, mul_one, Complex.ofReal_one, one_mul, RingHom.id_apply]
    exact hx q i j) k st rng t hr i hi
  refine ⟨x, h2, fun q i j => ?_⟩
  have h4 := congrFun h3 (q, i, j)
  simp only [act, basis, twist, Bool.false_eq_true, if_false, mul_one, Complex.ofReal_one, one_mul, RingHom.id_apply] at h4
  exact h4

theorem fitCfg_runs (ev : Mat 2 2 → List ℝ) (x0 : Fin 2 × Fin 2 × Fin 2 → ℂ) : ∃ t, run (fitCfg ev) 0 [initC x0] () 0 = .ok t := by
  refine C31_total (fitCfg ev) 2 2 (fun _ _ => List.Perm.refl _)
    ⟨⟨by simp [fitCfg], by simp [fitCfg]⟩, fun y hy => by cases hy; exact ⟨by simp, by simp⟩, fun u hu => by simp [fitCfg] at hu⟩
    ⟨⟨by simp [fitCfg], by simp [fitCfg]⟩, fun y hy => by cases hy; exact ⟨by simp, by simp⟩, fun u hu => by simp [fitCfg] at hu⟩
    Nat.one_pos Nat.two_pos (fun e b s k ps hps => ?_) (fun _ _ _ _ => rfl) 0 [initC x0] () 0 rfl
  match ps, hps with
  | [P], _ => simp [fitCfg]

/-- The hypotheses hold of the training `fitCfg`, with a model whose matrices are diagonal and real: they stay so. -/
example : ∃ ev : Mat 2 2 → List ℝ, IsEigvalsh ev ∧ FitsEigenvalues (fitCfg ev) ev ⟨some 1, "SA".toList⟩ 0 ∧
    ∃ t, run (fitCfg ev) 0 [initC fun q : Fin 2 × Fin 2 × Fin 2 => if q.2.1 = q.2.2 then (q.2.1.val + 2 : ℂ) else 0] () 0 = .ok t ∧
      ∃ x, t.best.inner.adam[0]? = some x ∧ (∀ q, x.params (q, 0, 1) = 0) ∧ ∀ q, (x.params q).im = 0 := by
  obtain ⟨ev, hev⟩ : ∃ ev : Mat 2 2 → List ℝ, IsEigvalsh ev := ⟨_, exists_eigvalsh⟩
  have h2 : FitsEigenvalues (fitCfg ev) ev ⟨some 1, "SA".toList⟩ 0 := ⟨fun _ _ _ _ ps => (by match ps with | [] => rfl | [P] => rfl | _ :: _ :: _ => rfl), fun _ _ _ _ ps => (by match ps with | [] => rfl | [P] => rfl | _ :: _ :: _ => rfl), fun _ _ _ => rfl⟩
  obtain ⟨t, ht⟩ := fitCfg_runs ev fun q : Fin 2 × Fin 2 × Fin 2 => if q.2.1 = q.2.2 then (q.2.1.val + 2 : ℂ) else 0
  refine ⟨ev, hev, h2, t, ht, ?_⟩
  obtain ⟨x, hx, hb⟩ := C127_blocks (fitCfg ev) ev hev _ 0 h2 rfl (fun _ => 1 / 100) 0.9 0.999 1e-8 1e3 (by norm_num) (by norm_num) (by norm_num) rfl
    (fun i => decide (i = 0)) _ (by
      intro q i j hij
      have : i ≠ j := fun h => hij (by rw [h])
      simp [this]) 0 () 0 t ht _ (.inr rfl)
  obtain ⟨y, hy, hr⟩ := C127_real (fitCfg ev) ev hev _ h2 rfl (fun _ => 1 / 100) 0.9 0.999 1e-8 1e3 (by norm_num) (by norm_num) (by norm_num) rfl _ (by
      intro q
      split
      · simp
      · simp) 0 () 0 t ht _ (.inr rfl)
  obtain rfl : x = y := by rw [hx] at hy; exact Option.some.inj hy
  exact ⟨x, hx, fun q => hb q 0 1 (by decide), hr⟩

end Verif.Props
