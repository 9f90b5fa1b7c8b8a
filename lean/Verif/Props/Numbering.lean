import Verif.Props.SymmetryPmm

/-! # C128: trainings with other numberings and signs -/

namespace Verif.Props

open Verif.Batch Verif.Train Verif.Adam Verif.SymmetrySpec Verif.TrainUnitsSpec Verif.Loss Hermitian Eigen Pmm PmmSpec Matrix

section
variable {ι : Type}

/-- **C128** The gradient of a loss that is given in other coordinates (entries exchanged, with other signs or conjugated) is the gradient in those coordinates. Nothing
else is assumed of the loss. -/
theorem C128_gradient [DecidableEq ι] (σ : Symmetry ι) (L L' : (ι → ℂ) → ℝ) (hL : ∀ Q, L' (act σ Q) = L Q) (P : ι → ℂ) :
    gradC L' (act σ P) = act σ (gradC L P) := by
  have hb : ∀ (i : ι) (z : ℂ), L' (Function.update (act σ P) i (act σ P i + z)) =
      L (Function.update P (σ.perm i) (P (σ.perm i) + twist σ.conj (σ.sign i * z))) := fun i z => by
    rw [← hL]
    congr 1
    funext k
    by_cases hk : k = i
    · subst hk
      rw [Function.update_self]
      simp only [act]
      rw [Function.update_self, map_add, twist_twist, mul_add, sign_sq]
    · have hk' : σ.perm k ≠ σ.perm i := fun h => hk (σ.perm.injective h)
      rw [Function.update_of_ne hk]
      simp only [act]
      rw [Function.update_of_ne hk']
  have hd : ∀ (s : ℝ) (f : ℝ → ℝ), deriv (fun t => f (s * t)) 0 = s * deriv f 0 := fun s f => by
    rw [deriv_comp_mul_left, mul_zero, smul_eq_mul]
  funext i
  have h1 : deriv (fun t : ℝ => L' (Function.update (act σ P) i (act σ P i + t))) 0 =
      σ.sign i * deriv (fun t : ℝ => L (Function.update P (σ.perm i) (P (σ.perm i) + t))) 0 := by
    rw [← hd]
    congr 1
    funext t
    rw [hb, ← Complex.ofReal_mul, twist_real]
  cases hc : σ.conj with
  | false =>
    have h2 : deriv (fun t : ℝ => L' (Function.update (act σ P) i (act σ P i + t * Complex.I))) 0 =
        σ.sign i * deriv (fun t : ℝ => L (Function.update P (σ.perm i) (P (σ.perm i) + t * Complex.I))) 0 := by
      rw [← hd]
      congr 1
      funext t
      rw [hb, hc]
      simp [twist, mul_assoc]
    simp only [gradC]
    rw [h1, h2]
    simp only [act, hc, twist, Bool.false_eq_true, if_false, RingHom.id_apply, gradC]
    push_cast
    ring
  | true =>
    have h2 : deriv (fun t : ℝ => L' (Function.update (act σ P) i (act σ P i + t * Complex.I))) 0 =
        (-σ.sign i) * deriv (fun t : ℝ => L (Function.update P (σ.perm i) (P (σ.perm i) + t * Complex.I))) 0 := by
      rw [← hd]
      congr 1
      funext t
      rw [hb, hc]
      have e : twist true ((σ.sign i : ℂ) * (t * Complex.I)) = ((-σ.sign i * t : ℝ) : ℂ) * Complex.I := by
        simp only [twist, if_true, map_mul, Complex.conj_ofReal, Complex.conj_I]
        push_cast
        ring
      rw [e]
    simp only [gradC]
    rw [h1, h2]
    simp only [act, hc, twist, if_true, map_sub, map_mul, Complex.conj_ofReal, Complex.conj_I, gradC]
    push_cast
    ring

/-- **C128** A step of the optimiser in other coordinates. -/
theorem C128_step (lr : Nat → ℝ) (b1 b2 eps clip : ℝ) (hc : 0 ≤ clip) (σ : Symmetry ι) (hσ : σ.conj = false) (g : ι → ℂ) (a : OptState (ι → ℂ)) :
    updateC lr b1 b2 eps clip (act σ g) (convertOpt (act σ) (act σ) (fun v i => v (σ.perm i)) a) =
      convertOpt (act σ) (act σ) (fun v i => v (σ.perm i)) (updateC lr b1 b2 eps clip g a) := by
  have ht : ∀ z, twist σ.conj z = z := fun z => by simp [hσ, twist]
  have hcl : ∀ i, clipC clip (act σ g i) = σ.sign i * clipC clip (g (σ.perm i)) := fun i => by
    have := clipC_act hc σ i (g (σ.perm i))
    rw [ht (clipC _ _)] at this
    exact this
  have hv : ∀ i, (clipC clip (act σ g i)) * (starRingEnd ℂ) (clipC clip (act σ g i)) = clipC clip (g (σ.perm i)) * (starRingEnd ℂ) (clipC clip (g (σ.perm i))) := fun i => by
    rw [hcl, map_mul, Complex.conj_ofReal, show ∀ s z w : ℂ, s * z * (s * w) = s * (s * (z * w)) from fun s z w => by ring, sign_sq]
  simp only [updateC, convertOpt, hv]
  simp only [hcl]
  congr 1
  · funext i
    simp only [act, ht]
    ring
  · funext i
    simp only [act, ht]
    ring

end

variable {n p : Nat} {S K : Type}

/-- A fit of eigenvalues in other coordinates in which the loss is the same. -/
theorem fit_act (c c' : Train.Cfg (List ℝ) (Fin (p + 1) × Fin n × Fin n → ℂ) S K (Option ℝ)) (ev : Mat n n → List ℝ) (cfg : Eigen.Cfg) (s : ℝ)
    (hf : FitsEigenvalues c ev cfg s) (hf' : FitsEigenvalues c' ev cfg s) (lr : Nat → ℝ) (b1 b2 eps clip : ℝ) (hc : 0 ≤ clip) (hu : c.update = updateC lr b1 b2 eps clip)
    (σ : Symmetry (Fin (p + 1) × Fin n × Fin n)) (hσ : σ.conj = false) (x : List ℝ → List ℝ)
    (h' : c' = { c with grad := c'.grad, valLoss := c'.valLoss, train := convert x id id c.train, val := convert x id id c.val })
    (hL : ∀ P b, fitLoss ev cfg s (act σ P) (convert x id id b) = fitLoss ev cfg s P b)
    (x0 : Fin (p + 1) × Fin n × Fin n → ℂ) (k : K) (st : S) (rng : K) :
    run c' k [initC (act σ x0)] st rng =
      (run c k [initC x0] st rng).map (convertState (convertOpt (act σ) (act σ) (fun v i => v (σ.perm i))) id) := by
  have h0 : [initC (act σ x0)] = [initC x0].map (convertOpt (act σ) (act σ) (fun v i => v (σ.perm i))) := by
    simp only [List.map_cons, List.map_nil, initC, convertOpt]
    congr 2
    funext j
    simp [act]
  rw [h0]
  refine C126_same c c' x id id (act σ) (act σ) (act σ) (fun v i => v (σ.perm i)) id ?_ k _ st rng
  refine ⟨by rw [h'], by rw [h'], by rw [h'], by rw [h'], by rw [h'], by rw [h'], by rw [h'], by rw [h'], by rw [h'], by rw [h'], by rw [h'], by rw [h'], by rw [h']; rfl,
    by rw [h']; rfl, by rw [h']; rfl, fun _ _ => by rw [h']; rfl, fun _ _ => by rw [h']; rfl, fun _ _ => by rw [h']; rfl, fun _ _ => by rw [h']; rfl, fun _ _ => by rw [h']; rfl,
    ?_, ?_, ?_, ?_⟩
  · intro e b st k ps
    rw [hf'.grad, hf.grad]
    match ps with
    | [] => rfl
    | _ :: _ :: _ => rfl
    | [P] =>
      simp only [List.map_cons, List.map_nil]
      rw [C128_gradient σ (fun Q => (fitLoss ev cfg s Q b).getD 0) _ (fun Q => by rw [hL])]
  · intro e b st k ps
    rw [hf'.valLoss, hf.valLoss]
    match ps with
    | [] => rfl
    | _ :: _ :: _ => rfl
    | [P] => exact hL P b
  · intro k e ps
    rw [hf'.callback, hf.callback]
  · intro d q
    have : c'.update = updateC lr b1 b2 eps clip := by rw [h', hu]
    rw [this, hu]
    exact C128_step lr b1 b2 eps clip hc σ hσ d q

/-- **C128** A fit of eigenvalues does not depend on the order and the signs of the basis states: if all initial matrices are written with the basis states in another order and with other
signs, then the training goes exactly the same way, with any smoothing, and its matrices, last and best, are the original ones written in that way. -/
theorem C128_basis (c : Train.Cfg (List ℝ) (Fin (p + 1) × Fin n × Fin n → ℂ) S K (Option ℝ)) (ev : Mat n n → List ℝ) (hev : IsEigvalsh ev) (cfg : Eigen.Cfg) (s : ℝ)
    (hf : FitsEigenvalues c ev cfg s) (lr : Nat → ℝ) (b1 b2 eps clip : ℝ) (hc : 0 ≤ clip) (hu : c.update = updateC lr b1 b2 eps clip)
    (π : Equiv.Perm (Fin n)) (ε : Fin n → ℝ) (h : ∀ i, ε i * ε i = 1) (x0 : Fin (p + 1) × Fin n × Fin n → ℂ) (k : K) (st : S) (rng : K) :
    run c k [initC (act (basis π ε h false) x0)] st rng =
      (run c k [initC x0] st rng).map
        (convertState (convertOpt (act (basis π ε h false)) (act (basis π ε h false)) (fun v i => v (i.1, π i.2.1, π i.2.2))) id) :=
  fit_act c c ev cfg s hf hf lr b1 b2 eps clip hc hu (basis π ε h false) rfl id (by rw [convert_id, convert_id])
    (fun P b => by rw [convert_id]; exact fitLoss_act ev hev cfg s π ε h false (by simp) P b) x0 k st rng

theorem fitLoss_features (ev : Mat n n → List ℝ) (cfg : Eigen.Cfg) (ρ : Equiv.Perm (Fin p)) (δ : Fin p → ℝ) (h : ∀ i, δ i * δ i = 1)
    (P : Fin (p + 1) × Fin n × Fin n → ℂ) (b : Data (List ℝ)) :
    fitLoss ev cfg 0 (act (features ρ δ h) P) (convert (reorderRow ρ δ) id id b) = fitLoss ev cfg 0 P b := by
  obtain ⟨X, Y, U⟩ := b
  match X, Y with
  | [X], some [Y] =>
    have hc : eigenvalueCall ev cfg true 0 (stored (act (features ρ δ h) P)) (.leaf (((X.map (reorderRow ρ δ)).map fun r => fun i : Fin p => r.getD i 0).map sample)) =
        eigenvalueCall ev cfg true 0 (stored P) (.leaf ((X.map fun r => fun i : Fin p => r.getD i 0).map sample)) := by
      have h1 := call_model ev cfg 0 (some (.of fun i j => act (features ρ δ h) P (0, i, j)))
        (fun q : Fin p => (.of fun i j => act (features ρ δ h) P (q.succ, i, j) : Mat n n)) (.leaf ((X.map (reorderRow ρ δ)).map fun r => fun i : Fin p => r.getD i 0))
      have h2 := call_model ev cfg 0 (some (.of fun i j => P (0, i, j)))
        (fun q : Fin p => (.of fun i j => P (q.succ, i, j) : Mat n n)) (.leaf (X.map fun r => fun i : Fin p => r.getD i 0))
      rw [stored_cons, stored_cons]
      refine Eq.trans h1 (Eq.trans ?_ h2.symm)
      have e : (Tree.leaf ((X.map (reorderRow ρ δ)).map fun r => fun i : Fin p => r.getD i 0)) =
          Tree.map (fun xs : List (Fin p → ℝ) => xs.map fun x i => δ i * x (ρ i)) (.leaf (X.map fun r => fun i : Fin p => r.getD i 0)) := by
        simp only [Tree.map, List.map_map]
        congr 2
        funext r
        funext i
        simp [reorderRow]
      rw [e, Tree.norm_map, values_comp]
      congr 1
      funext x
      congr 1
      rw [modelMatrix_some, modelMatrix_some]
      simp only [Complex.ofReal_zero, zero_smul, add_zero]
      congr 1
      · congr 1
        ext i j
        simp [act, features, keepFirst, twist]
      · refine Eq.trans (Finset.sum_congr rfl fun q _ => ?_) (Equiv.sum_comp ρ fun q => (x q : ℂ) • herm (.of fun i j => P (q.succ, i, j) : Mat n n))
        have e2 : (.of fun i j => act (features ρ δ h) P (q.succ, i, j) : Mat n n) = (δ q : ℂ) • (.of fun i j => P ((ρ q).succ, i, j) : Mat n n) := by
          ext i j
          simp [act, features, keepFirst, twist]
        rw [e2, herm_smul, smul_smul]
        congr 1
        rw [Complex.ofReal_mul, mul_comm (δ q : ℂ), mul_assoc, ← Complex.ofReal_mul, h, Complex.ofReal_one, mul_one]
    unfold fitLoss convert
    simp only [List.map_cons, List.map_nil, List.map_id, Option.map_some, hc, List.map_id_fun, id]
  | [], _ => simp [fitLoss, convert]
  | _ :: _ :: _, _ => simp [fitLoss, convert]
  | [_], Option.none => simp [fitLoss, convert]
  | [_], some [] => simp [fitLoss, convert]
  | [_], some (_ :: _ :: _) => simp [fitLoss, convert]

/-- **C128** A fit of eigenvalues without smoothing does not depend on the order and the signs of the features: with the features of all samples in another order and with other signs, and the initial matrices
likewise, the training goes exactly the same way and gives the same matrices in that order and with those signs. -/
theorem C128_features (c c' : Train.Cfg (List ℝ) (Fin (p + 1) × Fin n × Fin n → ℂ) S K (Option ℝ)) (ev : Mat n n → List ℝ) (cfg : Eigen.Cfg)
    (hf : FitsEigenvalues c ev cfg 0) (hf' : FitsEigenvalues c' ev cfg 0) (lr : Nat → ℝ) (b1 b2 eps clip : ℝ) (hc : 0 ≤ clip) (hu : c.update = updateC lr b1 b2 eps clip)
    (ρ : Equiv.Perm (Fin p)) (δ : Fin p → ℝ) (h : ∀ i, δ i * δ i = 1)
    (h' : c' = { c with grad := c'.grad, valLoss := c'.valLoss, train := convert (reorderRow ρ δ) id id c.train, val := convert (reorderRow ρ δ) id id c.val })
    (x0 : Fin (p + 1) × Fin n × Fin n → ℂ) (k : K) (st : S) (rng : K) :
    run c' k [initC (act (features ρ δ h) x0)] st rng =
      (run c k [initC x0] st rng).map
        (convertState (convertOpt (act (features ρ δ h)) (act (features ρ δ h)) (fun v i => v (keepFirst ρ i.1, i.2))) id) :=
  fit_act c c' ev cfg 0 hf hf' lr b1 b2 eps clip hc hu (features ρ δ h) rfl (reorderRow ρ δ) h' (fitLoss_features ev cfg ρ δ h) x0 k st rng

/-- The hypotheses of both hold of the training `fitCfg`: basis states exchanged, with a sign; and the feature with the other sign. -/
example : ∃ ev : Mat 2 2 → List ℝ, IsEigvalsh ev ∧ FitsEigenvalues (fitCfg ev) ev ⟨some 1, "SA".toList⟩ 0 ∧
    (∀ x0, run (fitCfg ev) 0 [initC (act (basis (Equiv.swap 0 1) ![1, -1] (by intro i; fin_cases i <;> simp) false) x0)] () 0 =
      (run (fitCfg ev) 0 [initC x0] () 0).map (convertState (convertOpt (act (basis (Equiv.swap 0 1) ![1, -1] (by intro i; fin_cases i <;> simp) false))
        (act (basis (Equiv.swap 0 1) ![1, -1] (by intro i; fin_cases i <;> simp) false)) (fun v i => v (i.1, Equiv.swap 0 1 i.2.1, Equiv.swap 0 1 i.2.2))) id)) ∧
    ∃ c' : Train.Cfg (List ℝ) (Fin 2 × Fin 2 × Fin 2 → ℂ) Unit Nat (Option ℝ), c'.train.X = [[[-1], [-2]]] ∧
      (∀ x0, run c' 0 [initC (act (features 1 (fun _ => -1) (by simp)) x0)] () 0 =
        (run (fitCfg ev) 0 [initC x0] () 0).map (convertState (convertOpt (act (features 1 (fun _ => -1) (by simp)))
          (act (features 1 (fun _ => -1) (by simp))) (fun v i => v (keepFirst 1 i.1, i.2))) id)) ∧
      ∃ t, run (fitCfg ev) 0 [initC fun _ => 1] () 0 = .ok t := by
  obtain ⟨ev, hev⟩ : ∃ ev : Mat 2 2 → List ℝ, IsEigvalsh ev := ⟨_, exists_eigvalsh⟩
  have h2 : FitsEigenvalues (fitCfg ev) ev ⟨some 1, "SA".toList⟩ 0 := ⟨fun _ _ _ _ ps => (by match ps with | [] => rfl | [P] => rfl | _ :: _ :: _ => rfl), fun _ _ _ _ ps => (by match ps with | [] => rfl | [P] => rfl | _ :: _ :: _ => rfl), fun _ _ _ => rfl⟩
  let c' : Train.Cfg (List ℝ) (Fin 2 × Fin 2 × Fin 2 → ℂ) Unit Nat (Option ℝ) :=
    { fitCfg ev with
      train := convert (reorderRow (1 : Equiv.Perm (Fin 1)) fun _ => -1) id id (fitCfg ev).train
      val := convert (reorderRow (1 : Equiv.Perm (Fin 1)) fun _ => -1) id id (fitCfg ev).val }
  have h3 : FitsEigenvalues c' ev ⟨some 1, "SA".toList⟩ 0 :=
    ⟨fun _ _ _ _ ps => (by match ps with | [] => rfl | [P] => rfl | _ :: _ :: _ => rfl), fun _ _ _ _ ps => (by match ps with | [] => rfl | [P] => rfl | _ :: _ :: _ => rfl), fun _ _ _ => rfl⟩
  refine ⟨ev, hev, h2, fun x0 => C128_basis (fitCfg ev) ev hev _ 0 h2 (fun _ => 1 / 100) 0.9 0.999 1e-8 1e3 (by norm_num) rfl _ _ _ x0 0 () 0,
    c', ?_, fun x0 => C128_features (fitCfg ev) c' ev _ h2 h3 (fun _ => 1 / 100) 0.9 0.999 1e-8 1e3 (by norm_num) rfl _ _ _ rfl x0 0 () 0, fitCfg_runs ev _⟩
  simp [c', convert, reorderRow, fitCfg]

/-! ### A general change of basis -/

/-- The sum of the absolute squares of the entries: the loss of the next theorem. -/
noncomputable def squares (M : Fin 2 × Fin 2 → ℂ) : ℝ := ∑ q, Complex.normSq (M q)

/-- The rotation of the next theorem. -/
noncomputable def turn : Mat 2 2 := !![3 / 5, -4 / 5; 4 / 5, 3 / 5]

theorem gradC_squares (M : Fin 2 × Fin 2 → ℂ) (q : Fin 2 × Fin 2) : gradC squares M q = 2 * (starRingEnd ℂ) (M q) := by
  have hs : ∀ z, squares (Function.update M q z) = Complex.normSq z + ∑ r ∈ Finset.univ \ {q}, Complex.normSq (M r) := fun z => by
    unfold squares
    rw [show (fun r => Complex.normSq (Function.update M q z r)) = Function.update (fun r => Complex.normSq (M r)) q (Complex.normSq z) from ?_,
      Finset.sum_update_of_mem (Finset.mem_univ q)]
    funext r
    by_cases h : r = q
    · subst h; simp
    · simp [h]
  generalize ∑ r ∈ Finset.univ \ {q}, Complex.normSq (M r) = C at hs
  have h1 : deriv (fun t : ℝ => squares (Function.update M q (M q + t))) 0 = 2 * (M q).re := by
    have : (fun t : ℝ => squares (Function.update M q (M q + t))) = fun t : ℝ => ((M q).re + t) ^ 2 + (M q).im ^ 2 + C := by
      funext t
      rw [hs, Complex.normSq_apply]
      simp
      ring
    rw [this]
    have hd : HasDerivAt (fun t : ℝ => ((M q).re + t) ^ 2 + (M q).im ^ 2 + C) (2 * ((M q).re + 0) ^ 1 * 1) 0 := by
      have := ((((hasDerivAt_id (0 : ℝ)).const_add (M q).re).pow 2).add_const ((M q).im ^ 2)).add_const C
      simpa using this
    rw [hd.deriv]
    ring
  have h2 : deriv (fun t : ℝ => squares (Function.update M q (M q + t * Complex.I))) 0 = 2 * (M q).im := by
    have : (fun t : ℝ => squares (Function.update M q (M q + t * Complex.I))) = fun t : ℝ => ((M q).im + t) ^ 2 + (M q).re ^ 2 + C := by
      funext t
      rw [hs, Complex.normSq_apply]
      simp
      ring
    rw [this]
    have hd : HasDerivAt (fun t : ℝ => ((M q).im + t) ^ 2 + (M q).re ^ 2 + C) (2 * ((M q).im + 0) ^ 1 * 1) 0 := by
      have := ((((hasDerivAt_id (0 : ℝ)).const_add (M q).im).pow 2).add_const ((M q).re ^ 2)).add_const C
      simpa using this
    rw [hd.deriv]
    ring
  unfold gradC
  rw [h1, h2]
  apply Complex.ext <;> simp

theorem step_entry (M g : Fin 2 × Fin 2 → ℂ) (q : Fin 2 × Fin 2) (r : ℝ) (h0 : 0 ≤ r) (h1 : r ≤ 10) (hg : g q = r) :
    (updateC (fun _ => 1) 0 0 1 10 g (initC M)).params q = M q - r / (r + 1) := by
  have hcl : clipC 10 (r : ℂ) = r := by
    unfold clipC clipR
    rw [Complex.ofReal_re, Complex.ofReal_im, max_eq_left (by linarith), min_eq_left h1, max_eq_left (by norm_num), min_eq_left (by norm_num)]
    simp
  have hs : ((r : ℂ) * r) ^ (1 / 2 : ℂ) = r := by
    rw [← Complex.ofReal_mul, show (1 / 2 : ℂ) = ((1 / 2 : ℝ) : ℂ) by push_cast; rfl, ← Complex.ofReal_cpow (mul_nonneg h0 h0), ← Real.sqrt_eq_rpow, Real.sqrt_mul_self h0]
  simp only [updateC, initC, hg, hcl, Complex.conj_ofReal, Complex.ofReal_zero, zero_mul, sub_zero, one_mul, zero_add, pow_one, div_one, hs, Complex.ofReal_one]

/-- **C128** A general change of basis gives another training: there is a loss that no rotation by `turn` changes, and matrices for which one step from the turned matrices does not lead to the turned result. (Steps are taken
entry by entry.) -/
theorem C128_rotation_matters : turnᴴ * turn = 1 ∧
    (∀ M : Mat 2 2, squares (fun q => (turn * M * turnᴴ) q.1 q.2) = squares fun q => M q.1 q.2) ∧
    ∃ M N N' : Mat 2 2,
      (fun q => N q.1 q.2) = (updateC (fun _ => 1) 0 0 1 10 (gradC squares fun q => M q.1 q.2) (initC fun q => M q.1 q.2)).params ∧
      (fun q => N' q.1 q.2) = (updateC (fun _ => 1) 0 0 1 10 (gradC squares fun q => (turn * M * turnᴴ) q.1 q.2) (initC fun q => (turn * M * turnᴴ) q.1 q.2)).params ∧
      N' ≠ turn * N * turnᴴ := by
  have hH : turnᴴ = !![3 / 5, 4 / 5; -4 / 5, 3 / 5] := by
    ext i j
    fin_cases i <;> fin_cases j <;> simp [turn, Matrix.conjTranspose_apply]
  have hU : turnᴴ * turn = 1 := by
    rw [hH]
    ext i j
    fin_cases i <;> fin_cases j <;> simp [turn, Matrix.mul_apply, Fin.sum_univ_two] <;> norm_num
  have htr : ∀ M : Mat 2 2, squares (fun q => M q.1 q.2) = (Matrix.trace (M * Mᴴ)).re := fun M => by
    unfold squares
    rw [Fintype.sum_prod_type, Matrix.trace, Complex.re_sum]
    refine Finset.sum_congr rfl fun i _ => ?_
    rw [Matrix.diag_apply, Matrix.mul_apply, Complex.re_sum]
    refine Finset.sum_congr rfl fun j _ => ?_
    rw [Matrix.conjTranspose_apply, Complex.star_def, Complex.mul_conj, Complex.ofReal_re]
  refine ⟨hU, fun M => ?_, !![1, 0; 0, 0],
    .of fun i j => (updateC (fun _ => 1) 0 0 1 10 (gradC squares fun q => (!![1, 0; 0, 0] : Mat 2 2) q.1 q.2) (initC fun q => (!![1, 0; 0, 0] : Mat 2 2) q.1 q.2)).params (i, j),
    .of fun i j => (updateC (fun _ => 1) 0 0 1 10 (gradC squares fun q => (turn * !![1, 0; 0, 0] * turnᴴ : Mat 2 2) q.1 q.2) (initC fun q => (turn * !![1, 0; 0, 0] * turnᴴ : Mat 2 2) q.1 q.2)).params (i, j),
    rfl, rfl, fun he => ?_⟩
  · rw [htr, htr, Matrix.conjTranspose_mul, Matrix.conjTranspose_mul, Matrix.conjTranspose_conjTranspose,
      show turn * M * turnᴴ * (turn * (Mᴴ * turnᴴ)) = turn * (M * (turnᴴ * turn) * Mᴴ) * turnᴴ by simp only [Matrix.mul_assoc], hU, Matrix.mul_one,
      Matrix.trace_mul_comm, ← Matrix.mul_assoc, hU, Matrix.one_mul]
  · have e : (turn * !![1, 0; 0, 0] * turnᴴ : Mat 2 2) 0 0 = ((9 / 25 : ℝ) : ℂ) := by
      rw [hH]
      simp [turn, Matrix.mul_apply, Fin.sum_univ_two]
      norm_num
    have hN : ∀ i j : Fin 2, (updateC (fun _ => 1) 0 0 1 10 (gradC squares fun q => (!![1, 0; 0, 0] : Mat 2 2) q.1 q.2) (initC fun q => (!![1, 0; 0, 0] : Mat 2 2) q.1 q.2)).params (i, j) =
        (if i = 0 ∧ j = 0 then 1 / 3 else 0 : ℂ) := fun i j => by
      by_cases h : i = 0 ∧ j = 0
      · obtain ⟨rfl, rfl⟩ := h
        rw [step_entry _ _ _ 2 (by norm_num) (by norm_num) (by rw [gradC_squares]; simp)]
        norm_num
      · rw [step_entry _ _ _ 0 le_rfl (by norm_num) (by
          rw [gradC_squares]
          fin_cases i <;> fin_cases j <;> simp_all), if_neg h]
        fin_cases i <;> fin_cases j <;> simp_all
    have hNm : (Matrix.of fun i j => (updateC (fun _ => 1) 0 0 1 10 (gradC squares fun q => (!![1, 0; 0, 0] : Mat 2 2) q.1 q.2) (initC fun q => (!![1, 0; 0, 0] : Mat 2 2) q.1 q.2)).params (i, j)) =
        (Matrix.of fun i j => if i = 0 ∧ j = 0 then 1 / 3 else 0 : Mat 2 2) := by
      ext i j
      rw [Matrix.of_apply, Matrix.of_apply, hN]
    rw [hNm] at he
    have h00 := congrFun (congrFun he 0) 0
    rw [Matrix.of_apply, step_entry _ _ _ (18 / 25) (by norm_num) (by norm_num) (by rw [gradC_squares, e, Complex.conj_ofReal]; push_cast; norm_num), e, hH] at h00
    simp [turn, Matrix.mul_apply, Fin.sum_univ_two, Matrix.vecHead, Matrix.vecTail] at h00
    norm_num at h00

end Verif.Props
