import Verif.Props.TrainUnits
import Verif.Props.Rescale
import Verif.Props.Stability

/-! # C126: fitting eigenvalues in other units of energy -/

namespace Verif.Props

open Verif.Batch Verif.Train Verif.Adam Verif.TrainUnitsSpec Verif.Loss Hermitian Eigen Pmm PmmSpec

variable {n p : Nat} {S K : Type}

/-- The mean squared error of an `AffineEigenvaluePMM` with a bias on a batch with one array of features and one array of targets; `none` is not a number. `P` is the
parameter array of the model. A row of the features has `p` entries. -/
noncomputable def fitLoss (ev : Mat n n → List ℝ) (cfg : Eigen.Cfg) (s : ℝ) (P : Fin (p + 1) × Fin n × Fin n → ℂ) (b : Data (List ℝ)) : Option ℝ :=
  match b.X, b.Y with
  | [X], some [Y] =>
    match eigenvalueCall ev cfg true s (stored P) (.leaf ((X.map fun r => fun i : Fin p => r.getD i 0).map sample)) with
    | .ok (.leaf E) =>
      match loss (𝕜 := ℝ) .mse [E.flatten.map some] [Y.flatten.map some] [] with
      | .ok l => l
      | .error _ => Option.none
    | _ => Option.none
  | _, _ => Option.none

/-- The training of the matrices with that loss: the gradients are those of the loss, and nothing else has parameters or a state. -/
structure FitsEigenvalues (c : Train.Cfg (List ℝ) (Fin (p + 1) × Fin n × Fin n → ℂ) S K (Option ℝ)) (ev : Mat n n → List ℝ) (cfg : Eigen.Cfg) (s : ℝ) : Prop where
  valLoss : ∀ e b st k ps, c.valLoss e b st k ps = match ps with
    | [P] => fitLoss ev cfg s P b
    | _ => Option.none
  grad : ∀ e b st k ps, c.grad e b st k ps = match ps with
    | [P] => ([gradC (fun Q => (fitLoss ev cfg s Q b).getD 0) P], st)
    | _ => ([], st)
  callback : ∀ k e ps, c.callback k e ps = (k, ps)

theorem stored_smul (a : ℝ) (P : Fin (p + 1) × Fin n × Fin n → ℂ) : stored (a • P) =
    ((a : ℂ) • (Matrix.of fun i j => P (0, i, j) : Mat n n) + ((0 : ℝ) : ℂ) • 1) ::
      List.ofFn fun q : Fin p => (a : ℂ) • (Matrix.of fun i j => P (q.succ, i, j) : Mat n n) := by
  rw [stored, List.ofFn_succ]
  congr 1
  simp only [Complex.ofReal_zero, zero_smul, add_zero]
  ext i j
  simp

theorem stored_cons (P : Fin (p + 1) × Fin n × Fin n → ℂ) : stored P =
    (Matrix.of fun i j => P (0, i, j) : Mat n n) :: List.ofFn fun q : Fin p => (Matrix.of fun i j => P (q.succ, i, j) : Mat n n) := by
  rw [stored, List.ofFn_succ]

/-- **C126** The loss of a fit of eigenvalues in other units of energy. -/
theorem C126_fit_loss (ev : Mat n n → List ℝ) (hev : IsEigvalsh ev) (cfg : Eigen.Cfg) {part : Part} (hw : parseWhich cfg.which = .ok (part, .algebraic))
    (hk : cfg.numEig.getD n ≤ n) (s a : ℝ) (ha : 0 < a) (P : Fin (p + 1) × Fin n × Fin n → ℂ) (b : Data (List ℝ)) :
    fitLoss ev cfg (s / a) (a • P) (convert id (List.map (a * ·)) id b) = (fitLoss ev cfg s P b).map (a ^ 2 * ·) := by
  obtain ⟨X, Y, U⟩ := b
  match X, Y with
  | [X], some [Y] =>
    have hcall := C117_energy ev hev cfg hw hk s (Matrix.of fun i j => P (0, i, j) : Mat n n)
      (fun q : Fin p => (Matrix.of fun i j => P (q.succ, i, j) : Mat n n)) a 0 ha (.leaf (X.map fun r => fun i : Fin p => r.getD i 0))
    rw [← stored_smul, ← stored_cons] at hcall
    simp only [Tree.map, add_zero] at hcall
    unfold fitLoss convert
    simp only [List.map_cons, List.map_nil, List.map_id, Option.map_some, hcall, List.map_id_fun, id]
    cases eigenvalueCall ev cfg true s (stored P) (.leaf ((X.map fun r => fun i : Fin p => r.getD i 0).map sample)) with
    | error e => rfl
    | ok E =>
      cases E with
      | leaf E =>
        have ht : ∀ Z : List (List ℝ), [(Z.map (List.map (a * ·))).flatten.map some] = times a [Z.flatten.map some] := fun Z => by
          simp [times, map1, List.map_flatten, Function.comp_def]
        have hl := (C126_losses (a : ℝ) ha.ne' [E.flatten.map some] [Y.flatten.map some] []).1
        simp only [Except.map, Tree.map, ht]
        rw [hl, Real.norm_of_nonneg ha.le]
        cases loss (𝕜 := ℝ) .mse [E.flatten.map some] [Y.flatten.map some] [] <;> rfl
      | _ => rfl
  | [], _ => simp [fitLoss, convert]
  | _ :: _ :: _, _ => simp [fitLoss, convert]
  | [_], Option.none => simp [fitLoss, convert]
  | [_], some [] => simp [fitLoss, convert]
  | [_], some (_ :: _ :: _) => simp [fitLoss, convert]

/-- **C126** Fitting eigenvalues in other units of energy: if all targets are multiplied by `a`, then a training that starts with matrices multiplied by `a`, with the learning rate, `eps` and `clip`
multiplied by `a`, the target loss and the smallest improvement by `a²` and the smoothing divided by `a`, goes exactly as the original one: it stops after the same number of epochs, its matrices are `a`
times the original ones and its losses `a²` times. -/
theorem C126_energy (c c' : Train.Cfg (List ℝ) (Fin (p + 1) × Fin n × Fin n → ℂ) S K (Option ℝ)) (ev : Mat n n → List ℝ) (hev : IsEigvalsh ev) (cfg : Eigen.Cfg) {part : Part}
    (hw : parseWhich cfg.which = .ok (part, .algebraic)) (hk : cfg.numEig.getD n ≤ n) (s a : ℝ) (ha : 0 < a) (hc : RealLosses c) (hf : FitsEigenvalues c ev cfg s)
    (hf' : FitsEigenvalues c' ev cfg (s / a)) (lr : Nat → ℝ) (b1 b2 eps clip : ℝ) (hu : c.update = updateC lr b1 b2 eps clip)
    (h' : c' = { c with
      grad := c'.grad, valLoss := c'.valLoss, update := updateC (fun e => a * lr e) b1 b2 (a * eps) (a * clip)
      train := convert id (List.map (a * ·)) id c.train, val := convert id (List.map (a * ·)) id c.val
      target := c.target.map (a ^ 2 * ·), minDelta := c.minDelta.map (a ^ 2 * ·) })
    (x0 : Fin (p + 1) × Fin n × Fin n → ℂ) (k : K) (st : S) (rng : K) :
    run c' k [initC (a • x0)] st rng =
      (run c k [initC x0] st rng).map (convertState (convertOpt (a • ·) (a • ·) (a ^ 2 • ·)) (Option.map (a ^ 2 * ·))) := by
  have h0 : [initC (a • x0)] = [initC x0].map (convertOpt (a • ·) (a • ·) (a ^ 2 • ·)) := by
    simp only [List.map_cons, List.map_nil, initC, convertOpt]
    congr 2 <;> · funext j; simp
  have h2 : 0 < a ^ 2 := by positivity
  rw [h0]
  refine run_conv (x := id) (y := List.map (a * ·)) (u := id) (g := (a • ·)) ?_ k _ st rng
  have hloss := fun (P : Fin (p + 1) × Fin n × Fin n → ℂ) b => C126_fit_loss ev hev cfg hw hk s a ha P b
  refine ⟨by rw [h'], by rw [h'], by rw [h'], by rw [h'], by rw [h'], by rw [h'], by rw [h'], by rw [h'], by rw [h'], by rw [h'], by rw [h'], by rw [h'], by rw [h'],
    by rw [h'], ?_, ?_, ?_, ?_, ?_, ?_, ?_, ?_, ?_, ?_⟩
  · rw [h']
    show c.zero = _
    rw [hc.zero]; simp
  · intro q r
    rw [h']
    exact unit_lt h2 hc q r
  · intro q r
    rw [h']
    exact unit_le h2 hc q r
  · intro q r
    rw [h']
    show c.sub _ _ = _
    rw [hc.sub, hc.sub]
    cases q <;> cases r <;> simp [mul_sub]
  · intro q r
    rw [h']
    show c.add _ _ = _
    rw [hc.add, hc.add]
    cases q <;> cases r <;> simp [mul_add]
  · intro q r
    rw [h']
    show c.divNat _ _ = _
    rw [hc.divNat, hc.divNat]
    cases q <;> simp [mul_div_assoc]
  · intro e b st k ps
    rw [hf'.grad, hf.grad]
    match ps with
    | [] => rfl
    | _ :: _ :: _ => rfl
    | [P] =>
      simp only [List.map_cons, List.map_nil]
      have hL : (fun Q : Fin (p + 1) × Fin n × Fin n → ℂ => (fitLoss ev cfg (s / a) Q (convert id (List.map (a * ·)) id b)).getD 0) =
          fun Q => a ^ 2 * (fun Q => (fitLoss ev cfg s Q b).getD 0) (a⁻¹ • Q) := by
        funext Q
        have := hloss (a⁻¹ • Q) b
        rw [smul_inv_smul₀ ha.ne'] at this
        simp only [this]
        cases hq : fitLoss ev cfg s (a⁻¹ • Q) b <;> simp
      rw [hL, (C126_gradient (a ^ 2) a).2 (fun Q => (fitLoss ev cfg s Q b).getD 0) (a • P), inv_smul_smul₀ ha.ne', show a ^ 2 / a = a by field_simp]
  · intro e b st k ps
    rw [hf'.valLoss, hf.valLoss]
    match ps with
    | [] => rfl
    | _ :: _ :: _ => rfl
    | [P] => exact hloss P b
  · intro k e ps
    rw [hf'.callback, hf.callback]
  · intro d q
    have : c'.update = updateC (fun e => a * lr e) b1 b2 (a * eps) (a * clip) := by rw [h']
    rw [this, hu]
    exact updateC_scale lr b1 b2 eps clip ha d q

/-- A training of a model with matrices of size two on two samples, for the example. -/
noncomputable def fitCfg (ev : Mat 2 2 → List ℝ) : Train.Cfg (List ℝ) (Fin 2 × Fin 2 × Fin 2 → ℂ) Unit Nat (Option ℝ) where
  perm _ n := List.range n
  splitN _ n := List.range n
  split k := (k + 1, k + 7)
  grad _ b s _ ps := match ps with
    | [P] => ([gradC (fun Q => (fitLoss ev ⟨some 1, "SA".toList⟩ 0 Q b).getD 0) P], s)
    | _ => ([], s)
  valLoss _ b _ _ ps := match ps with
    | [P] => fitLoss ev ⟨some 1, "SA".toList⟩ 0 P b
    | _ => Option.none
  update := updateC (fun _ => 1 / 100) 0.9 0.999 1e-8 1e3
  callback k _ ps := (k, ps)
  verbose := false
  interrupted _ := false
  flags := [true]
  train := ⟨[[[1], [2]]], some [[[3], [4]]], Option.none⟩
  val := ⟨[[[1], [2]]], some [[[3], [4]]], Option.none⟩
  batchSize := 1
  valBatchSize := 2
  epochs := 1
  target := some 0
  patience := 5
  minDelta := some 0
  lt a b := match a, b with
    | some r, some q => decide (r < q)
    | _, _ => false
  le a b := match a, b with
    | some r, some q => decide (r ≤ q)
    | _, _ => false
  sub a b := a.bind fun r => b.map fun q => r - q
  add a b := a.bind fun r => b.map fun q => r + q
  divNat a n := a.map (· / (n : ℝ))
  zero := some 0

/-- The hypotheses of `C126_energy` hold of it, in units of which 27.2 make one of the original ones. -/
example : ∃ ev : Mat 2 2 → List ℝ, IsEigvalsh ev ∧ RealLosses (fitCfg ev) ∧ FitsEigenvalues (fitCfg ev) ev ⟨some 1, "SA".toList⟩ 0 ∧
    ∃ c' : Train.Cfg (List ℝ) (Fin 2 × Fin 2 × Fin 2 → ℂ) Unit Nat (Option ℝ), c'.train.Y = some [[[27.2 * 3], [27.2 * 4]]] ∧ ∀ x0,
      run c' 0 [initC ((27.2 : ℝ) • x0)] () 0 =
        (run (fitCfg ev) 0 [initC x0] () 0).map (convertState (convertOpt ((27.2 : ℝ) • ·) ((27.2 : ℝ) • ·) ((27.2 : ℝ) ^ 2 • ·)) (Option.map ((27.2 : ℝ) ^ 2 * ·))) := by
  obtain ⟨ev, hev⟩ : ∃ ev : Mat 2 2 → List ℝ, IsEigvalsh ev := ⟨_, exists_eigvalsh⟩
  have h1 : RealLosses (fitCfg ev) := by
    refine ⟨fun a b => ?_, fun a b => ?_, fun _ _ => rfl, fun _ _ => rfl, fun _ _ => rfl, rfl⟩ <;> cases a <;> cases b <;> simp [fitCfg]
  have h2 : FitsEigenvalues (fitCfg ev) ev ⟨some 1, "SA".toList⟩ 0 := ⟨fun _ _ _ _ ps => (by match ps with | [] => rfl | [P] => rfl | _ :: _ :: _ => rfl), fun _ _ _ _ ps => (by match ps with | [] => rfl | [P] => rfl | _ :: _ :: _ => rfl), fun _ _ _ => rfl⟩
  let c' : Train.Cfg (List ℝ) (Fin 2 × Fin 2 × Fin 2 → ℂ) Unit Nat (Option ℝ) :=
    { fitCfg ev with
      update := updateC (fun _ => 27.2 * (1 / 100)) 0.9 0.999 (27.2 * 1e-8) (27.2 * 1e3)
      train := convert id (List.map (27.2 * ·)) id (fitCfg ev).train
      val := convert id (List.map (27.2 * ·)) id (fitCfg ev).val
      target := (fitCfg ev).target.map (27.2 ^ 2 * ·)
      minDelta := (fitCfg ev).minDelta.map (27.2 ^ 2 * ·) }
  have h3 : FitsEigenvalues c' ev ⟨some 1, "SA".toList⟩ (0 / 27.2) := by
    rw [zero_div]
    exact ⟨fun _ _ _ _ ps => (by match ps with | [] => rfl | [P] => rfl | _ :: _ :: _ => rfl), fun _ _ _ _ ps => (by match ps with | [] => rfl | [P] => rfl | _ :: _ :: _ => rfl), fun _ _ _ => rfl⟩
  exact ⟨ev, hev, h1, h2, c', rfl, fun x0 => C126_energy (fitCfg ev) c' ev hev ⟨some 1, "SA".toList⟩ (part := .smallest) (by decide) (by decide) 0 27.2 (by norm_num) h1 h2 h3
    (fun _ => 1 / 100) 0.9 0.999 1e-8 1e3 rfl rfl x0 0 () 0⟩

end Verif.Props
