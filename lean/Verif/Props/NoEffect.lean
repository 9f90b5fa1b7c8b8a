import Verif.Props.ObsBounds
import Verif.Props.Symmetry

/-! # C137: parameters that do not matter are not changed -/

namespace Verif.Props
open Tree Hermitian Eigen Pmm PmmSpec Observables Batch Train Adam
open HermTrain hiding gradC gradR update
open TrainUnitsSpec (gradR gradC)
open scoped Matrix

variable {α S K F ι : Type}

theorem clipR_zero {clip : ℝ} (hc : 0 ≤ clip) : clipR clip 0 = 0 := by
  unfold clipR
  rw [max_eq_left (by linarith), min_eq_left hc]

/-- **C137 (complex arrays).** An entry of an array that no loss depends on keeps its initial value in a training with a new optimiser, in the last model and in the best one. -/
theorem C137_complex [DecidableEq ι] (c : Cfg α (ι → ℂ) S K F) (j : Nat) (i : ι) (lr : Nat → ℝ) (b1 b2 eps clip : ℝ) (hc : 0 ≤ clip) (hu : c.update = updateC lr b1 b2 eps clip)
    (L : Nat → Data α → S → K → List (ι → ℂ) → ℝ) (hL : ∀ e b st k (ps : List (ι → ℂ)) M z, L e b st k (ps.set j (Function.update M i z)) = L e b st k (ps.set j M))
    (hg : ∀ e b st k (ps : List (ι → ℂ)) M, ps[j]? = some M → ∀ g, (c.grad e b st k ps).1[(c.flags.take j).count true]? = some g →
      g i = gradC (fun Q => L e b st k (ps.set j Q)) M i)
    (hcb : ∀ k e (ps : List (ι → ℂ)), (c.callback k e ps).2[j]? = ps[j]?) (k : K) (adam : List (OptState (ι → ℂ))) (st : S) (rng : K)
    (t : TState (ι → ℂ) S K F) (hl : c.flags.length = adam.length) (h : run c k adam st rng = .ok t) (M : ι → ℂ) (ha : adam[j]? = some (initC M)) :
    (∃ x, t.inner.adam[j]? = some x ∧ x.params i = M i) ∧ ∃ x, t.best.inner.adam[j]? = some x ∧ x.params i = M i := by
  have hk : Kept c j fun a => a.params i = M i ∧ a.m i = 0 := by
    refine ⟨?_, fun a n h => h, hcb⟩
    intro epoch b s x g hx _ hI hd
    have hp : (s.adam.map (·.params))[j]? = some x.params := by rw [List.getElem?_map, hx]; rfl
    have h0 : g i = 0 := by
      rw [hg _ _ _ _ _ _ hp g hd]
      simp only [gradC, hL, deriv_const]
      simp
    rw [hu]
    simp only [updateC, h0, hI.1, hI.2, clipC, Complex.zero_re, Complex.zero_im, clipR_zero hc]
    simp
  obtain ⟨⟨x, h1, h2⟩, y, h3, h4⟩ := run_kept hk hl h ⟨initC M, ha, rfl, rfl⟩
  exact ⟨⟨x, h1, h2.1⟩, y, h3, h4.1⟩

/-- **C137 (real arrays).** The same for real arrays, with the optimiser for real and with the one for complex models. -/
theorem C137_real [DecidableEq ι] (c : Cfg α (ι → ℝ) S K F) (j : Nat) (i : ι) (lr : Nat → ℝ) (b1 b2 eps clip : ℝ) (hc : 0 ≤ clip)
    (hu : c.update = update lr b1 b2 eps clip ∨ c.update = updateRinC lr b1 b2 eps clip)
    (L : Nat → Data α → S → K → List (ι → ℝ) → ℝ) (hL : ∀ e b st k (ps : List (ι → ℝ)) M z, L e b st k (ps.set j (Function.update M i z)) = L e b st k (ps.set j M))
    (hg : ∀ e b st k (ps : List (ι → ℝ)) M, ps[j]? = some M → ∀ g, (c.grad e b st k ps).1[(c.flags.take j).count true]? = some g →
      g i = gradR (fun Q => L e b st k (ps.set j Q)) M i)
    (hcb : ∀ k e (ps : List (ι → ℝ)), (c.callback k e ps).2[j]? = ps[j]?) (k : K) (adam : List (OptState (ι → ℝ))) (st : S) (rng : K)
    (t : TState (ι → ℝ) S K F) (hl : c.flags.length = adam.length) (h : run c k adam st rng = .ok t) (M : ι → ℝ) (ha : adam[j]? = some (Adam.init M)) :
    (∃ x, t.inner.adam[j]? = some x ∧ x.params i = M i) ∧ ∃ x, t.best.inner.adam[j]? = some x ∧ x.params i = M i := by
  have hk : Kept c j fun a => a.params i = M i ∧ a.m i = 0 := by
    refine ⟨?_, fun a n h => h, hcb⟩
    intro epoch b s x g hx _ hI hd
    have hp : (s.adam.map (·.params))[j]? = some x.params := by rw [List.getElem?_map, hx]; rfl
    have h0 : g i = 0 := by
      rw [hg _ _ _ _ _ _ hp g hd]
      simp only [gradR, hL, deriv_const]
    rcases hu with hu | hu <;> rw [hu] <;> simp only [updateRinC, update, h0, hI.1, hI.2, clipR_zero hc] <;> simp
  obtain ⟨⟨x, h1, h2⟩, y, h3, h4⟩ := run_kept hk hl h ⟨Adam.init M, ha, rfl, rfl⟩
  exact ⟨⟨x, h1, h2.1⟩, y, h3, h4.1⟩

/-- **C137 (new optimiser).** With an optimiser that has gone other steps before, the same entry moves on with every step. -/
theorem C137_momentum (lr : Nat → ℝ) (b1 b2 eps clip x m v : ℝ) (hc : 0 ≤ clip) (hlr : lr 0 ≠ 0) (h1 : b1 < 1) (h2 : b1 ≠ 0) (he : 0 < eps) (hm : m ≠ 0) :
    (update lr b1 b2 eps clip (fun _ : Unit => 0) ⟨fun _ => x, fun _ => m, fun _ => v, 0⟩).params () ≠ x := by
  simp only [update, clipR_zero hc, mul_zero, add_zero, zero_add, pow_one]
  have h3 : 1 - b1 ≠ 0 := by linarith
  have h4 : Real.sqrt ((b2 * v + (1 - b2) * 0 ^ 2) / (1 - b2)) + eps ≠ 0 := (add_pos_of_nonneg_of_pos (Real.sqrt_nonneg _) he).ne'
  intro h
  have h5 : lr 0 * (b1 * m / (1 - b1)) / (Real.sqrt ((b2 * v + (1 - b2) * 0 ^ 2) / (1 - b2)) + eps) = 0 := by linarith
  exact div_ne_zero (mul_ne_zero hlr (div_ne_zero (mul_ne_zero h2 hm) h3)) h4 h5

variable {n p q l : Nat}

/-- The matrices that an array of shape `(p + 1, n, n)` holds. -/
def matricesOf (Q : List Nat → ℂ) : Fin (p + 1) → Mat n n := fun a => .of fun i j => Q [a, i, j]

/-- **C137 (observable models that read out all states).** Whatever is fitted with whatever loss and data: if all states are read out, as with the default `num_eig=None`, then a training of an observable model returns the matrices it
started with; only observables and bias are trained. (`D` and `β` say where the other arrays hold the observables and the bias, `xs` the features in a batch.) -/
theorem C137_observables (c : Cfg α (List Nat → ℂ) S K F) (lr : Nat → ℝ) (b1 b2 eps clip : ℝ) (hc : 0 ≤ clip) (hu : c.update = updateC lr b1 b2 eps clip)
    (eigh : Mat n n → List ℝ × List (Fin n → ℂ)) (heigh : IsEigh eigh) (nrm : Mat n n → ℝ) (cfg : Eigen.Cfg) {part : Part} {o : Order} (hw : parseWhich cfg.which = .ok (part, o))
    (hk : cfg.numEig.getD n = n) (s : ℝ) (useExp centered : Bool) (D : List (List Nat → ℂ) → Fin q → Fin l → Mat n n) (β : List (List Nat → ℂ) → Option (Fin q → ℝ))
    (xs : Data α → List (Fin p → ℝ)) (loss : Nat → Data α → S → K → List (List Nat → ℂ) → List (Except PyErr (Tree (List (Fin q → ℝ)))) → ℝ)
    (hg : ∀ e b st k M rest g, (c.grad e b st k (M :: rest)).1[0]? = some g →
      g = gradC (fun Q => loss e b st k rest ((xs b).map fun x =>
        observableCall eigh nrm cfg true s useExp centered (List.ofFn (matricesOf (p := p) Q)) (D rest) (β rest) (.leaf [sample x]))) M)
    (hcb : ∀ k e (ps : List (List Nat → ℂ)), (c.callback k e ps).2[0]? = ps[0]?) (k : K) (M : List Nat → ℂ) (rest : List (OptState (List Nat → ℂ))) (st : S) (rng : K)
    (t : TState (List Nat → ℂ) S K F) (hl : c.flags.length = (initC M :: rest).length) (h : run c k (initC M :: rest) st rng = .ok t) :
    (∃ x, t.inner.adam[0]? = some x ∧ x.params = M) ∧ ∃ x, t.best.inner.adam[0]? = some x ∧ x.params = M := by
  have hcall : ∀ (Q : List Nat → ℂ) rest (x : Fin p → ℝ), observableCall eigh nrm cfg true s useExp centered (List.ofFn (matricesOf (p := p) Q)) (D rest) (β rest) (.leaf [sample x]) =
      .ok (.leaf [fun k => (if useExp then ∑ m, (D rest k m).trace.re else ∑ m, sumSq (herm (D rest k m))) + offset nrm centered (D rest) (β rest) k]) := by
    intro Q rest x
    rw [← C134_all_states eigh heigh nrm cfg hw hk s useExp centered (some (matricesOf Q 0)) (fun a : Fin p => matricesOf Q a.succ) (D rest) (β rest) x, List.ofFn_succ]
    rfl
  have key : ∀ i, (∃ x, t.inner.adam[0]? = some x ∧ x.params i = M i) ∧ ∃ x, t.best.inner.adam[0]? = some x ∧ x.params i = M i := fun i => by
    refine C137_complex c 0 i lr b1 b2 eps clip hc hu (fun e b st k ps => match ps with
      | [] => 0
      | Q :: rest => loss e b st k rest ((xs b).map fun x => observableCall eigh nrm cfg true s useExp centered (List.ofFn (matricesOf (p := p) Q)) (D rest) (β rest) (.leaf [sample x])))
      ?_ ?_ hcb k _ st rng t hl h M rfl
    · intro e b st k ps N z
      cases ps with
      | nil => rfl
      | cons P rest => simp only [List.set_cons_zero, hcall]
    · intro e b st k ps N hN g hgr
      cases ps with
      | nil => cases hN
      | cons P rest =>
        cases hN
        rw [hg e b st k _ rest g (by simpa using hgr)]
        rfl
  obtain ⟨⟨x, hx, -⟩, y, hy, -⟩ := key []
  refine ⟨⟨x, hx, funext fun i => ?_⟩, y, hy, funext fun i => ?_⟩
  · obtain ⟨⟨x', hx', e⟩, -⟩ := key i
    rw [hx] at hx'
    cases hx'
    exact e
  · obtain ⟨-, y', hy', e⟩ := key i
    rw [hy] at hy'
    cases hy'
    exact e

/-! ## A training to which this applies -/

/-- The loss of the example: the sum of the squared predictions for the samples, from the array of matrices and the array of one observable. -/
noncomputable def readLoss (M D : List Nat → ℂ) (xs : List (List ℝ)) : ℝ :=
  ((xs.map fun x => observableCall someEigh (fun _ => 0) ⟨Option.none, "LM".toList⟩ true 0 true false (List.ofFn (matricesOf (p := 1) (n := 2) M))
    (fun (_ : Fin 1) (_ : Fin 1) => Matrix.of fun i j => D [i, j]) Option.none (.leaf [sample fun i : Fin 1 => x.getD i 0])).map fun r =>
      match r with
      | .ok (.leaf [y]) => y 0 ^ 2
      | _ => 0).sum

/-- A training of a model with matrices of size two, all states and one observable, on two samples. -/
noncomputable def readCfg : Train.Cfg (List ℝ) (List Nat → ℂ) Unit Nat (Option ℝ) where
  perm _ n := List.range n
  splitN _ n := List.range n
  split k := (k + 1, k + 7)
  grad _ b s _ ps := match ps with
    | [M, D] => ([gradC (fun Q => readLoss Q D (b.1.headD [])) M, gradC (fun Q => readLoss M Q (b.1.headD [])) D], s)
    | _ => ([], s)
  valLoss _ b _ _ ps := match ps with
    | [M, D] => some (readLoss M D (b.1.headD []))
    | _ => Option.none
  update := updateC (fun _ => 1 / 100) 0.9 0.999 1e-8 1e3
  callback k _ ps := (k, ps)
  verbose := false
  interrupted _ := false
  flags := [true, true]
  train := ⟨[[[1], [2]]], some [[[3], [4]]], Option.none⟩
  val := ⟨[[[1], [2]]], some [[[3], [4]]], Option.none⟩
  batchSize := 1
  valBatchSize := 2
  epochs := 10
  target := some 0
  patience := 5
  minDelta := some 0
  lt a b := match a, b with
    | some r, some q => decide (r < q)
    | _, _ => false
  le a b := match a, b with
    | some r, some q => decide (r ≤ q)
    | _, _ => false
  sub a b := match a, b with
    | some r, some q => some (r - q)
    | _, _ => Option.none
  add a b := match a, b with
    | some r, some q => some (r + q)
    | _, _ => Option.none
  divNat a n := a.map (· / n)
  zero := some 0

/-- It runs, and returns the initial matrices, whatever they are. -/
example (M D : List Nat → ℂ) : ∃ t, run readCfg 0 [initC M, initC D] () 0 = .ok t ∧ ∃ x, t.best.inner.adam[0]? = some x ∧ x.params = M := by
  obtain ⟨t, ht⟩ : ∃ t, run readCfg 0 [initC M, initC D] () 0 = .ok t := by
    refine C31_total readCfg 2 2 (fun _ _ => List.Perm.refl _)
      ⟨⟨by simp [readCfg], by simp [readCfg]⟩, fun y hy => by cases hy; exact ⟨by simp, by simp⟩, fun u hu => by simp [readCfg] at hu⟩
      ⟨⟨by simp [readCfg], by simp [readCfg]⟩, fun y hy => by cases hy; exact ⟨by simp, by simp⟩, fun u hu => by simp [readCfg] at hu⟩
      Nat.one_pos Nat.two_pos (fun e b s k ps hps => ?_) (fun _ _ _ _ => rfl) 0 [initC M, initC D] () 0 rfl
    match ps, hps with
    | [P, Q], _ => simp [readCfg]
  refine ⟨t, ht, (C137_observables (n := 2) (p := 1) (q := 1) (l := 1) readCfg (fun _ => 1 / 100) 0.9 0.999 1e-8 1e3 (by norm_num) rfl someEigh someEigh_ok (fun _ => 0) ⟨Option.none, "LM".toList⟩ (part := .largest) (o := .magnitude) rfl rfl 0 true false
    (fun rest _ _ => Matrix.of fun i j => rest.headD 0 [i, j]) (fun _ => Option.none) (fun b => (b.1.headD []).map fun x i => x.getD i 0)
    (fun _ _ _ _ rest rs => match rest with
      | [_] => (rs.map fun r => match r with
        | .ok (.leaf [y]) => y 0 ^ 2
        | _ => 0).sum
      | _ => 0) ?_ (fun _ _ _ => rfl) 0 M [initC D] () 0 t rfl ht).2⟩
  intro e b st k N rest g hg
  match rest with
  | [] => simp [readCfg] at hg
  | [D'] =>
    simp only [readCfg, List.getElem?_cons_zero, Option.some.injEq] at hg
    rw [← hg]
    congr 1
    funext Q
    simp only [readLoss, List.map_map]
    rfl
  | _ :: _ :: _ => simp [readCfg] at hg

end Verif.Props
