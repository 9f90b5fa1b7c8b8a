import Verif.Props.Pmm
import Verif.Lemmas.TreeDec
import Verif.Lemmas.TreeBind

/-!
# C117: features of parametric matrix models may be reordered, rescaled and shifted
-/

namespace Verif.Props
open Tree Hermitian Eigen Pmm PmmSpec
open scoped Matrix

variable {n p : Nat}

/-- If two matrix modules agree sample by sample, they agree on data. -/
theorem affineCallable_congr {X : Type} {b b' : Bool} {s s' : ℝ} {Ms Ms' : List (Mat n n)} {u v : X → List ℂ}
    (h : ∀ x, affine b s (Ms.map hermPart) (u x) = affine b' s' (Ms'.map hermPart) (v x)) (d : Tree (List X)) :
    affineCallable b s Ms (map (fun xs => xs.map u) d) = affineCallable b' s' Ms' (map (fun xs => xs.map v) d) := by
  unfold affineCallable
  rw [norm_map, norm_map, mapM_comp, mapM_comp]
  congr 1
  funext xs
  rw [List.mapM_map, List.mapM_map]
  rw [show affine b s (Ms.map hermPart) ∘ u = affine b' s' (Ms'.map hermPart) ∘ v from funext h]

theorem eigenvalueCall_congr {ev : Mat n n → List ℝ} {c : Eigen.Cfg} {b b' : Bool} {s s' : ℝ} {Ms Ms' : List (Mat n n)} {d d' : Tree (List (List ℂ))}
    (h : affineCallable b s Ms d = affineCallable b' s' Ms' d') : eigenvalueCall ev c b s Ms d = eigenvalueCall ev c b' s' Ms' d' := by
  unfold eigenvalueCall
  rw [h]

theorem observableCall_congr {q l : Nat} {eigh : Mat n n → List ℝ × List (Fin n → ℂ)} {nrm : Mat n n → ℝ} {c : Eigen.Cfg} {b b' : Bool} {s s' : ℝ} {useExp centered : Bool}
    {Ms Ms' : List (Mat n n)} {Ds : Fin q → Fin l → Mat n n} {bb : Option (Fin q → ℝ)} {d d' : Tree (List (List ℂ))}
    (h : affineCallable b s Ms d = affineCallable b' s' Ms' d') :
    observableCall eigh nrm c b s useExp centered Ms Ds bb d = observableCall eigh nrm c b' s' useExp centered Ms' Ds bb d' := by
  unfold observableCall
  rw [h]

/-- A sample of a model with bias is a sample of a model without, with a further feature that is 1. -/
theorem affine_one (s : ℝ) (M0 : Mat n n) (Ms : List (Mat n n)) (x : List ℂ) : affine true s (M0 :: Ms) x = affine false s (M0 :: Ms) (1 :: x) := by
  have hc : contract (1 :: x) (M0 :: Ms) = M0 + contract x Ms := by
    ext j k
    simp [contract]
  simp only [affine, if_true, Bool.false_eq_true, if_false, List.length_cons, hc]
  by_cases h : x.length = Ms.length
  · simp only [h, if_true]
  · rw [if_neg h, if_neg (by omega)]

/-- **C117** A bias term is a feature that is always 1: the models make the same predictions, and raise for the same data. This holds with smoothing as well. -/
theorem C117_bias {q l : Nat} (ev : Mat n n → List ℝ) (eigh : Mat n n → List ℝ × List (Fin n → ℂ)) (nrm : Mat n n → ℝ) (c : Eigen.Cfg) (s : ℝ) (useExp centered : Bool)
    (Ds : Fin q → Fin l → Mat n n) (bb : Option (Fin q → ℝ)) (M0 : Mat n n) (Ms : List (Mat n n)) (d : Tree (List (List ℂ))) :
    eigenvalueCall ev c true s (M0 :: Ms) d = eigenvalueCall ev c false s (M0 :: Ms) (map (fun xs => xs.map (1 :: ·)) d) ∧
    observableCall eigh nrm c true s useExp centered (M0 :: Ms) Ds bb d = observableCall eigh nrm c false s useExp centered (M0 :: Ms) Ds bb (map (fun xs => xs.map (1 :: ·)) d) := by
  have h := affineCallable_congr (b := true) (b' := false) (s := s) (s' := s) (Ms := M0 :: Ms) (Ms' := M0 :: Ms) (u := id) (v := fun x => 1 :: x)
    (fun x => affine_one s (hermPart M0) (Ms.map hermPart) x) d
  have e : map (fun xs : List (List ℂ) => xs.map id) d = d := by simp only [List.map_id]; exact map_id d
  rw [e] at h
  exact ⟨eigenvalueCall_congr h, observableCall_congr h⟩

/-- **C117** The order of the features does not matter without smoothing, if the matrices are reordered with them. -/
theorem C117_reorder {q l : Nat} (ev : Mat n n → List ℝ) (eigh : Mat n n → List ℝ × List (Fin n → ℂ)) (nrm : Mat n n → ℝ) (c : Eigen.Cfg) (useExp centered : Bool)
    (Ds : Fin q → Fin l → Mat n n) (bb : Option (Fin q → ℝ)) (M0 : Option (Mat n n)) (M : Fin p → Mat n n) (σ : Equiv.Perm (Fin p)) (d : Tree (List (Fin p → ℝ))) :
    eigenvalueCall ev c M0.isSome 0 (M0.toList ++ List.ofFn fun i => M (σ i)) (map (fun xs => xs.map fun x => sample fun i => x (σ i)) d)
      = eigenvalueCall ev c M0.isSome 0 (M0.toList ++ List.ofFn M) (map (fun xs => xs.map sample) d) ∧
    observableCall eigh nrm c M0.isSome 0 useExp centered (M0.toList ++ List.ofFn fun i => M (σ i)) Ds bb (map (fun xs => xs.map fun x => sample fun i => x (σ i)) d)
      = observableCall eigh nrm c M0.isSome 0 useExp centered (M0.toList ++ List.ofFn M) Ds bb (map (fun xs => xs.map sample) d) := by
  have h : ∀ x : Fin p → ℝ, affine M0.isSome 0 ((M0.toList ++ List.ofFn fun i => M (σ i)).map hermPart) (sample fun i => x (σ i))
      = affine M0.isSome 0 ((M0.toList ++ List.ofFn M).map hermPart) (sample x) := by
    intro x
    rw [affine_model, affine_model]
    simp only [modelMatrix, Complex.ofReal_zero, zero_smul, add_zero]
    rw [Equiv.sum_comp σ fun i => (x i : ℂ) • herm (M i)]
  exact ⟨eigenvalueCall_congr (affineCallable_congr h d), observableCall_congr (affineCallable_congr h d)⟩

theorem herm_add (A B : Mat n n) : herm (A + B) = herm A + herm B := by
  unfold herm
  rw [Matrix.conjTranspose_add]
  module

theorem herm_smul (a : ℝ) (A : Mat n n) : herm ((a : ℂ) • A) = (a : ℂ) • herm A := by
  unfold herm
  rw [Matrix.conjTranspose_smul]
  simp only [Complex.star_def, Complex.conj_ofReal]
  module

theorem herm_sum {p : Nat} (f : Fin p → Mat n n) : herm (∑ i, f i) = ∑ i, herm (f i) := by
  unfold herm
  rw [Matrix.conjTranspose_sum, ← Finset.sum_add_distrib, Finset.smul_sum]

/-- **C117** Rescaled and shifted features are the features of another model without smoothing: nothing that can be predicted from the features is lost or gained. -/
theorem C117_rescale {q l : Nat} (ev : Mat n n → List ℝ) (eigh : Mat n n → List ℝ × List (Fin n → ℂ)) (nrm : Mat n n → ℝ) (c : Eigen.Cfg) (useExp centered : Bool)
    (Ds : Fin q → Fin l → Mat n n) (bb : Option (Fin q → ℝ)) (M0 : Mat n n) (M : Fin p → Mat n n) (a t : Fin p → ℝ) (d : Tree (List (Fin p → ℝ))) :
    eigenvalueCall ev c true 0 (M0 :: List.ofFn M) (map (fun xs => xs.map fun x => sample fun i => a i * x i + t i) d)
      = eigenvalueCall ev c true 0 ((M0 + ∑ i, (t i : ℂ) • M i) :: List.ofFn fun i => (a i : ℂ) • M i) (map (fun xs => xs.map sample) d) ∧
    observableCall eigh nrm c true 0 useExp centered (M0 :: List.ofFn M) Ds bb (map (fun xs => xs.map fun x => sample fun i => a i * x i + t i) d)
      = observableCall eigh nrm c true 0 useExp centered ((M0 + ∑ i, (t i : ℂ) • M i) :: List.ofFn fun i => (a i : ℂ) • M i) Ds bb (map (fun xs => xs.map sample) d) := by
  have h : ∀ x : Fin p → ℝ, affine true 0 ((M0 :: List.ofFn M).map hermPart) (sample fun i => a i * x i + t i)
      = affine true 0 (((M0 + ∑ i, (t i : ℂ) • M i) :: List.ofFn fun i => (a i : ℂ) • M i).map hermPart) (sample x) := by
    intro x
    have h1 := affine_model 0 (some M0) M fun i => a i * x i + t i
    have h2 := affine_model 0 (some (M0 + ∑ i, (t i : ℂ) • M i)) (fun i => (a i : ℂ) • M i) x
    refine h1.trans (Eq.trans ?_ h2.symm)
    simp only [modelMatrix, Complex.ofReal_zero, zero_smul, add_zero, Option.elim_some, herm_add, herm_sum, herm_smul, add_assoc]
    rw [← Finset.sum_add_distrib]
    congr 2
    refine Finset.sum_congr rfl fun i _ => ?_
    push_cast
    module
  exact ⟨eigenvalueCall_congr (affineCallable_congr h d), observableCall_congr (affineCallable_congr h d)⟩

/-! ### Energies -/

theorem mapM_list_map {A B C : Type} (F : A → Except PyErr B) (g : B → C) : ∀ l : List A, l.mapM (fun a => (F a).map g) = (l.mapM F).map (List.map g)
  | [] => rfl
  | a :: l => by
    rw [List.mapM_cons, List.mapM_cons, mapM_list_map F g l]
    cases F a with
    | error e => rfl
    | ok b => cases l.mapM F <;> rfl

theorem values_map {μ : Type} {e e' : μ → List ℝ} {c : Eigen.Cfg} {φ : ℝ → ℝ} (h : ∀ x, selectValues (e' x) c.numEig c.which = (selectValues (e x) c.numEig c.which).map (List.map φ))
    (d : Tree (List μ)) : valuesCallable e' c d = (valuesCallable e c d).map (map fun rs => rs.map (List.map φ)) := by
  unfold valuesCallable
  rw [← mapM_map]
  congr 1
  funext xs
  rw [show (fun A => selectValues (e' A) c.numEig c.which) = fun A => (selectValues (e A) c.numEig c.which).map (List.map φ) from funext h, mapM_list_map]
  cases xs.mapM fun A => selectValues (e A) c.numEig c.which <;> rfl

theorem values_comp {μ ν : Type} (e : ν → List ℝ) (c : Eigen.Cfg) (g : μ → ν) (d : Tree (List μ)) :
    valuesCallable e c (map (fun xs => xs.map g) d) = valuesCallable (fun x => e (g x)) c d := by
  unfold valuesCallable
  rw [norm_map, mapM_comp]
  congr 1
  funext xs
  rw [List.mapM_map]
  rfl

theorem mapM_list_ok {A B : Type} (g : A → B) : ∀ l : List A, l.mapM (fun a => (Except.ok (g a) : Except PyErr B)) = .ok (l.map g)
  | [] => rfl
  | a :: l => by rw [List.mapM_cons, mapM_list_ok g l]; rfl

/-- A model on data: the eigenvalues of the model matrices. -/
theorem call_model (ev : Mat n n → List ℝ) (c : Eigen.Cfg) (s : ℝ) (M0 : Option (Mat n n)) (M : Fin p → Mat n n) (d : Tree (List (Fin p → ℝ))) :
    eigenvalueCall ev c M0.isSome s (M0.toList ++ List.ofFn M) (map (fun xs => xs.map sample) d) = valuesCallable (fun x => ev (modelMatrix s M0 M x)) c d.norm := by
  have h : affineCallable M0.isSome s (M0.toList ++ List.ofFn M) (map (fun xs => xs.map sample) d) = .ok (map (fun xs => xs.map (modelMatrix s M0 M)) d.norm) := by
    unfold affineCallable
    rw [norm_map, mapM_comp, ← mapM_pure]
    congr 1
    funext xs
    rw [List.mapM_map, show affine M0.isSome s ((M0.toList ++ List.ofFn M).map hermPart) ∘ sample = fun x => .ok (modelMatrix s M0 M x) from funext fun x => affine_model s M0 M x, mapM_list_ok]
  unfold eigenvalueCall
  rw [h]
  exact values_comp ev c (modelMatrix s M0 M) d.norm

/-- The eigenvalues of `a A + e`. -/
theorem ev_affine {ev : Mat n n → List ℝ} (hev : IsEigvalsh ev) {A : Mat n n} (hA : A.IsHermitian) {a e : ℝ} (ha : 0 < a) :
    ev ((a : ℂ) • A + (e : ℂ) • 1) = (ev A).map fun x => a * x + e := by
  have hB : ((a : ℂ) • A + (e : ℂ) • (1 : Mat n n)).IsHermitian := by
    rw [Matrix.IsHermitian, Matrix.conjTranspose_add, Matrix.conjTranspose_smul, Matrix.conjTranspose_smul, hA.eq, Matrix.conjTranspose_one]
    simp
  obtain ⟨U, l, h1, h2, h3, h4⟩ := exists_diag hA
  have hd : (a : ℂ) • A + (e : ℂ) • (1 : Mat n n) = U * Matrix.diagonal (fun i => ((a * l i + e : ℝ) : ℂ)) * Uᴴ := by
    have hD : (Matrix.diagonal (fun i => ((a * l i + e : ℝ) : ℂ)) : Mat n n) = (a : ℂ) • Matrix.diagonal (fun i => (l i : ℂ)) + (e : ℂ) • 1 := by
      ext i j
      by_cases hij : i = j
      · subst hij; simp
      · simp [hij]
    rw [hD, Matrix.mul_add, Matrix.add_mul, Matrix.mul_smul, Matrix.smul_mul, Matrix.mul_smul, Matrix.smul_mul, Matrix.mul_one, h1, ← h3]
  have hr : ((a : ℂ) • A + (e : ℂ) • (1 : Mat n n)).charpoly.roots = Multiset.map (fun i => ((a * l i + e : ℝ) : ℂ)) Finset.univ.val := by
    have hp : (U * Matrix.diagonal (fun i => ((a * l i + e : ℝ) : ℂ)) * Uᴴ).charpoly = (Matrix.diagonal (fun i => ((a * l i + e : ℝ) : ℂ)) : Mat n n).charpoly := by
      rw [Matrix.charpoly_mul_comm, ← Matrix.mul_assoc, h2, Matrix.one_mul]
    have e' : (∏ i : Fin n, (Polynomial.X - Polynomial.C ((a * l i + e : ℝ) : ℂ))) =
        ((Multiset.map (fun i : Fin n => ((a * l i + e : ℝ) : ℂ)) Finset.univ.val).map fun a => Polynomial.X - Polynomial.C a).prod := by
      rw [Multiset.map_map]; rfl
    rw [hd, hp, Matrix.charpoly_diagonal, e', Polynomial.roots_multiset_prod_X_sub_C]
  have p1 := ev_perm hev hB hr
  have p2 := ev_perm hev hA h4
  have hperm : (ev ((a : ℂ) • A + (e : ℂ) • 1)).Perm ((ev A).map fun x => a * x + e) := by
    rw [← Multiset.coe_eq_coe, p1, ← Multiset.map_coe, p2, Multiset.map_map]
    rfl
  refine hperm.eq_of_pairwise (fun _ _ _ _ => le_antisymm) (hev _ hB).1 ?_
  rw [List.pairwise_map]
  exact (hev A hA).1.imp fun h => by nlinarith

theorem modelMatrix_some (s : ℝ) (M0 : Mat n n) (M : Fin p → Mat n n) (x : Fin p → ℝ) : modelMatrix s (some M0) M x =
    herm M0 + ∑ i, (x i : ℂ) • herm (M i) + (s : ℂ) • commutators (fun i : Fin (p + 1) => herm ((Fin.cons M0 M : Fin (p + 1) → Mat n n) i)) := by
  unfold modelMatrix
  rw [commutators_list, ← C55_sum, ← map_hermPart, List.ofFn_succ]
  rfl

theorem commutators_scaled {k : Nat} (a : ℂ) (M N : Fin k → Mat n n) (h : ∀ i j, N i * N j - N j * N i = (a * a) • (M i * M j - M j * M i)) :
    commutators N = (a * a) • commutators M := by
  unfold commutators
  rw [smul_comm (a * a) Complex.I, Finset.smul_sum (r := a * a)]
  refine congrArg (fun z : Mat n n => Complex.I • z) (Finset.sum_congr rfl fun i _ => ?_)
  rw [Finset.smul_sum]
  refine Finset.sum_congr rfl fun j _ => ?_
  split
  · exact h i j
  · rw [smul_zero]

/-- **C117** Units and zero of the energy: with all matrices multiplied by a positive number (and the smoothing divided by it) and a multiple of the identity added to the bias, the predictions are
multiplied and shifted likewise. This holds with smoothing, for orderings by value. -/
theorem C117_energy (ev : Mat n n → List ℝ) (hev : IsEigvalsh ev) (c : Eigen.Cfg) {part : Part} (hw : parseWhich c.which = .ok (part, .algebraic)) (hk : c.numEig.getD n ≤ n) (s : ℝ)
    (M0 : Mat n n) (M : Fin p → Mat n n) (a e : ℝ) (ha : 0 < a) (d : Tree (List (Fin p → ℝ))) :
    eigenvalueCall ev c true (s / a) (((a : ℂ) • M0 + (e : ℂ) • 1) :: List.ofFn fun i => (a : ℂ) • M i) (map (fun xs => xs.map sample) d)
      = (eigenvalueCall ev c true s (M0 :: List.ofFn M) (map (fun xs => xs.map sample) d)).map (map fun rs => rs.map (List.map fun r => a * r + e)) := by
  have h1 := call_model ev c s (some M0) M d
  have h2 := call_model ev c (s / a) (some ((a : ℂ) • M0 + (e : ℂ) • 1)) (fun i => (a : ℂ) • M i) d
  refine h2.trans (Eq.trans ?_ (congrArg (Except.map _) h1.symm))
  refine values_map (fun x => ?_) _
  have hm : modelMatrix (s / a) (some ((a : ℂ) • M0 + (e : ℂ) • 1)) (fun i => (a : ℂ) • M i) x = (a : ℂ) • modelMatrix s (some M0) M x + (e : ℂ) • 1 := by
    have h1e : herm ((e : ℂ) • (1 : Mat n n)) = (e : ℂ) • 1 := by
      rw [herm_smul]
      unfold herm
      rw [Matrix.conjTranspose_one]
      module
    have hC : commutators (fun i : Fin (p + 1) => herm ((Fin.cons ((a : ℂ) • M0 + (e : ℂ) • 1) fun i => (a : ℂ) • M i : Fin (p + 1) → Mat n n) i))
        = ((a : ℂ) * a) • commutators (fun i : Fin (p + 1) => herm ((Fin.cons M0 M : Fin (p + 1) → Mat n n) i)) := by
      have hN : ∀ i : Fin (p + 1), ∃ z : ℂ, herm ((Fin.cons ((a : ℂ) • M0 + (e : ℂ) • 1) fun i => (a : ℂ) • M i : Fin (p + 1) → Mat n n) i)
          = (a : ℂ) • herm ((Fin.cons M0 M : Fin (p + 1) → Mat n n) i) + z • 1 := by
        intro i
        refine Fin.cases ⟨e, ?_⟩ (fun j => ⟨0, ?_⟩) i
        · simp only [Fin.cons_zero, herm_add, herm_smul, h1e]
        · simp only [Fin.cons_succ, herm_smul, zero_smul, add_zero]
      refine commutators_scaled _ _ _ fun i j => ?_
      obtain ⟨z, hz⟩ := hN i
      obtain ⟨w, hw⟩ := hN j
      rw [hz, hw]
      simp only [Matrix.add_mul, Matrix.mul_add, Matrix.smul_mul, Matrix.mul_smul, Matrix.one_mul, Matrix.mul_one]
      module
    rw [modelMatrix_some, modelMatrix_some, hC]
    simp only [herm_add, herm_smul, h1e]
    have hsa : ((s / a : ℝ) : ℂ) * ((a : ℂ) * a) = a * s := by
      have : (a : ℂ) ≠ 0 := by exact_mod_cast ha.ne'
      push_cast
      field_simp
    rw [smul_smul, hsa, smul_add, smul_add, Finset.smul_sum, show (∑ i, (x i : ℂ) • (a : ℂ) • herm (M i)) = ∑ i, (a : ℂ) • (x i : ℂ) • herm (M i) from
      Finset.sum_congr rfl fun i _ => smul_comm _ _ _]
    module
  rw [hm, ev_affine hev (modelMatrix_isHermitian s (some M0) M x) ha]
  obtain ⟨idx, hi, hs, -⟩ := select_sorted n hk hw
  have hA := modelMatrix_isHermitian s (some M0) M x
  rw [hs _ (hev _ hA).1 (ev_length hev hA), hs _ (by rw [List.pairwise_map]; exact (hev _ hA).1.imp fun h => by nlinarith) (by rw [List.length_map]; exact ev_length hev hA)]
  simp only [Except.map, List.map_map]
  congr 1
  refine List.map_congr_left fun i hii => ?_
  have := hi i hii
  rw [← ev_length hev hA] at this
  simp [List.getD_eq_getElem?_getD, List.getElem?_eq_getElem this]

/-! ### With smoothing the order of the features matters -/

/-- The counterexample: the Pauli matrices. -/
def pauliX : Mat 2 2 := !![0, 1; 1, 0]
/-- The counterexample: the Pauli matrices. -/
def pauliY : Mat 2 2 := !![0, -Complex.I; Complex.I, 0]
/-- The counterexample: the Pauli matrices. -/
def pauliZ : Mat 2 2 := !![1, 0; 0, -1]

theorem herm_pauli (a b : ℝ) : herm ((a : ℂ) • pauliX + (b : ℂ) • pauliY) = (a : ℂ) • pauliX + (b : ℂ) • pauliY := by
  unfold herm pauliX pauliY
  ext i j
  fin_cases i <;> fin_cases j <;> simp <;> ring

theorem herm_pauliZ : herm pauliZ = pauliZ := by
  unfold herm pauliZ
  ext i j
  fin_cases i <;> fin_cases j <;> simp <;> ring

/-- The matrices of the counterexample: `x`, `y` and `-x - y` (or with `x` and `y` exchanged). -/
noncomputable def threePauli (b : Bool) : Fin 3 → Mat 2 2 := fun i => if b then ![pauliX, pauliY, -pauliX - pauliY] i else ![pauliY, pauliX, -pauliX - pauliY] i

theorem commutators_four (A B C D : Mat 2 2) : commutators ![A, B, C, D] =
    Complex.I • ((B * A - A * B) + (C * A - A * C) + (C * B - B * C) + (D * A - A * D) + (D * B - B * D) + (D * C - C * D)) := by
  unfold commutators
  congr 1
  simp only [Fin.sum_univ_four]
  simp
  abel

theorem threePauli_matrix (b : Bool) : modelMatrix 1 (some pauliZ) (threePauli b) (fun _ => 0) = Matrix.diagonal fun i => (((if b then ![3, -3] else ![-1, 1]) i : ℝ) : ℂ) := by
  have hx : herm pauliX = pauliX := by simpa using herm_pauli 1 0
  have hy : herm pauliY = pauliY := by simpa using herm_pauli 0 1
  have hxy : herm (-pauliX - pauliY) = -pauliX - pauliY := by
    have := herm_pauli (-1) (-1)
    simpa [sub_eq_add_neg] using this
  rw [modelMatrix_some]
  cases b
  · have h : (fun i : Fin (3 + 1) => herm ((Fin.cons pauliZ (threePauli false) : Fin (3 + 1) → Mat 2 2) i)) = ![pauliZ, pauliY, pauliX, -pauliX - pauliY] := by
      funext i
      fin_cases i
      · exact herm_pauliZ
      · exact hy
      · exact hx
      · exact hxy
    rw [h, commutators_four, herm_pauliZ]
    ext i j
    unfold pauliX pauliY pauliZ
    fin_cases i <;> fin_cases j <;> simp <;> ring_nf <;> simp [Complex.I_sq] <;> ring
  · have h : (fun i : Fin (3 + 1) => herm ((Fin.cons pauliZ (threePauli true) : Fin (3 + 1) → Mat 2 2) i)) = ![pauliZ, pauliX, pauliY, -pauliX - pauliY] := by
      funext i
      fin_cases i
      · exact herm_pauliZ
      · exact hx
      · exact hy
      · exact hxy
    rw [h, commutators_four, herm_pauliZ]
    ext i j
    unfold pauliX pauliY pauliZ
    fin_cases i <;> fin_cases j <;> simp <;> ring_nf <;> simp [Complex.I_sq] <;> ring

/-- **C117** is false with smoothing: exchanging two features together with their matrices changes the prediction from 3 to 1. -/
theorem C117_smoothing_refuted (ev : Mat 2 2 → List ℝ) (hev : IsEigvalsh ev) :
    eigenvalueCall ev ⟨some 1, "LA".toList⟩ true 1 [pauliZ, pauliX, pauliY, -pauliX - pauliY] (.leaf [[0, 0, 0]]) = .ok (.leaf [[3]]) ∧
    eigenvalueCall ev ⟨some 1, "LA".toList⟩ true 1 [pauliZ, pauliY, pauliX, -pauliX - pauliY] (.leaf [[0, 0, 0]]) = .ok (.leaf [[1]]) := by
  have hw : parseWhich "LA".toList = .ok (.largest, .algebraic) := by rfl
  have key : ∀ b : Bool, eigenvalueCall ev ⟨some 1, "LA".toList⟩ true 1 (pauliZ :: List.ofFn (threePauli b)) (.leaf [sample fun _ : Fin 3 => 0])
      = .ok (.leaf [[(ev (Matrix.diagonal fun i => (((if b then ![3, -3] else ![-1, 1]) i : ℝ) : ℂ))).getD 1 0]]) := by
    intro b
    obtain ⟨idx, -, h2, h3⟩ := call_sorted ev hev ⟨some 1, "LA".toList⟩ hw (by decide) 1 (some pauliZ) (threePauli b)
    obtain rfl := (h3 rfl).2 rfl
    have := h2 fun _ => 0
    rw [threePauli_matrix] at this
    exact this
  have hs : sample (fun _ : Fin 3 => (0 : ℝ)) = [0, 0, 0] := by simp [sample, List.ofFn_succ]
  have hd : ∀ d : Fin 2 → ℝ, (Matrix.diagonal fun i => (d i : ℂ) : Mat 2 2).IsHermitian := fun d => by
    rw [Matrix.IsHermitian, Matrix.diagonal_conjTranspose]
    congr 1
    funext i
    simp
  refine ⟨?_, ?_⟩
  · have h := key true
    rw [hs] at h
    have e : ev (Matrix.diagonal fun i => ((![3, -3] i : ℝ) : ℂ)) = List.ofFn ![-3, 3] := by
      rw [← ev_diagonal hev ![-3, 3] (by simp [List.ofFn_succ])]
      refine ev_charpoly hev (hd _) (hd _) ?_
      rw [Matrix.charpoly_diagonal, Matrix.charpoly_diagonal, Fin.prod_univ_two, Fin.prod_univ_two]
      simp [mul_comm]
    simp only [if_true] at h
    rw [e] at h
    simpa [List.ofFn_succ, threePauli] using h
  · have h := key false
    rw [hs] at h
    have e : ev (Matrix.diagonal fun i => ((![-1, 1] i : ℝ) : ℂ)) = List.ofFn ![-1, 1] := ev_diagonal hev ![-1, 1] (by simp [List.ofFn_succ])
    simp only [Bool.false_eq_true, if_false] at h
    rw [e] at h
    simpa [List.ofFn_succ, threePauli] using h

/-! ### Examples -/

/-- Two samples with two features; the features exchanged, and in other units. -/
example (ev : Mat 2 2 → List ℝ) (c : Eigen.Cfg) :
    eigenvalueCall ev c true 0 [1, pauliY, pauliX] (.leaf [[2, 1], [4, 3]]) = eigenvalueCall ev c true 0 [1, pauliX, pauliY] (.leaf [[1, 2], [3, 4]]) ∧
    eigenvalueCall ev c true 0 [pauliZ, pauliX] (.leaf [[3], [5]]) = eigenvalueCall ev c true 0 [pauliZ + pauliX, (2 : ℂ) • pauliX] (.leaf [[1], [2]]) := by
  refine ⟨?_, ?_⟩
  · have h := (C117_reorder (q := 0) (l := 0) ev (fun _ => ([], [])) (fun _ => 0) c true true (fun _ _ => 0) Option.none (some 1) ![pauliX, pauliY] (Equiv.swap 0 1) (.leaf [![1, 2], ![3, 4]])).1
    simpa [List.ofFn_succ, sample, Tree.map] using h
  · have h := (C117_rescale (q := 0) (l := 0) ev (fun _ => ([], [])) (fun _ => 0) c true true (fun _ _ => 0) Option.none pauliZ ![pauliX] ![2] ![1] (.leaf [![1], ![2]])).1
    simpa [List.ofFn_succ, sample, Tree.map, show (2 : ℂ) + 1 = 3 by norm_num, show (2 : ℂ) * 2 + 1 = 5 by norm_num] using h

/-- The ground state energy of `diag(-1, 1) + x` is 2 at `x = 3`; in other units and with another zero it is `2 * 2 + 5`. -/
example : eigenvalueCall someEigvalsh ⟨some 1, "SA".toList⟩ true 0 ((((2 : ℝ) : ℂ) • (Matrix.diagonal fun i => (flip i : ℂ)) + ((5 : ℝ) : ℂ) • 1) :: List.ofFn fun _ : Fin 1 => ((2 : ℝ) : ℂ) • (1 : Mat 2 2))
    (.leaf [sample fun _ : Fin 1 => 3]) = .ok (.leaf [[9]]) := by
  have h := C117_energy someEigvalsh exists_eigvalsh ⟨some 1, "SA".toList⟩ (part := .smallest) rfl (by decide) 0 (Matrix.diagonal fun i => (flip i : ℂ)) (fun _ : Fin 1 => 1) 2 5 (by norm_num)
    (.leaf [fun _ => 3])
  have h' := someEigvalsh_flip 3
  simp only [Tree.map, List.map_cons, List.map_nil, zero_div] at h
  rw [h, show (Matrix.diagonal fun i => (flip i : ℂ)) :: List.ofFn (fun _ : Fin 1 => (1 : Mat 2 2)) = [Matrix.diagonal fun i => (flip i : ℂ), 1] from rfl, h']
  simp only [Except.map, Tree.map, List.map_cons, List.map_nil]
  norm_num

end Verif.Props
