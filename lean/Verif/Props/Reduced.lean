import Verif.Lemmas.Compress
import Verif.Props.Capacity
import Mathlib.LinearAlgebra.Matrix.Charpoly.Eigs
import Mathlib.Analysis.Complex.Polynomial.Basic

/-! # C133: bounds between the predictions of eigenvalue models -/

namespace Verif.Props
open Tree Hermitian Eigen Pmm PmmSpec
open scoped Matrix

variable {n m p : Nat}

/-! ## Restriction to a subspace -/

theorem herm_compress (M : Mat n n) (P : Matrix (Fin n) (Fin m) ℂ) : herm (Pᴴ * M * P) = Pᴴ * herm M * P := by
  unfold herm
  rw [Matrix.conjTranspose_mul, Matrix.conjTranspose_mul, Matrix.conjTranspose_conjTranspose, Matrix.mul_smul, Matrix.smul_mul, Matrix.mul_add, Matrix.add_mul,
    Matrix.mul_assoc Pᴴ Mᴴ P]

theorem model_plain (M0 : Option (Mat n n)) (M : Fin p → Mat n n) (x : Fin p → ℝ) : modelMatrix 0 M0 M x = M0.elim 0 herm + ∑ i, (x i : ℂ) • herm (M i) := by
  unfold modelMatrix; rw [Complex.ofReal_zero, zero_smul, add_zero]

theorem model_compress (M0 : Option (Mat n n)) (M : Fin p → Mat n n) (P : Matrix (Fin n) (Fin m) ℂ) (x : Fin p → ℝ) :
    modelMatrix 0 (M0.map fun A => Pᴴ * A * P) (fun i => Pᴴ * M i * P) x = Pᴴ * modelMatrix 0 M0 M x * P := by
  rw [model_plain, model_plain, Matrix.mul_add, Matrix.add_mul, Matrix.mul_sum, Matrix.sum_mul]
  congr 1
  · cases M0 with
    | none => simp
    | some A => exact herm_compress A P
  · exact Finset.sum_congr rfl fun i _ => by rw [herm_compress, Matrix.mul_smul, Matrix.smul_mul]

/-- What a model predicts that is asked for the `k` smallest or the `k` largest eigenvalues: the entries of the ascending list from some place on. -/
theorem call_ends (ev : Mat n n → List ℝ) (hev : IsEigvalsh ev) (c : Eigen.Cfg) {part : Part} (hp : part = .smallest ∨ part = .largest)
    (hw : parseWhich c.which = .ok (part, .algebraic)) (k : Nat) (hk : c.numEig = some k) (hkn : k ≤ n) (s : ℝ) (M0 : Option (Mat n n)) (M : Fin p → Mat n n) (x : Fin p → ℝ) :
    ∃ r, eigenvalueCall ev c M0.isSome s (M0.toList ++ List.ofFn M) (.leaf [sample x]) = .ok (.leaf [r]) ∧ r.length = k ∧
      ∀ j < k, r[j]? = (ev (modelMatrix s M0 M x))[j + if part = .smallest then 0 else n - k]? := by
  have hA := modelMatrix_isHermitian s M0 M x
  have hl := ev_length hev hA
  have hs := (hev _ hA).1
  rw [single_call ev c _ s _ _ (affine_model s M0 M x), hk]
  rcases hp with rfl | rfl
  · rw [select_smallest hs (by omega) hw]
    refine ⟨_, rfl, by rw [List.length_take]; omega, fun j hj => ?_⟩
    rw [List.getElem?_take_of_lt hj]; rfl
  · rw [select_largest hs (by omega) hw]
    refine ⟨_, rfl, by rw [List.length_drop]; omega, fun j hj => ?_⟩
    rw [List.getElem?_drop, hl, add_comm, if_neg (by simp)]

/-- **C133 (fewer basis states).** If all matrices of a model without smoothing are restricted to the same subspace (columns of an isometry `P`: some of the basis states, or any other
orthonormal vectors), then every predicted eigenvalue lies between two of those of the model before: the `j`-th smallest is at least the `j`-th smallest and at most
the one as many places further as states were left out; and so for the largest. -/
theorem C133_restricted (ev : Mat n n → List ℝ) (hev : IsEigvalsh ev) (ev' : Mat m m → List ℝ) (hev' : IsEigvalsh ev') (hmn : m ≤ n) (c c' : Eigen.Cfg) {part : Part}
    (hp : part = .smallest ∨ part = .largest) (hw : parseWhich c.which = .ok (part, .algebraic)) (hw' : parseWhich c'.which = .ok (part, .algebraic))
    (k : Nat) (hkm : k ≤ m) (hk : c.numEig = some (k + (n - m))) (hk' : c'.numEig = some k) (M0 : Option (Mat n n)) (M : Fin p → Mat n n)
    (P : Matrix (Fin n) (Fin m) ℂ) (hP : Pᴴ * P = 1) (x : Fin p → ℝ) :
    ∃ a b, eigenvalueCall ev c M0.isSome 0 (M0.toList ++ List.ofFn M) (.leaf [sample x]) = .ok (.leaf [a]) ∧
      eigenvalueCall ev' c' M0.isSome 0 ((M0.map fun A => Pᴴ * A * P).toList ++ List.ofFn fun i => Pᴴ * M i * P) (.leaf [sample x]) = .ok (.leaf [b]) ∧
      a.length = k + (n - m) ∧ b.length = k ∧ ∀ j < k, a.getD j 0 ≤ b.getD j 0 ∧ b.getD j 0 ≤ a.getD (j + (n - m)) 0 := by
  obtain ⟨a, ha, la, va⟩ := call_ends ev hev c hp hw _ hk (by omega) 0 M0 M x
  obtain ⟨b, hb, lb, vb⟩ := call_ends ev' hev' c' hp hw' _ hk' hkm 0 (M0.map fun A => Pᴴ * A * P) (fun i => Pᴴ * M i * P) x
  rw [Option.isSome_map] at hb
  refine ⟨a, b, ha, hb, la, lb, fun j hj => ?_⟩
  rw [model_compress] at vb
  have hA := modelMatrix_isHermitian 0 M0 M x
  have g1 := (va j (by omega)).symm.trans (getD_some (by omega))
  have g2 := (va (j + (n - m)) (by omega)).symm.trans (getD_some (by omega))
  have g3 := (vb j hj).symm.trans (getD_some (by omega))
  have e1 : n - (k + (n - m)) = m - k := by omega
  rw [e1] at g1 g2
  obtain ⟨i1, i2⟩ := interlace hev hev' hA hP _ _ g3
  exact ⟨i1 _ g1, i2 _ (by rw [← g2]; congr 1; omega) hmn⟩

/-- **C133 (reduced basis).** A model restricted to a subspace predicts the smallest eigenvalue never below the one of the full model, and exactly for all features at which the lowest eigenvector of the full model
lies in the subspace. -/
theorem C133_exact (ev : Mat n n → List ℝ) (hev : IsEigvalsh ev) (ev' : Mat m m → List ℝ) (hev' : IsEigvalsh ev') (c : Eigen.Cfg)
    (hw : parseWhich c.which = .ok (.smallest, .algebraic)) (hk : c.numEig = some 1) (hm : 0 < m) (hn : 0 < n) (M0 : Option (Mat n n)) (M : Fin p → Mat n n)
    (P : Matrix (Fin n) (Fin m) ℂ) (hP : Pᴴ * P = 1) (x : Fin p → ℝ) :
    ∃ a b, eigenvalueCall ev c M0.isSome 0 (M0.toList ++ List.ofFn M) (.leaf [sample x]) = .ok (.leaf [[a]]) ∧
      eigenvalueCall ev' c M0.isSome 0 ((M0.map fun A => Pᴴ * A * P).toList ++ List.ofFn fun i => Pᴴ * M i * P) (.leaf [sample x]) = .ok (.leaf [[b]]) ∧
      a ≤ b ∧ ((∃ u, u ≠ 0 ∧ modelMatrix 0 M0 M x *ᵥ (P *ᵥ u) = (a : ℂ) • (P *ᵥ u)) ↔ a = b) := by
  have hA := modelMatrix_isHermitian 0 M0 M x
  obtain ⟨a, ha, amin, -⟩ := C75_ground_state ev hev c hw (by rw [hk]; rfl) hn 0 M0 M x
  obtain ⟨b, hb, bmin, v, hv1, hve⟩ := C75_ground_state ev' hev' c hw (by rw [hk]; rfl) hm 0 (M0.map fun A => Pᴴ * A * P) (fun i => Pᴴ * M i * P) x
  rw [Option.isSome_map] at hb
  rw [model_compress] at bmin hve
  have hab : a ≤ b := by
    have := amin (P *ᵥ v)
    rw [lenSq_isometry hP, hv1, mul_one, ← energy_compress, hve] at this
    exact this
  refine ⟨a, b, ha, hb, hab, fun ⟨u, hu, he⟩ => le_antisymm hab ?_, fun hE => ⟨v, fun h0 => ?_, ?_⟩⟩
  · have := bmin u
    rw [energy_compress, energy, he, dotProduct_smul, smul_eq_mul, Complex.re_ofReal_mul, ← lenSq_eq, Complex.ofReal_re, lenSq_isometry hP] at this
    exact le_of_mul_le_mul_right this (lenSq_pos hu)
  · rw [h0] at hv1; simp [lenSq] at hv1
  · have h1 : energy (modelMatrix 0 M0 M x) (P *ᵥ v) = a * lenSq (P *ᵥ v) := by rw [← energy_compress, hve, lenSq_isometry hP, hv1, mul_one, hE]
    exact least_eigenvector hA amin h1

/-- The first basis state of two. -/
noncomputable def firstState : Matrix (Fin 2) (Fin 1) ℂ := !![1; 0]

example : firstStateᴴ * firstState = 1 := by
  ext i j; fin_cases i; fin_cases j; simp [firstState, Matrix.mul_apply, Matrix.conjTranspose_apply]

example (M0 : Mat 2 2) (M : Fin 1 → Mat 2 2) (x : Fin 1 → ℝ) : ∃ (ev : Mat 2 2 → List ℝ) (ev' : Mat 1 1 → List ℝ) (a b : List ℝ),
    eigenvalueCall ev ⟨some 2, "SA".toList⟩ true 0 (M0 :: List.ofFn M) (.leaf [sample x]) = .ok (.leaf [a]) ∧
    eigenvalueCall ev' ⟨some 1, "SA".toList⟩ true 0 ((firstStateᴴ * M0 * firstState) :: List.ofFn fun i => firstStateᴴ * M i * firstState) (.leaf [sample x]) = .ok (.leaf [b]) ∧
    a.getD 0 0 ≤ b.getD 0 0 ∧ b.getD 0 0 ≤ a.getD 1 0 := by
  obtain ⟨a, b, h1, h2, -, -, h⟩ := C133_restricted _ exists_eigvalsh _ exists_eigvalsh (by decide : 1 ≤ 2) ⟨some 2, "SA".toList⟩ ⟨some 1, "SA".toList⟩ (.inl rfl) (by decide) (by decide)
    1 le_rfl rfl rfl (some M0) M firstState (by ext i j; fin_cases i; fin_cases j; simp [firstState, Matrix.mul_apply, Matrix.conjTranspose_apply]) x
  exact ⟨_, _, a, b, h1, h2, h 0 (by decide)⟩

/-- Two orthonormal vectors in three dimensions. -/
noncomputable def plane : Matrix (Fin 3) (Fin 2) ℂ := !![2/3, 2/3; 2/3, -1/3; 1/3, -2/3]
/-- The projections onto the first two of three basis states. -/
noncomputable def projections : Fin 2 → Mat 3 3 := fun i => Matrix.diagonal fun j => if j.val = i.val then 1 else 0

/-- **C133 (reduced basis) fails with smoothing.** The restricted model then has commutators that the full one has not: it predicts a smaller smallest eigenvalue. -/
theorem C133_smoothing_matters (ev : Mat 3 3 → List ℝ) (hev : IsEigvalsh ev) (ev' : Mat 2 2 → List ℝ) (hev' : IsEigvalsh ev') (c : Eigen.Cfg)
    (hw : parseWhich c.which = .ok (.smallest, .algebraic)) (hk : c.numEig = some 1) (s : ℝ) (hs : 0 < s) :
    planeᴴ * plane = 1 ∧ ∃ a b, eigenvalueCall ev c false s (List.ofFn projections) (.leaf [sample (0 : Fin 2 → ℝ)]) = .ok (.leaf [[a]]) ∧
      eigenvalueCall ev' c false s (List.ofFn fun i => planeᴴ * projections i * plane) (.leaf [sample (0 : Fin 2 → ℝ)]) = .ok (.leaf [[b]]) ∧ b < a := by
  obtain ⟨a, ha, -, v, -, hva⟩ := C75_ground_state ev hev c hw (by rw [hk]; rfl) (by decide) s Option.none projections (0 : Fin 2 → ℝ)
  obtain ⟨b, hb, hbm, -⟩ := C75_ground_state ev' hev' c hw (by rw [hk]; rfl) (by decide) s Option.none (fun i => planeᴴ * projections i * plane) (0 : Fin 2 → ℝ)
  have c2 : (starRingEnd ℂ) 2 = 2 := by apply Complex.ext <;> simp
  have c3 : (starRingEnd ℂ) 3 = 3 := by apply Complex.ext <;> simp
  refine ⟨?_, a, b, ha, hb, ?_⟩
  · ext i j; fin_cases i <;> fin_cases j <;> simp [c2, c3, plane, Matrix.mul_apply, Matrix.conjTranspose_apply, Fin.sum_univ_three] <;> norm_num
  · have hz : ∀ {q : Nat} (M : Fin 2 → Mat q q), modelMatrix s Option.none M (0 : Fin 2 → ℝ) = ((s : ℂ) * Complex.I) • (herm (M 1) * herm (M 0) - herm (M 0) * herm (M 1)) := by
      intro q M
      unfold modelMatrix
      have : commutators (fun i : Fin ((Option.none : Option (Mat q q)).toList ++ List.ofFn M).length => herm (((Option.none : Option (Mat q q)).toList ++ List.ofFn M).get i)) =
          commutators (p := 2) fun i => herm (M i) := rfl
      rw [this]
      simp [commutators, Fin.sum_univ_two, smul_smul]
    have hd : ∀ i, herm (projections i) = projections i := fun i => by
      unfold herm projections
      ext j k
      fin_cases i <;> fin_cases j <;> fin_cases k <;> simp [Matrix.conjTranspose_apply, Matrix.diagonal] <;> norm_num
    have h0 : a = 0 := by
      rw [← hva, hz, hd, hd]
      simp [projections, Matrix.diagonal_mul_diagonal, energy, mul_comm]
    have := hbm ![1, Complex.I]
    rw [hz, herm_compress, herm_compress, hd, hd] at this
    rw [h0]
    simp [c2, c3, energy, lenSq, plane, projections, Matrix.mul_apply, Matrix.conjTranspose_apply, Fin.sum_univ_three, Fin.sum_univ_two, Matrix.diagonal, dotProduct, Matrix.mulVec] at this
    norm_num at this
    nlinarith

/-! ## Order -/

theorem ev_mono {ev : Mat n n → List ℝ} (hev : IsEigvalsh ev) {A B : Mat n n} (hA : A.IsHermitian) (hB : B.IsHermitian) (h : ∀ v, energy A v ≤ energy B v) {idx : List Nat}
    (hi : ∀ i ∈ idx, i < n) : List.Forall₂ (· ≤ ·) (idx.map ((ev A).getD · 0)) (idx.map ((ev B).getD · 0)) := by
  induction idx with
  | nil => exact List.Forall₂.nil
  | cons i t ih =>
    refine List.Forall₂.cons ?_ (ih fun j hj => hi j (List.mem_cons_of_mem _ hj))
    have hin := hi i List.mem_cons_self
    have := weyl hev hA hB (c := 0) (fun v => by rw [zero_mul, add_zero]; exact h v) i _ _ (getD_some (by rw [ev_length hev hA]; exact hin)) (getD_some (by rw [ev_length hev hB]; exact hin))
    rwa [add_zero] at this

/-- **C133 (features).** Every predicted eigenvalue grows with a feature whose matrix is positive semidefinite and falls with one whose matrix is negative semidefinite, in the algebraic modes and with any smoothing. -/
theorem C133_features (ev : Mat n n → List ℝ) (hev : IsEigvalsh ev) (c : Eigen.Cfg) {part : Part} (hw : parseWhich c.which = .ok (part, .algebraic)) (hk : c.numEig.getD n ≤ n) (s : ℝ)
    (M0 : Option (Mat n n)) (M : Fin p → Mat n n) (x y : Fin p → ℝ)
    (h : ∀ i, x i = y i ∨ (x i ≤ y i ∧ ∀ v, 0 ≤ energy (herm (M i)) v) ∨ (y i ≤ x i ∧ ∀ v, energy (herm (M i)) v ≤ 0)) :
    ∃ a b, eigenvalueCall ev c M0.isSome s (M0.toList ++ List.ofFn M) (.leaf [sample x]) = .ok (.leaf [a]) ∧
      eigenvalueCall ev c M0.isSome s (M0.toList ++ List.ofFn M) (.leaf [sample y]) = .ok (.leaf [b]) ∧ List.Forall₂ (· ≤ ·) a b := by
  obtain ⟨idx, h1, h2, -⟩ := call_sorted ev hev c hw hk s M0 M
  refine ⟨_, _, h2 x, h2 y, ev_mono hev (modelMatrix_isHermitian s M0 M x) (modelMatrix_isHermitian s M0 M y) (fun v => ?_) h1⟩
  rw [energy_model s M0 M x, energy_model s M0 M y, add_le_add_iff_left]
  refine Finset.sum_le_sum fun i _ => ?_
  rcases h i with e | ⟨e, hv⟩ | ⟨e, hv⟩
  · rw [e]
  · exact mul_le_mul_of_nonneg_right e (hv v)
  · exact mul_le_mul_of_nonpos_right e (hv v)

/-- **C133 (parameters).** Adding positive semidefinite matrices to the constant matrix and to the matrices of features that are not negative lowers no predicted eigenvalue of a model without smoothing. -/
theorem C133_parameters (ev : Mat n n → List ℝ) (hev : IsEigvalsh ev) (c : Eigen.Cfg) {part : Part} (hw : parseWhich c.which = .ok (part, .algebraic)) (hk : c.numEig.getD n ≤ n)
    (M0 D0 : Mat n n) (M D : Fin p → Mat n n) (x : Fin p → ℝ) (h0 : ∀ v, 0 ≤ energy (herm D0) v) (h : ∀ i, D i = 0 ∨ (0 ≤ x i ∧ ∀ v, 0 ≤ energy (herm (D i)) v)) :
    ∃ a b, eigenvalueCall ev c true 0 (M0 :: List.ofFn M) (.leaf [sample x]) = .ok (.leaf [a]) ∧
      eigenvalueCall ev c true 0 ((M0 + D0) :: List.ofFn fun i => M i + D i) (.leaf [sample x]) = .ok (.leaf [b]) ∧ List.Forall₂ (· ≤ ·) a b := by
  obtain ⟨idx, h1, h2, h2'⟩ : ∃ idx : List Nat, (∀ i ∈ idx, i < n) ∧
      (eigenvalueCall ev c true 0 (M0 :: List.ofFn M) (.leaf [sample x]) = .ok (.leaf [idx.map ((ev (modelMatrix 0 (some M0) M x)).getD · 0)])) ∧
      eigenvalueCall ev c true 0 ((M0 + D0) :: List.ofFn fun i => M i + D i) (.leaf [sample x]) =
        .ok (.leaf [idx.map ((ev (modelMatrix 0 (some (M0 + D0)) (fun i => M i + D i) x)).getD · 0)]) := by
    obtain ⟨idx, h1, h2, -⟩ := select_sorted n hk hw
    have A := modelMatrix_isHermitian 0 (some M0) M x
    have B := modelMatrix_isHermitian 0 (some (M0 + D0)) (fun i => M i + D i) x
    refine ⟨idx, h1, ?_, ?_⟩
    · refine (single_call ev c _ 0 _ _ (affine_model 0 (some M0) M x)).trans ?_
      rw [h2 _ (hev _ A).1 (ev_length hev A)]
    · refine (single_call ev c _ 0 _ _ (affine_model 0 (some (M0 + D0)) (fun i => M i + D i) x)).trans ?_
      rw [h2 _ (hev _ B).1 (ev_length hev B)]
  refine ⟨_, _, h2, h2', ev_mono hev (modelMatrix_isHermitian 0 _ M x) (modelMatrix_isHermitian 0 _ _ x) (fun v => ?_) h1⟩
  have hadd : ∀ X Y : Mat n n, herm (X + Y) = herm X + herm Y := fun X Y => by
    unfold herm
    rw [Matrix.conjTranspose_add, ← smul_add]
    congr 1
    abel
  rw [model_plain, model_plain]
  simp only [Option.elim_some, hadd, energy_add, energy_sum, energy_smul, mul_add]
  rw [Finset.sum_add_distrib]
  have : 0 ≤ ∑ i, x i * energy (herm (D i)) v := Finset.sum_nonneg fun i _ => by
    rcases h i with e | ⟨e, hv⟩
    · rw [e]; simp [herm, energy]
    · exact mul_nonneg e (hv v)
  have := h0 v
  linarith

/-! ## Sum of all eigenvalues -/

theorem ev_sum {ev : Mat n n → List ℝ} (hev : IsEigvalsh ev) {A : Mat n n} (hA : A.IsHermitian) : (((ev A).sum : ℝ) : ℂ) = A.trace := by
  rw [Matrix.trace_eq_sum_roots_charpoly A, ← (hev A hA).2, Multiset.sum_coe]
  generalize ev A = E
  induction E with
  | nil => simp
  | cons a t ih => rw [List.sum_cons, List.map_cons, List.sum_cons, ← ih, Complex.ofReal_add]

theorem trace_commutators {q : Nat} (M : Fin q → Mat n n) : (commutators M).trace = 0 := by
  unfold commutators
  rw [Matrix.trace_smul, Matrix.trace_sum, Finset.sum_eq_zero, smul_zero]
  intro i _
  rw [Matrix.trace_sum]
  refine Finset.sum_eq_zero fun j _ => ?_
  split
  · rw [Matrix.trace_sub, Matrix.trace_mul_comm, sub_self]
  · exact Matrix.trace_zero ..

theorem trace_herm (M : Mat n n) : (herm M).trace = (M.trace.re : ℂ) := by
  unfold herm
  rw [Matrix.trace_smul, Matrix.trace_add, Matrix.trace_conjTranspose, smul_eq_mul]
  apply Complex.ext <;> simp <;> ring

/-- **C133 (sum rule).** The sum of all eigenvalues a model predicts, in any mode and with any smoothing, is an affine function of the features: the trace of the constant matrix plus the features times the traces of their matrices. -/
theorem C133_sum (ev : Mat n n → List ℝ) (hev : IsEigvalsh ev) (c : Eigen.Cfg) {part : Part} {o : Order} (hw : parseWhich c.which = .ok (part, o)) (hk : c.numEig.getD n = n) (s : ℝ)
    (M0 : Option (Mat n n)) (M : Fin p → Mat n n) (x : Fin p → ℝ) :
    ∃ r, eigenvalueCall ev c M0.isSome s (M0.toList ++ List.ofFn M) (.leaf [sample x]) = .ok (.leaf [r]) ∧ r.length = n ∧
      r.sum = M0.elim 0 (fun A => A.trace.re) + ∑ i, x i * (M i).trace.re := by
  obtain ⟨r, h1, h2, -, idx, hnd, hlen, hb, hr, -⟩ := C75_prediction ev hev c hw hk.le s M0 M x
  have hA := modelMatrix_isHermitian s M0 M x
  have hl := ev_length hev hA
  have hidx : idx.length = n := by
    rw [hlen, hl]; exact hk
  refine ⟨r, h1, by rw [h2, hk], ?_⟩
  have hperm : idx.Perm (List.range n) := by
    refine (List.Nodup.subperm hnd fun i hi => ?_).perm_of_length_le (by rw [hidx, List.length_range])
    rw [List.mem_range, ← hl]; exact hb i hi
  have hre : r = idx.map ((ev (modelMatrix s M0 M x)).getD · 0) := by
    have inj : Function.Injective (List.map (some : ℝ → Option ℝ)) := List.map_injective_iff.2 (Option.some_injective _)
    apply inj
    rw [hr, List.map_map]
    exact List.map_congr_left fun i hi => getD_some (hb i hi)
  have hsum : r.sum = (ev (modelMatrix s M0 M x)).sum := by
    rw [hre, (hperm.map _).sum_eq]
    congr 1
    refine List.ext_getElem (by simp [hl]) fun i h1 h2 => ?_
    simp [List.getElem?_eq_getElem h2]
  have ht := ev_sum hev hA
  rw [← hsum] at ht
  have e : (modelMatrix s M0 M x).trace = ((M0.elim 0 (fun A => A.trace.re) + ∑ i, x i * (M i).trace.re : ℝ) : ℂ) := by
    unfold modelMatrix
    rw [Matrix.trace_add, Matrix.trace_add, Matrix.trace_smul, trace_commutators, smul_zero, add_zero, Matrix.trace_sum]
    push_cast
    congr 1
    · cases M0 with
      | none => simp
      | some A => exact trace_herm A
    · exact Finset.sum_congr rfl fun i _ => by rw [Matrix.trace_smul, trace_herm, smul_eq_mul]
  rw [e] at ht
  exact_mod_cast ht

/-- A matrix that is positive semidefinite, and not zero. -/
noncomputable def oneOfTwo : Mat 2 2 := Matrix.diagonal ![1, 0]

theorem oneOfTwo_energy (v : Fin 2 → ℂ) : energy (herm oneOfTwo) v = Complex.normSq (v 0) := by
  have h : herm oneOfTwo = oneOfTwo := by
    unfold herm oneOfTwo
    ext j k
    fin_cases j <;> fin_cases k <;> simp [Matrix.conjTranspose_apply, Matrix.diagonal] <;> norm_num
  rw [h]
  simp [energy, oneOfTwo, Matrix.mulVec_diagonal, dotProduct, Fin.sum_univ_two, Complex.normSq_apply]

example (M0 : Mat 2 2) : ∃ (ev : Mat 2 2 → List ℝ) (a b : List ℝ),
    eigenvalueCall ev ⟨some 2, "SA".toList⟩ true 3 (M0 :: List.ofFn fun _ : Fin 1 => oneOfTwo) (.leaf [sample fun _ : Fin 1 => 1]) = .ok (.leaf [a]) ∧
    eigenvalueCall ev ⟨some 2, "SA".toList⟩ true 3 (M0 :: List.ofFn fun _ : Fin 1 => oneOfTwo) (.leaf [sample fun _ : Fin 1 => 4]) = .ok (.leaf [b]) ∧
    List.Forall₂ (· ≤ ·) a b := by
  obtain ⟨a, b, h⟩ := C133_features _ exists_eigvalsh ⟨some 2, "SA".toList⟩ (part := .smallest) (by decide) le_rfl 3 (some M0) (fun _ : Fin 1 => oneOfTwo) (fun _ => 1) (fun _ => 4)
    fun _ => .inr (.inl ⟨by norm_num, fun v => by rw [oneOfTwo_energy]; exact Complex.normSq_nonneg _⟩)
  exact ⟨_, a, b, h⟩

example (M0 : Mat 2 2) : ∃ (ev : Mat 2 2 → List ℝ) (r : List ℝ),
    eigenvalueCall ev ⟨Option.none, "LM".toList⟩ true 3 (M0 :: List.ofFn fun _ : Fin 1 => oneOfTwo) (.leaf [sample fun _ : Fin 1 => 4]) = .ok (.leaf [r]) ∧ r.sum = M0.trace.re + 4 := by
  obtain ⟨r, h1, -, h2⟩ := C133_sum _ exists_eigvalsh ⟨Option.none, "LM".toList⟩ (part := .largest) (o := .magnitude) (by decide) rfl 3 (some M0) (fun _ : Fin 1 => oneOfTwo) (fun _ => 4)
  refine ⟨_, r, h1, h2.trans ?_⟩
  simp [oneOfTwo, Matrix.trace, Fin.sum_univ_two]

end Verif.Props
