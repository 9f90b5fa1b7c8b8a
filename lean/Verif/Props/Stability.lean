import Verif.Props.EigenGradient
import Verif.Props.Capacity
import Verif.Props.Reach
import Mathlib.Algebra.Order.Chebyshev

/-! # C124: predictions change little when parameters do -/

namespace Verif.Props
open Verif.Batch Verif.BatchSpec Verif.Train Verif.TrainSpec Verif.Adam
open Tree Hermitian Eigen Pmm PmmSpec
open scoped Matrix

variable {n p : Nat}

theorem energy_entries {W : Matrix (Fin n) (Fin n) ℂ} {δ : ℝ} (h : ∀ i j, ‖W i j‖ ≤ δ) (v : Fin n → ℂ) : |energy W v| ≤ n * δ * lenSq v := by
  rcases Nat.eq_zero_or_pos n with rfl | hn
  · simp [energy, dotProduct]
  have hδ : 0 ≤ δ := (norm_nonneg _).trans (h ⟨0, hn⟩ ⟨0, hn⟩)
  have h1 : ‖star v ⬝ᵥ W *ᵥ v‖ ≤ δ * (∑ i, ‖v i‖) ^ 2 := by
    rw [dotProduct]
    refine (norm_sum_le _ _).trans ?_
    have : ∀ i ∈ Finset.univ, ‖star v i * (W *ᵥ v) i‖ ≤ ‖v i‖ * (δ * ∑ j, ‖v j‖) := fun i _ => by
      rw [norm_mul, Pi.star_apply, norm_star]
      refine mul_le_mul_of_nonneg_left ?_ (norm_nonneg _)
      rw [Matrix.mulVec, dotProduct, Finset.mul_sum]
      refine (norm_sum_le _ _).trans (Finset.sum_le_sum fun j _ => ?_)
      rw [norm_mul]
      exact mul_le_mul_of_nonneg_right (h i j) (norm_nonneg _)
    refine (Finset.sum_le_sum this).trans (le_of_eq ?_)
    rw [← Finset.sum_mul]
    ring
  have h2 : (∑ i, ‖v i‖) ^ 2 ≤ n * lenSq v := by
    have := sq_sum_le_card_mul_sum_sq (s := Finset.univ) (f := fun i => ‖v i‖)
    rw [Finset.card_univ, Fintype.card_fin] at this
    refine this.trans (le_of_eq ?_)
    rw [lenSq]
    congr 1
    exact Finset.sum_congr rfl fun i _ => (Complex.normSq_eq_norm_sq _).symm
  calc |energy W v| ≤ ‖star v ⬝ᵥ W *ᵥ v‖ := Complex.abs_re_le_norm _
    _ ≤ δ * (∑ i, ‖v i‖) ^ 2 := h1
    _ ≤ δ * (n * lenSq v) := mul_le_mul_of_nonneg_left h2 hδ
    _ = n * δ * lenSq v := by ring

theorem ev_entries {ev : Matrix (Fin n) (Fin n) ℂ → List ℝ} (hev : IsEigvalsh ev) {A B : Matrix (Fin n) (Fin n) ℂ} (hA : A.IsHermitian) (hB : B.IsHermitian)
    {δ : ℝ} (h : ∀ i j, ‖A i j - B i j‖ ≤ δ) {k : Nat} (hk : k < n) : |(ev A).getD k 0 - (ev B).getD k 0| ≤ n * δ := by
  have key : ∀ C D : Matrix (Fin n) (Fin n) ℂ, (∀ i j, ‖C i j - D i j‖ ≤ δ) → ∀ v, energy C v ≤ energy D v + n * δ * lenSq v := by
    intro C D hCD v
    have := (le_abs_self _).trans (energy_entries (W := C - D) (fun i j => hCD i j) v)
    have e : energy C v = energy (C - D) v + energy D v := by rw [← energy_add, sub_add_cancel]
    linarith
  have ga := getD_some (E := ev A) (i := k) (by rw [ev_length hev hA]; exact hk)
  have gb := getD_some (E := ev B) (i := k) (by rw [ev_length hev hB]; exact hk)
  have w1 := weyl hev hA hB (key A B h) k _ _ ga gb
  have w2 := weyl hev hB hA (key B A fun i j => by rw [norm_sub_rev]; exact h i j) k _ _ gb ga
  rw [abs_le]
  constructor <;> linarith

theorem herm_close {A B : Matrix (Fin n) (Fin n) ℂ} {δ : ℝ} (h : ∀ i j, ‖A i j - B i j‖ ≤ δ) (i j : Fin n) : ‖herm A i j - herm B i j‖ ≤ δ := by
  have e : herm A i j - herm B i j = (1 / 2 : ℂ) * ((A i j - B i j) + (starRingEnd ℂ) (A j i - B j i)) := by
    simp only [herm, Matrix.smul_apply, Matrix.add_apply, Matrix.conjTranspose_apply, smul_eq_mul, map_sub]
    have : ∀ z : ℂ, star z = (starRingEnd ℂ) z := fun z => rfl
    simp only [this]
    ring
  rw [e, norm_mul]
  have h1 := norm_add_le (A i j - B i j) ((starRingEnd ℂ) (A j i - B j i))
  rw [Complex.norm_conj] at h1
  have h2 : ‖(1 / 2 : ℂ)‖ = 1 / 2 := by norm_num
  rw [h2]
  linarith [h i j, h j i]

theorem herm_entries {A : Matrix (Fin n) (Fin n) ℂ} {R : ℝ} (h : ∀ i j, ‖A i j‖ ≤ R) (i j : Fin n) : ‖herm A i j‖ ≤ R := by
  have := herm_close (A := A) (B := 0) (δ := R) (fun i j => by simpa using h i j) i j
  simpa [herm] using this

theorem prod_close {A B A' B' : Matrix (Fin n) (Fin n) ℂ} {R δ : ℝ} (hδ : 0 ≤ δ) (hB : ∀ i j, ‖B i j‖ ≤ R) (hA : ∀ i j, ‖A i j‖ ≤ R)
    (h1 : ∀ i j, ‖A i j - A' i j‖ ≤ δ) (h2 : ∀ i j, ‖B i j - B' i j‖ ≤ δ) (i j : Fin n) : ‖(A * B) i j - (A' * B') i j‖ ≤ n * (δ * (2 * R + δ)) := by
  rw [Matrix.mul_apply, Matrix.mul_apply, ← Finset.sum_sub_distrib]
  refine (norm_sum_le _ _).trans ?_
  have : ∀ k ∈ Finset.univ, ‖A i k * B k j - A' i k * B' k j‖ ≤ δ * (2 * R + δ) := fun k _ => by
    have e : A i k * B k j - A' i k * B' k j = (A i k - A' i k) * B k j + A' i k * (B k j - B' k j) := by ring
    rw [e]
    refine (norm_add_le _ _).trans ?_
    rw [norm_mul, norm_mul]
    have hA' : ‖A' i k‖ ≤ R + δ := by
      have := norm_sub_le (A i k) (A i k - A' i k)
      rw [sub_sub_cancel] at this
      linarith [hA i k, h1 i k]
    have a := mul_le_mul (h1 i k) (hB k j) (norm_nonneg _) hδ
    have b := mul_le_mul hA' (h2 k j) (norm_nonneg _) ((norm_nonneg _).trans hA')
    linarith
  refine (Finset.sum_le_sum this).trans (le_of_eq ?_)
  rw [Finset.sum_const, Finset.card_univ, Fintype.card_fin, nsmul_eq_mul]

theorem pairs_sum (m : Nat) (κ : ℝ) : ∑ i : Fin m, ∑ j : Fin m, (if j < i then κ else 0) = m * (m - 1) / 2 * κ := by
  have h1 : ∀ i : Fin m, ∑ j : Fin m, (if j < i then κ else 0) = (i : ℕ) * κ := fun i => by
    rw [← Finset.sum_filter, Finset.sum_const, nsmul_eq_mul]
    congr 2
    have : (Finset.univ.filter fun j : Fin m => j < i) = Finset.Iio i := by ext; simp
    rw [this, Fin.card_Iio]
  rw [Finset.sum_congr rfl fun i _ => h1 i, ← Finset.sum_mul]
  congr 1
  rw [Fin.sum_univ_eq_sum_range (fun i => (i : ℝ)) m]
  have h2 := Finset.sum_range_id_mul_two m
  have h3 : (∑ i ∈ Finset.range m, (i : ℝ)) * 2 = (m : ℝ) * ((m - 1 : ℕ) : ℝ) := by
    rw [← Nat.cast_mul, ← h2]; push_cast; rfl
  cases m with
  | zero => simp
  | succ m =>
    simp only [Nat.add_sub_cancel] at h3
    push_cast at h3 ⊢
    linarith

theorem commutators_close {m : Nat} {N N' : Fin m → Matrix (Fin n) (Fin n) ℂ} {R δ : ℝ} (hδ : 0 ≤ δ) (hN : ∀ q i j, ‖N q i j‖ ≤ R)
    (h : ∀ q i j, ‖N q i j - N' q i j‖ ≤ δ) (i j : Fin n) :
    ‖commutators N i j - commutators N' i j‖ ≤ m * (m - 1) * (n * (δ * (2 * R + δ))) := by
  have e : ∀ N : Fin m → Matrix (Fin n) (Fin n) ℂ, commutators N i j = Complex.I * ∑ a, ∑ b, if b < a then (N a * N b) i j - (N b * N a) i j else 0 := by
    intro N
    rw [commutators, Matrix.smul_apply, Matrix.sum_apply, smul_eq_mul]
    congr 1
    refine Finset.sum_congr rfl fun a _ => ?_
    rw [Matrix.sum_apply]
    refine Finset.sum_congr rfl fun b _ => ?_
    split <;> simp
  rw [e N, e N', ← mul_sub, norm_mul, Complex.norm_I, one_mul, ← Finset.sum_sub_distrib]
  have hp := pairs_sum m (2 * (n * (δ * (2 * R + δ))))
  have : (m : ℝ) * (m - 1) * (n * (δ * (2 * R + δ))) = ∑ a : Fin m, ∑ b : Fin m, (if b < a then 2 * (n * (δ * (2 * R + δ))) else 0) := by rw [hp]; ring
  rw [this]
  refine (norm_sum_le _ _).trans (Finset.sum_le_sum fun a _ => ?_)
  rw [← Finset.sum_sub_distrib]
  refine (norm_sum_le _ _).trans (Finset.sum_le_sum fun b _ => ?_)
  split
  · have p1 := prod_close hδ (hN b) (hN a) (h a) (h b) i j
    have p2 := prod_close hδ (hN a) (hN b) (h b) (h a) i j
    have e2 : (N a * N b) i j - (N b * N a) i j - ((N' a * N' b) i j - (N' b * N' a) i j) =
        ((N a * N b) i j - (N' a * N' b) i j) - ((N b * N a) i j - (N' b * N' a) i j) := by ring
    rw [e2]
    exact (norm_sub_le _ _).trans (by linarith)
  · simp

theorem model_stack (s : ℝ) (M0 : Matrix (Fin n) (Fin n) ℂ) (M : Fin p → Matrix (Fin n) (Fin n) ℂ) (x : Fin p → ℝ) :
    modelMatrix s (some M0) M x = herm M0 + ∑ i, (x i : ℂ) • herm (M i) +
      (s : ℂ) • commutators fun i : Fin (p + 1) => herm ((Fin.cons M0 M : Fin (p + 1) → Matrix (Fin n) (Fin n) ℂ) i) := by
  have h : (some M0).toList ++ List.ofFn M = List.ofFn (Fin.cons M0 M : Fin (p + 1) → Matrix (Fin n) (Fin n) ℂ) := by
    rw [List.ofFn_succ]; simp
  unfold modelMatrix
  rw [commutators_list, h, map_hermPart, C55_sum]
  rfl

theorem model_stack' (s : ℝ) (M : Fin p → Matrix (Fin n) (Fin n) ℂ) (x : Fin p → ℝ) :
    modelMatrix s Option.none M x = ∑ i, (x i : ℂ) • herm (M i) + (s : ℂ) • commutators fun i : Fin p => herm (M i) := by
  unfold modelMatrix
  rw [commutators_list]
  simp only [Option.toList_none, List.nil_append]
  rw [map_hermPart, C55_sum]
  simp

/-- How much the matrix of a model changes. -/
theorem model_close (s : ℝ) {M0 M0' : Option (Matrix (Fin n) (Fin n) ℂ)} {M M' : Fin p → Matrix (Fin n) (Fin n) ℂ} {δ R : ℝ} (hδ : 0 ≤ δ) (hR : 0 ≤ R)
    (h0 : M0.isSome = M0'.isSome) (hc : ∀ A ∈ M0, ∀ B ∈ M0', ∀ i j, ‖A i j - B i j‖ ≤ δ) (hM : ∀ q i j, ‖M q i j - M' q i j‖ ≤ δ)
    (hR0 : ∀ A ∈ M0, ∀ i j, ‖A i j‖ ≤ R) (hRM : ∀ q i j, ‖M q i j‖ ≤ R) (x : Fin p → ℝ) (i j : Fin n) :
    ‖modelMatrix s M0 M x i j - modelMatrix s M0' M' x i j‖ ≤ δ * (1 + ∑ q, |x q| + |s| * ((p + 1) * p) * (n * (2 * R + δ))) := by
  have hlin : ‖(∑ q, (x q : ℂ) • herm (M q)) i j - (∑ q, (x q : ℂ) • herm (M' q)) i j‖ ≤ δ * ∑ q, |x q| := by
    rw [Matrix.sum_apply, Matrix.sum_apply, ← Finset.sum_sub_distrib, Finset.mul_sum]
    refine (norm_sum_le _ _).trans (Finset.sum_le_sum fun q _ => ?_)
    rw [Matrix.smul_apply, Matrix.smul_apply, smul_eq_mul, smul_eq_mul, ← mul_sub, norm_mul, Complex.norm_real, Real.norm_eq_abs, mul_comm]
    exact mul_le_mul_of_nonneg_right (herm_close (hM q) i j) (abs_nonneg _)
  have hκ : 0 ≤ n * (δ * (2 * R + δ)) := by positivity
  match M0, M0', h0 with
  | some A, some B, _ =>
    rw [model_stack, model_stack]
    have h1 := herm_close (hc A rfl B rfl) i j
    have h2 := commutators_close (N := fun q : Fin (p + 1) => herm ((Fin.cons A M : Fin (p + 1) → Matrix (Fin n) (Fin n) ℂ) q))
      (N' := fun q : Fin (p + 1) => herm ((Fin.cons B M' : Fin (p + 1) → Matrix (Fin n) (Fin n) ℂ) q)) hδ
      (fun q => by
        refine Fin.cases ?_ (fun q => ?_) q
        · exact herm_entries (hR0 A rfl)
        · exact herm_entries (hRM q))
      (fun q => by
        refine Fin.cases ?_ (fun q => ?_) q
        · exact herm_close (hc A rfl B rfl)
        · exact herm_close (hM q)) i j
    have h3 := mul_le_mul_of_nonneg_left h2 (abs_nonneg s)
    simp only [Matrix.add_apply, Matrix.smul_apply _ (commutators _), smul_eq_mul]
    set a := herm A i j
    set b := herm B i j
    set c := (∑ q, (x q : ℂ) • herm (M q)) i j
    set d := (∑ q, (x q : ℂ) • herm (M' q)) i j
    set e := commutators (fun q : Fin (p + 1) => herm ((Fin.cons A M : Fin (p + 1) → Matrix (Fin n) (Fin n) ℂ) q)) i j
    set f := commutators (fun q : Fin (p + 1) => herm ((Fin.cons B M' : Fin (p + 1) → Matrix (Fin n) (Fin n) ℂ) q)) i j
    have e1 : a + c + (s : ℂ) * e - (b + d + (s : ℂ) * f) = (a - b) + (c - d) + (s : ℂ) * (e - f) := by ring
    rw [e1]
    have n1 := norm_add_le ((a - b) + (c - d)) ((s : ℂ) * (e - f))
    have n2 := norm_add_le (a - b) (c - d)
    rw [norm_mul, Complex.norm_real, Real.norm_eq_abs] at n1
    push_cast at h3
    have e2 : δ * (1 + ∑ q, |x q| + |s| * ((p + 1) * p) * (n * (2 * R + δ))) =
        δ + δ * ∑ q, |x q| + |s| * ((p + 1) * (p + 1 - 1) * (n * (δ * (2 * R + δ)))) := by ring
    rw [e2]
    linarith
  | Option.none, Option.none, _ =>
    rw [model_stack', model_stack']
    have h2 := commutators_close (N := fun q : Fin p => herm (M q)) (N' := fun q : Fin p => herm (M' q)) hδ
      (fun q => herm_entries (hRM q)) (fun q => herm_close (hM q)) i j
    have h3 := mul_le_mul_of_nonneg_left h2 (abs_nonneg s)
    simp only [Matrix.add_apply, Matrix.smul_apply _ (commutators _), smul_eq_mul]
    set c := (∑ q, (x q : ℂ) • herm (M q)) i j
    set d := (∑ q, (x q : ℂ) • herm (M' q)) i j
    set e := commutators (fun q : Fin p => herm (M q)) i j
    set f := commutators (fun q : Fin p => herm (M' q)) i j
    have e1 : c + (s : ℂ) * e - (d + (s : ℂ) * f) = (c - d) + (s : ℂ) * (e - f) := by ring
    rw [e1]
    have n1 := norm_add_le (c - d) ((s : ℂ) * (e - f))
    rw [norm_mul, Complex.norm_real, Real.norm_eq_abs] at n1
    have e2 : δ * (1 + ∑ q, |x q| + |s| * ((p + 1) * p) * (n * (2 * R + δ))) =
        δ + δ * ∑ q, |x q| + |s| * (p * (p - 1) * (n * (δ * (2 * R + δ)))) + |s| * (2 * p * (n * (δ * (2 * R + δ)))) := by ring
    rw [e2]
    have : 0 ≤ |s| * (2 * p * (n * (δ * (2 * R + δ)))) := by positivity
    linarith
  | some _, Option.none, h => cases h
  | Option.none, some _, h => cases h

/-- **C124** Changing every entry of the stored matrices by at most `δ` changes every predicted eigenvalue of a sample by at most a number times `δ`:
the size of the matrices times one plus the sum of the features, plus what smoothing contributes. -/
theorem C124_parameters (ev : Matrix (Fin n) (Fin n) ℂ → List ℝ) (hev : IsEigvalsh ev) (c : Eigen.Cfg) {part : Part}
    (hw : parseWhich c.which = .ok (part, .algebraic)) (hk : c.numEig.getD n ≤ n) (s : ℝ) (M0 M0' : Option (Matrix (Fin n) (Fin n) ℂ))
    (M M' : Fin p → Matrix (Fin n) (Fin n) ℂ) (δ R : ℝ) (hδ : 0 ≤ δ) (hR : 0 ≤ R)
    (h0 : M0.isSome = M0'.isSome) (hc : ∀ A ∈ M0, ∀ B ∈ M0', ∀ i j, ‖A i j - B i j‖ ≤ δ) (hM : ∀ q i j, ‖M q i j - M' q i j‖ ≤ δ)
    (hR0 : ∀ A ∈ M0, ∀ i j, ‖A i j‖ ≤ R) (hRM : ∀ q i j, ‖M q i j‖ ≤ R) (x : Fin p → ℝ) :
    ∃ a b, eigenvalueCall ev c M0.isSome s (M0.toList ++ List.ofFn M) (.leaf [sample x]) = .ok (.leaf [a]) ∧
      eigenvalueCall ev c M0'.isSome s (M0'.toList ++ List.ofFn M') (.leaf [sample x]) = .ok (.leaf [b]) ∧
      List.Forall₂ (fun u w => |u - w| ≤ n * δ * (1 + ∑ q, |x q| + |s| * ((p + 1) * p) * (n * (2 * R + δ)))) a b := by
  obtain ⟨idx, i1, i2, -⟩ := select_sorted n hk hw
  have call : ∀ (M0 : Option (Matrix (Fin n) (Fin n) ℂ)) (M : Fin p → Matrix (Fin n) (Fin n) ℂ),
      eigenvalueCall ev c M0.isSome s (M0.toList ++ List.ofFn M) (.leaf [sample x]) =
        .ok (.leaf [idx.map ((ev (modelMatrix s M0 M x)).getD · 0)]) := fun M0 M => by
    rw [single_call ev c _ s _ _ (affine_model s M0 M x), i2 _ (hev _ (modelMatrix_isHermitian s M0 M x)).1 (ev_length hev (modelMatrix_isHermitian s M0 M x))]
  refine ⟨_, _, call M0 M, call M0' M', ?_⟩
  have main : ∀ k < n, |(ev (modelMatrix s M0 M x)).getD k 0 - (ev (modelMatrix s M0' M' x)).getD k 0| ≤
      n * δ * (1 + ∑ q, |x q| + |s| * ((p + 1) * p) * (n * (2 * R + δ))) := fun k hk => by
    rw [mul_assoc]
    exact ev_entries hev (modelMatrix_isHermitian s M0 M x) (modelMatrix_isHermitian s M0' M' x) (model_close s hδ hR h0 hc hM hR0 hRM x) hk
  clear i2 call
  induction idx with
  | nil => exact List.Forall₂.nil
  | cons i t ih => exact List.Forall₂.cons (main i (i1 i List.mem_cons_self)) (ih fun j hj => i1 j (List.mem_cons_of_mem _ hj))

/-- The matrices in a parameter array of shape `(p + 1, n, n)`. -/
def stored (P : Fin (p + 1) × Fin n × Fin n → ℂ) : List (Matrix (Fin n) (Fin n) ℂ) := List.ofFn fun q => .of fun i j => P (q, i, j)

/-- **C124** A training of the matrices of a model changes its predictions for a sample by at most the learning rate times the number of steps times a
number that depends on `b1`, `b2`, the size of the matrices, the features and the smoothing, whatever the data, the loss and the gradients are. -/
theorem C124_training {α S K F : Type} (cfg : Train.Cfg α (Fin (p + 1) × Fin n × Fin n → ℂ) S K F) (lr : Nat → ℝ) (b1 b2 eps clip L : ℝ) (h1 : 0 ≤ b1) (h1' : b1 < 1)
    (h12 : b1 ^ 2 < b2) (h2 : b2 < 1) (he : 0 ≤ eps) (hlr : ∀ e, |lr e| ≤ L) (hu : cfg.update = updateC lr b1 b2 eps clip)
    (hcb : ∀ k e ps, (cfg.callback k e ps).2 = ps) (m : Nat) (hperm : ∀ k n, (cfg.perm k n).Perm (List.range n)) (hd : DataUniform m cfg.train)
    (hs : 0 < cfg.batchSize) (adam : List (OptState (Fin (p + 1) × Fin n × Fin n → ℂ))) (hl : cfg.flags.length = adam.length)
    (hb : ∀ a ∈ adam, BalancedC b1 b2 a) (key : K) (st : S) (rng : K)
    (t : TState (Fin (p + 1) × Fin n × Fin n → ℂ) S K F) (h : run cfg key adam st rng = .ok t) (k : Nat) (a : OptState (Fin (p + 1) × Fin n × Fin n → ℂ))
    (ha : adam[k]? = some a) (ev : Matrix (Fin n) (Fin n) ℂ → List ℝ) (hev : IsEigvalsh ev) (c : Eigen.Cfg) {part : Part}
    (hw : parseWhich c.which = .ok (part, .algebraic)) (hk : c.numEig.getD n ≤ n) (s R : ℝ) (hR : 0 ≤ R) (hRa : ∀ q, ‖a.params q‖ ≤ R) (x : Fin p → ℝ)
    (δ : ℝ) (hδ : δ = ((t.best.epoch + 1) * batchCount m cfg.batchSize : Nat) * (L * reach b1 b2)) :
    ∃ y u v, t.best.inner.adam[k]? = some y ∧ eigenvalueCall ev c true s (stored a.params) (.leaf [sample x]) = .ok (.leaf [u]) ∧
      eigenvalueCall ev c true s (stored y.params) (.leaf [sample x]) = .ok (.leaf [v]) ∧
      List.Forall₂ (fun u w => |u - w| ≤ n * δ * (1 + ∑ q, |x q| + |s| * ((p + 1) * p) * (n * (2 * R + δ)))) u v := by
  have hL : 0 ≤ L := (abs_nonneg _).trans (hlr 0)
  have hδ0 : 0 ≤ δ := by rw [hδ]; exact mul_nonneg (Nat.cast_nonneg _) (mul_nonneg hL (Real.sqrt_nonneg _))
  have split : ∀ P : Fin (p + 1) × Fin n × Fin n → ℂ, stored P = (some (Matrix.of fun i j => P (0, i, j))).toList ++
      List.ofFn fun q : Fin p => (Matrix.of fun i j => P (q.succ, i, j) : Matrix (Fin n) (Fin n) ℂ) := fun P => by
    rw [stored, List.ofFn_succ]; rfl
  have move := fun j => (C123_training_complex cfg lr b1 b2 eps clip L h1 h1' h12 h2 he hlr hu hcb m hperm hd hs adam hl hb key st rng t h k a ha j).2
  have hy : ∃ y, t.best.inner.adam[k]? = some y ∧ ∀ j, ‖a.params j - y.params j‖ ≤ δ := by
    rcases isEmpty_or_nonempty (Fin (p + 1) × Fin n × Fin n) with he | ⟨⟨j⟩⟩
    · have := near_run (c := cfg) (I := fun _ => True) (d := fun _ _ => 0) (fun _ => rfl) (fun _ _ _ => by simp) (B := 0) le_rfl (fun _ _ _ => ⟨trivial, le_rfl⟩)
        (fun _ _ _ => trivial) hcb hperm hd hs hl (fun _ _ => trivial) h (N := batchCount m cfg.batchSize) rfl
      exact ⟨_, List.getElem?_eq_getElem (by rw [this.2.1]; exact (List.getElem?_eq_some_iff.1 ha).1), fun j => (he.false j).elim⟩
    · obtain ⟨y, hy, -⟩ := move j
      refine ⟨y, hy, fun j => ?_⟩
      obtain ⟨y', hy', hj⟩ := move j
      rw [hy] at hy'
      cases hy'
      rw [norm_sub_rev, hδ]
      exact hj
  obtain ⟨y, hy, hyb⟩ := hy
  obtain ⟨u, v, hu', hv', hf⟩ := C124_parameters ev hev c hw hk s (some (Matrix.of fun i j => a.params (0, i, j))) (some (Matrix.of fun i j => y.params (0, i, j)))
    (fun q => Matrix.of fun i j => a.params (q.succ, i, j)) (fun q => Matrix.of fun i j => y.params (q.succ, i, j)) δ R hδ0 hR rfl
    (fun A hA B hB i j => by cases hA; cases hB; exact hyb _) (fun q i j => hyb _) (fun A hA i j => by cases hA; exact hRa _) (fun q i j => hRa _) x
  refine ⟨y, u, v, hy, ?_, ?_, hf⟩
  · rw [split]; exact hu'
  · rw [split]; exact hv'

/-- The matrix with all entries `c`. -/
def flatMatrix (n : Nat) (c : ℝ) : Matrix (Fin n) (Fin n) ℂ := .of fun _ _ => (c : ℂ)

theorem herm_flat (c : ℝ) : herm (flatMatrix n c) = flatMatrix n c := by
  ext i j
  simp [herm, flatMatrix, Complex.conj_ofReal]
  ring

theorem flat_isHermitian (c : ℝ) : (flatMatrix n c).IsHermitian := by
  ext i j
  simp [flatMatrix, Matrix.conjTranspose_apply, Complex.conj_ofReal]

theorem model_flat (c0 : ℝ) (c x : Fin p → ℝ) :
    modelMatrix 0 (some (flatMatrix n c0)) (fun q => flatMatrix n (c q)) x = flatMatrix n (c0 + ∑ q, x q * c q) := by
  rw [model_stack]
  ext i j
  simp only [herm_flat, Complex.ofReal_zero, zero_smul, add_zero, Matrix.add_apply, Matrix.sum_apply, Matrix.smul_apply, smul_eq_mul]
  simp [flatMatrix]

/-- **C124** Without smoothing no smaller number will do: for every sample there are two models with stored entries at most `δ` apart whose largest
eigenvalues are exactly that far apart. -/
theorem C124_attained (ev : Matrix (Fin n) (Fin n) ℂ → List ℝ) (hev : IsEigvalsh ev) (c : Eigen.Cfg) (hw : parseWhich c.which = .ok (.largest, .algebraic))
    (hk : c.numEig.getD n = 1) (hn : 0 < n) (δ : ℝ) (hδ : 0 ≤ δ) (x : Fin p → ℝ) :
    ∃ (M0' : Matrix (Fin n) (Fin n) ℂ) (M' : Fin p → Matrix (Fin n) (Fin n) ℂ) (a b : ℝ), (∀ i j, ‖M0' i j‖ ≤ δ) ∧ (∀ q i j, ‖M' q i j‖ ≤ δ) ∧
      eigenvalueCall ev c true 0 (0 :: List.ofFn fun _ : Fin p => 0) (.leaf [sample x]) = .ok (.leaf [[a]]) ∧
      eigenvalueCall ev c true 0 (M0' :: List.ofFn M') (.leaf [sample x]) = .ok (.leaf [[b]]) ∧ |a - b| = n * δ * (1 + ∑ q, |x q|) := by
  set sg : Fin p → ℝ := fun q => if 0 ≤ x q then δ else -δ with hsg
  have z : ∀ i : Nat, flatMatrix i 0 = 0 := fun i => by ext; simp [flatMatrix]
  obtain ⟨idx, -, hcall, hidx⟩ := call_sorted ev hev c hw (by omega) 0 (some (flatMatrix n 0)) (fun _ : Fin p => flatMatrix n 0)
  obtain ⟨idx', -, hcall', hidx'⟩ := call_sorted ev hev c hw (by omega) 0 (some (flatMatrix n δ)) (fun q : Fin p => flatMatrix n (sg q))
  rw [(hidx hk).2 rfl] at hcall
  rw [(hidx' hk).2 rfl] at hcall'
  have hc := hcall x
  have hc' := hcall' x
  rw [model_flat] at hc hc'
  have e0 : (0 : ℝ) + ∑ q, x q * 0 = 0 := by simp
  have e1 : δ + ∑ q, x q * sg q = δ * (1 + ∑ q, |x q|) := by
    rw [mul_add, mul_one, Finset.mul_sum]
    congr 1
    refine Finset.sum_congr rfl fun q _ => ?_
    simp only [hsg]
    split
    · rename_i h; rw [abs_of_nonneg h, mul_comm]
    · rename_i h; rw [abs_of_neg (not_le.1 h)]; ring
  rw [e0] at hc
  rw [e1] at hc'
  set d := δ * (1 + ∑ q, |x q|)
  have hd : 0 ≤ d := mul_nonneg hδ (add_nonneg zero_le_one (Finset.sum_nonneg fun _ _ => abs_nonneg _))
  have g0 := getD_some (E := ev (flatMatrix n 0)) (i := n - 1) (by rw [ev_length hev (flat_isHermitian 0)]; omega)
  have g1 := getD_some (E := ev (flatMatrix n d)) (i := n - 1) (by rw [ev_length hev (flat_isHermitian d)]; omega)
  set a := (ev (flatMatrix n 0)).getD (n - 1) 0
  set b := (ev (flatMatrix n d)).getD (n - 1) 0
  have hab : |a - b| ≤ n * d := ev_entries hev (flat_isHermitian 0) (flat_isHermitian d) (fun i j => by simp [flatMatrix, abs_of_nonneg hd]) (by omega)
  obtain ⟨-, v, -, hv⟩ := ev_greatest hev (flat_isHermitian 0) g0
  have ha0 : a = 0 := by rw [← hv, z]; simp [energy]
  have hb1 := (ev_greatest hev (flat_isHermitian d) g1).1 fun _ => 1
  have en : energy (flatMatrix n d) (fun _ => 1) = d * n * n := by
    simp [energy, dotProduct, Matrix.mulVec, flatMatrix]
    ring
  have le : lenSq (fun _ : Fin n => (1 : ℂ)) = n := by simp [lenSq]
  rw [en, le] at hb1
  have hb2 : d * n ≤ b := le_of_mul_le_mul_right hb1 (by exact_mod_cast hn)
  refine ⟨flatMatrix n δ, fun q => flatMatrix n (sg q), a, b, fun i j => by simp [flatMatrix, abs_of_nonneg hδ], fun q i j => ?_, ?_, hc', ?_⟩
  · simp only [flatMatrix, Matrix.of_apply, Complex.norm_real, Real.norm_eq_abs, hsg]
    split <;> simp [abs_of_nonneg hδ]
  · have := hc
    simp only [z] at this
    exact this
  · rw [mul_assoc]
    refine le_antisymm hab ?_
    rw [ha0, zero_sub, abs_neg]
    exact (by rw [mul_comm]; exact hb2 : n * d ≤ b).trans (le_abs_self b)

/-- One complex model with one 2×2 matrix per feature and a constant one, two batches of one sample, one epoch, all gradients 1. -/
noncomputable def stackCfg : Train.Cfg Nat (Fin 2 × Fin 2 × Fin 2 → ℂ) Unit Nat Bool where
  perm _ n := List.range n
  splitN _ n := List.range n
  split k := (k + 1, k + 7)
  grad _ _ s _ _ := ([fun _ => 1], s)
  valLoss _ _ _ _ _ := true
  update := updateC (fun _ => 1 / 100) 0.9 0.999 1e-8 1e3
  callback k _ ps := (k, ps)
  verbose := false
  interrupted _ := false
  flags := [true]
  train := ⟨[[1, 2]], Option.none, Option.none⟩
  val := ⟨[[1, 2]], Option.none, Option.none⟩
  batchSize := 1
  valBatchSize := 2
  epochs := 1
  target := false
  patience := 5
  minDelta := false
  lt a b := !a && b
  le a b := !a || b
  sub a _ := a
  add a b := a || b
  divNat a _ := a
  zero := false

/-- The theorem applies to this training: with matrices that start with entries 1, the two predictions before and after it exist and their
eigenvalues are as close as it says. -/
example : ∃ (ev : Matrix (Fin 2) (Fin 2) ℂ → List ℝ) (t : TState (Fin 2 × Fin 2 × Fin 2 → ℂ) Unit Nat Bool)
    (y : OptState (Fin 2 × Fin 2 × Fin 2 → ℂ)) (δ : ℝ) (u v : List ℝ),
    IsEigvalsh ev ∧ run stackCfg 0 [initC fun _ => 1] () 0 = .ok t ∧ t.best.inner.adam[0]? = some y ∧
    eigenvalueCall ev ⟨some 1, "SA".toList⟩ true 0 (stored (p := 1) fun _ => 1) (.leaf [sample fun _ : Fin 1 => 3]) = .ok (.leaf [u]) ∧
    eigenvalueCall ev ⟨some 1, "SA".toList⟩ true 0 (stored y.params) (.leaf [sample fun _ : Fin 1 => 3]) = .ok (.leaf [v]) ∧
    δ ≤ 2 ∧ List.Forall₂ (fun u w => |u - w| ≤ 8 * δ) u v := by
  obtain ⟨t, ht, hte⟩ : ∃ t, run stackCfg 0 [initC fun _ => 1] () 0 = .ok t ∧ t.best.epoch = 0 := ⟨_, rfl, rfl⟩
  obtain ⟨d1, d2, d3, d4, d5⟩ := C123_default
  have hu : DataUniform 2 stackCfg.train := ⟨⟨by simp [stackCfg], by simp [stackCfg]⟩, fun y hy => (by cases hy), fun y hy => (by cases hy)⟩
  obtain ⟨y, u, v, hy, hu', hv', hf⟩ := C124_training stackCfg (fun _ => 1 / 100) 0.9 0.999 1e-8 1e3 (1 / 100) d1 d2 d3 d4 (by norm_num)
    (fun _ => by rw [abs_of_pos] <;> norm_num) rfl (fun _ _ _ => rfl) 2 (fun _ n => List.Perm.refl _) hu (by simp [stackCfg]) [initC fun _ => 1] rfl
    (fun a ha => by
      rw [List.mem_singleton] at ha
      rw [ha]
      exact fun j => ⟨0, le_rfl, by simp [initC], by simp [initC]⟩) 0 () 0 t ht 0 _ rfl _ exists_eigvalsh ⟨some 1, "SA".toList⟩ (part := .smallest) (by decide)
    (by decide) 0 1 zero_le_one (fun q => by simp [initC]) (fun _ => 3) _ rfl
  refine ⟨_, t, y, ((t.best.epoch + 1) * batchCount 2 stackCfg.batchSize : Nat) * (1 / 100 * reach 0.9 0.999), u, v, exists_eigvalsh, ht, hy, hu', hv', ?_, hf.imp fun a b hab => hab.trans (le_of_eq ?_)⟩
  · rw [hte, show batchCount 2 stackCfg.batchSize = 2 from rfl]
    push_cast
    linarith
  · simp
    norm_num
    ring

end Verif.Props
