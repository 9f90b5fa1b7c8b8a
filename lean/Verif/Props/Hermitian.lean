import Verif.Lemmas.Hermitian
import Verif.Lemmas.TreeZip
import Mathlib.LinearAlgebra.Complex.FiniteDimensional
import Mathlib.LinearAlgebra.Complex.Module
import Mathlib.LinearAlgebra.FiniteDimensional.Lemmas
import Mathlib.LinearAlgebra.Matrix.Dual
import Mathlib.Data.List.Forall2
import Mathlib.Algebra.BigOperators.Field
import Mathlib.Tactic.Abel

/-! # Properties of the matrix-building modules (C54-C56) -/

namespace Verif.Props
open Verif.Hermitian Verif.Tree Verif.ForwardSpec
open scoped ComplexConjugate Matrix

variable {n r : Nat}

/-- The Hermitian part of a matrix. -/
noncomputable def herm (M : Matrix (Fin n) (Fin n) ℂ) : Matrix (Fin n) (Fin n) ℂ := (1 / 2 : ℂ) • (M + Mᴴ)

/-- `i` times the sum over all pairs `j < i` of the commutators `[M_i, M_j]`. -/
noncomputable def commutators {p : Nat} (M : Fin p → Matrix (Fin n) (Fin n) ℂ) : Matrix (Fin n) (Fin n) ℂ :=
  Complex.I • ∑ i, ∑ j, if j < i then M i * M j - M j * M i else 0

/-! ## C55: the smoothing matrix -/

/-- **C55** The smoothing matrix, computed with a running sum, is `i` times the sum of all commutators `[M_i, M_j]`, `i > j`. -/
theorem C55_sum {p : Nat} (M : Fin p → Matrix (Fin n) (Fin n) ℂ) : smoothingMatrix (List.ofFn M) = commutators M := by
  rw [smoothing_eq, commSum_ofFn]
  rfl

theorem commutators_isHermitian {p : Nat} {M : Fin p → Matrix (Fin n) (Fin n) ℂ} (h : ∀ i, (M i).IsHermitian) :
    (commutators M).IsHermitian := by
  unfold commutators Matrix.IsHermitian
  rw [Matrix.conjTranspose_smul, Matrix.conjTranspose_sum]
  simp only [Matrix.conjTranspose_sum]
  have : ∀ i j, (if j < i then M i * M j - M j * M i else 0)ᴴ = - (if j < i then M i * M j - M j * M i else 0) := by
    intro i j
    split
    · rw [Matrix.conjTranspose_sub, Matrix.conjTranspose_mul, Matrix.conjTranspose_mul, (h i).eq, (h j).eq, neg_sub]
    · simp
  simp only [this, Finset.sum_neg_distrib]
  rw [smul_neg, ← neg_smul]
  congr 1
  simp

/-- **C55** It is Hermitian when all matrices are. -/
theorem C55_hermitian (Ms : List (Matrix (Fin n) (Fin n) ℂ)) (h : ∀ M ∈ Ms, M.IsHermitian) : (smoothingMatrix Ms).IsHermitian := by
  have e : Ms = List.ofFn Ms.get := (List.ofFn_get Ms).symm
  rw [e, C55_sum]
  exact commutators_isHermitian fun i => h _ (List.get_mem Ms i)

/-- **C55** It vanishes when the matrices commute. -/
theorem C55_commuting (Ms : List (Matrix (Fin n) (Fin n) ℂ)) (h : ∀ A ∈ Ms, ∀ B ∈ Ms, A * B = B * A) : smoothingMatrix Ms = 0 := by
  have e : Ms = List.ofFn Ms.get := (List.ofFn_get Ms).symm
  rw [e, C55_sum]
  unfold commutators
  have : ∀ i j, (if j < i then Ms.get i * Ms.get j - Ms.get j * Ms.get i else 0) = 0 := by
    intro i j
    split
    · rw [h _ (List.get_mem Ms i) _ (List.get_mem Ms j), sub_self]
    · rfl
  simp only [this, Finset.sum_const_zero, smul_zero]

/-- Two Pauli matrices do not commute and their smoothing matrix is not zero. -/
example : smoothingMatrix [!![0, 1; 1, 0], !![1, 0; 0, -1]] = !![(0 : ℂ), 2 * Complex.I; -2 * Complex.I, 0] := by
  have e : [!![0, 1; 1, 0], !![1, 0; 0, -1]] = List.ofFn (![!![0, 1; 1, 0], !![1, 0; 0, -1]] : Fin 2 → Matrix (Fin 2) (Fin 2) ℂ) := by
    simp [List.ofFn_succ]
  rw [e, C55_sum]
  ext i j
  fin_cases i <;> fin_cases j <;> simp [commutators, Fin.sum_univ_two, Matrix.mul_apply] <;> ring

/-! ## C54: affine Hermitian matrices -/

theorem map_hermPart {p : Nat} (M : Fin p → Matrix (Fin n) (Fin n) ℂ) : (List.ofFn M).map hermPart = List.ofFn fun i => herm (M i) := by
  rw [List.map_ofFn]
  refine congrArg List.ofFn (funext fun i => ?_)
  exact hermPart_eq (M i)

/-- **C54** The value for one sample with a bias matrix: `M₀ + Σ xᵢ Mᵢ₊₁ + s·i·Σ [M_i, M_j]`, where every parameter matrix is replaced by
its Hermitian part. -/
theorem C54_value_bias {p : Nat} (s : ℝ) (M : Fin (p + 1) → Matrix (Fin n) (Fin n) ℂ) (x : Fin p → ℂ) :
    affine true s ((List.ofFn M).map hermPart) (List.ofFn x) =
      .ok (herm (M 0) + ∑ i, x i • herm (M i.succ) + (s : ℂ) • commutators fun i => herm (M i)) := by
  rw [map_hermPart, affine_bias]
  rfl

/-- **C54** The value for one sample without bias. -/
theorem C54_value_plain {p : Nat} (s : ℝ) (M : Fin p → Matrix (Fin n) (Fin n) ℂ) (x : Fin p → ℂ) :
    affine false s ((List.ofFn M).map hermPart) (List.ofFn x) =
      .ok (∑ i, x i • herm (M i) + (s : ℂ) • commutators fun i => herm (M i)) := by
  rw [map_hermPart, affine_plain]
  rfl

/-- **C54** A sample is accepted exactly when there is one matrix per feature (plus the bias matrix). -/
theorem C54_accepts (bias : Bool) (s : ℝ) (Ms : List (Matrix (Fin n) (Fin n) ℂ)) (x : List ℂ) :
    (∃ A, affine bias s Ms x = .ok A) ↔ Ms.length = if bias then x.length + 1 else x.length := by
  unfold affine
  cases bias with
  | true =>
    simp only [if_true]
    cases Ms with
    | nil => simp
    | cons M Ms =>
      simp only [List.length_cons, Nat.add_right_cancel_iff]
      split
      · rename_i h
        simp only [h, iff_true]
        split <;> exact ⟨_, rfl⟩
      · rename_i h
        constructor
        · rintro ⟨A, hA⟩; cases hA
        · intro e; exact absurd e.symm h
  | false =>
    simp only [Bool.false_eq_true, if_false]
    split
    · rename_i h
      simp only [h, iff_true]
      split <;> exact ⟨_, rfl⟩
    · rename_i h
      constructor
      · rintro ⟨A, hA⟩; cases hA
      · intro e; exact absurd e.symm h

/-- An accepted call in terms of families. -/
theorem affine_cases {bias : Bool} {s : ℝ} {Ms : List (Matrix (Fin n) (Fin n) ℂ)} {x : List ℂ} {A : Matrix (Fin n) (Fin n) ℂ}
    (h : affine bias s (Ms.map hermPart) x = .ok A) :
    ∃ (p : Nat) (x' : Fin p → ℂ), x = List.ofFn x' ∧
      ((∃ M : Fin (p + 1) → Matrix (Fin n) (Fin n) ℂ, bias = true ∧ Ms = List.ofFn M) ∨
        ∃ M : Fin p → Matrix (Fin n) (Fin n) ℂ, bias = false ∧ Ms = List.ofFn M) := by
  have hl := (C54_accepts bias s (Ms.map hermPart) x).1 ⟨A, h⟩
  rw [List.length_map] at hl
  refine ⟨x.length, x.get, (List.ofFn_get x).symm, ?_⟩
  cases bias with
  | true =>
    simp only [if_true] at hl
    exact .inl ⟨fun i => Ms.get (i.cast hl.symm), rfl, by rw [← List.ofFn_congr hl, List.ofFn_get]⟩
  | false =>
    simp only [Bool.false_eq_true, if_false] at hl
    exact .inr ⟨fun i => Ms.get (i.cast hl.symm), rfl, by rw [← List.ofFn_congr hl, List.ofFn_get]⟩

theorem herm_isHermitian (M : Matrix (Fin n) (Fin n) ℂ) : (herm M).IsHermitian := by
  have := hermPart_isHermitian M
  rwa [hermPart_eq] at this

theorem real_smul_isHermitian {M : Matrix (Fin n) (Fin n) ℂ} (h : M.IsHermitian) (a : ℝ) : ((a : ℂ) • M).IsHermitian := by
  unfold Matrix.IsHermitian
  rw [Matrix.conjTranspose_smul, h.eq]
  congr 1
  exact Complex.conj_ofReal a

theorem sum_isHermitian {ι : Type} (t : Finset ι) (f : ι → Matrix (Fin n) (Fin n) ℂ) (h : ∀ i, (f i).IsHermitian) :
    (∑ i ∈ t, f i).IsHermitian := by
  unfold Matrix.IsHermitian
  rw [Matrix.conjTranspose_sum]
  exact Finset.sum_congr rfl fun i _ => (h i).eq

/-- **C54** For real features the matrix is Hermitian, whatever the parameters, with or without smoothing and bias. -/
theorem C54_hermitian (bias : Bool) (s : ℝ) (Ms : List (Matrix (Fin n) (Fin n) ℂ)) (x : List ℝ) (A : Matrix (Fin n) (Fin n) ℂ)
    (h : affine bias s (Ms.map hermPart) (x.map fun a : ℝ => (a : ℂ)) = .ok A) : A.IsHermitian := by
  obtain ⟨p, x', hx, hM⟩ := affine_cases h
  have hreal : ∀ i, ∃ a : ℝ, x' i = a := by
    intro i
    have : x' i ∈ x.map fun a : ℝ => (a : ℂ) := by rw [hx, List.mem_ofFn]; exact ⟨i, rfl⟩
    obtain ⟨a, -, ha⟩ := List.mem_map.1 this
    exact ⟨a, ha.symm⟩
  have hs : ∀ f : Fin p → Matrix (Fin n) (Fin n) ℂ, (∀ i, (f i).IsHermitian) → (∑ i, x' i • f i).IsHermitian := by
    intro f hf
    refine sum_isHermitian _ _ fun i => ?_
    obtain ⟨a, ha⟩ := hreal i
    rw [ha]
    exact real_smul_isHermitian (hf i) a
  rw [hx] at h
  rcases hM with ⟨M, rfl, rfl⟩ | ⟨M, rfl, rfl⟩
  · rw [C54_value_bias] at h
    cases h
    exact ((herm_isHermitian _).add (hs _ fun i => herm_isHermitian _)).add
      (real_smul_isHermitian (commutators_isHermitian fun i => herm_isHermitian _) s)
  · rw [C54_value_plain] at h
    cases h
    exact (hs _ fun i => herm_isHermitian _).add
      (real_smul_isHermitian (commutators_isHermitian fun i => herm_isHermitian _) s)

/-- **C54** The matrix is an affine function of the features: combinations with weights `t` and `1 - t` are respected. -/
theorem C54_affine {p : Nat} (bias : Bool) (s : ℝ) (Ms : List (Matrix (Fin n) (Fin n) ℂ)) (x y : Fin p → ℂ) (t : ℂ)
    (A B : Matrix (Fin n) (Fin n) ℂ) (hx : affine bias s (Ms.map hermPart) (List.ofFn x) = .ok A)
    (hy : affine bias s (Ms.map hermPart) (List.ofFn y) = .ok B) :
    affine bias s (Ms.map hermPart) (List.ofFn fun i => t * x i + (1 - t) * y i) = .ok (t • A + (1 - t) • B) := by
  have hsum : ∀ f : Fin p → Matrix (Fin n) (Fin n) ℂ,
      ∑ i, (t * x i + (1 - t) * y i) • f i = t • ∑ i, x i • f i + (1 - t) • ∑ i, y i • f i := by
    intro f
    rw [Finset.smul_sum, Finset.smul_sum, ← Finset.sum_add_distrib]
    refine Finset.sum_congr rfl fun i _ => ?_
    rw [add_smul, mul_smul, mul_smul]
  have hc : ∀ C : Matrix (Fin n) (Fin n) ℂ, C = t • C + (1 - t) • C := by
    intro C
    rw [← add_smul]; simp
  have hl := (C54_accepts bias s (Ms.map hermPart) _).1 ⟨A, hx⟩
  rw [List.length_map, List.length_ofFn] at hl
  cases bias with
  | true =>
    simp only [if_true] at hl
    obtain ⟨M, rfl⟩ : ∃ M : Fin (p + 1) → Matrix (Fin n) (Fin n) ℂ, Ms = List.ofFn M :=
      ⟨fun i => Ms.get (i.cast hl.symm), by rw [← List.ofFn_congr hl, List.ofFn_get]⟩
    rw [C54_value_bias] at hx hy ⊢
    cases hx
    cases hy
    refine congrArg _ ?_
    rw [hsum]
    conv_lhs => rw [hc (herm (M 0)), hc ((s : ℂ) • commutators fun i => herm (M i))]
    simp only [smul_add]
    abel
  | false =>
    simp only [Bool.false_eq_true, if_false] at hl
    obtain ⟨M, rfl⟩ : ∃ M : Fin p → Matrix (Fin n) (Fin n) ℂ, Ms = List.ofFn M :=
      ⟨fun i => Ms.get (i.cast hl.symm), by rw [← List.ofFn_congr hl, List.ofFn_get]⟩
    rw [C54_value_plain] at hx hy ⊢
    cases hx
    cases hy
    refine congrArg _ ?_
    rw [hsum]
    conv_lhs => rw [hc ((s : ℂ) • commutators fun i => herm (M i))]
    simp only [smul_add]
    abel

theorem mapM_forall₂ {α β ε : Type} {f : α → Except ε β} : ∀ {l : List α} {r : List β}, l.mapM f = .ok r →
    List.Forall₂ (fun a b => f a = .ok b) l r
  | [], r, h => by cases h; exact List.Forall₂.nil
  | a :: l, r, h => by
    rw [List.mapM_cons] at h
    simp only [bind, Except.bind] at h
    split at h
    · cases h
    · rename_i b hb
      split at h
      · cases h
      · rename_i bs hbs
        cases h
        exact List.Forall₂.cons hb (mapM_forall₂ hbs)

/-- **C54** Applied to data, the module keeps the structure and the batch: every sample at every place becomes its own matrix, Hermitian
if its features are real. -/
theorem C54_data (bias : Bool) (s : ℝ) (Ms : List (Matrix (Fin n) (Fin n) ℂ)) (data : Tree (List (List ℂ)))
    (out : Tree (List (Matrix (Fin n) (Fin n) ℂ))) (h : affineCallable bias s Ms data = .ok out) :
    map (fun _ => ()) out = map (fun _ => ()) data.norm ∧
    ∀ p xs, At data p xs → ∃ As, At out p As ∧ List.Forall₂ (fun x A => affine bias s (Ms.map hermPart) x = .ok A ∧
      ((∃ x' : List ℝ, x = x'.map fun a : ℝ => (a : ℂ)) → A.IsHermitian)) xs As := by
  unfold affineCallable at h
  have hleaf : ∀ (xs : List (List ℂ)) (w : Tree (List (Matrix (Fin n) (Fin n) ℂ))), (match xs.mapM (affine bias s (Ms.map hermPart)) with
    | .ok r => Except.ok (Tree.leaf r)
    | .error e => .error e) = .ok w → ∃ b, w = .leaf b := by
    intro xs w hw
    split at hw
    · cases hw; exact ⟨_, rfl⟩
    · cases hw
  refine ⟨?_, fun p xs hp => ?_⟩
  · obtain ⟨z, h1, h2, -⟩ := mapM_graph hleaf _ h
    rw [← h2, map_map, ← h1, map_map]
  · obtain ⟨w, hw, hs⟩ := mapM_at h (at_norm.2 hp)
    split at hw
    · rename_i r hr
      cases hw
      refine ⟨r, sub_leaf.1 hs, (mapM_forall₂ hr).imp fun x A hA => ⟨hA, ?_⟩⟩
      rintro ⟨x', rfl⟩
      exact C54_hermitian bias s Ms x' A hA
    · cases hw

instance finite_hermitian : Module.Finite ℝ (selfAdjoint (Matrix (Fin n) (Fin n) ℂ)) :=
    Module.Finite.of_injective (N := Matrix (Fin n) (Fin n) ℂ)
      ({ toFun := Subtype.val, map_add' := fun _ _ => rfl, map_smul' := fun _ _ => rfl } :
        selfAdjoint (Matrix (Fin n) (Fin n) ℂ) →ₗ[ℝ] Matrix (Fin n) (Fin n) ℂ) Subtype.val_injective

/-- Real dimension of the Hermitian matrices. -/
theorem finrank_hermitian : Module.finrank ℝ (selfAdjoint (Matrix (Fin n) (Fin n) ℂ)) = n * n := by
  have e1 : Module.finrank ℝ (Matrix (Fin n) (Fin n) ℂ) = 2 * (n * n) := by
    rw [finrank_real_of_complex, Module.finrank_matrix]
    simp
  have e2 := LinearEquiv.finrank_eq (StarModule.decomposeProdAdjoint ℝ (Matrix (Fin n) (Fin n) ℂ))
  haveI : Module.Finite ℝ (skewAdjoint (Matrix (Fin n) (Fin n) ℂ)) :=
    Module.Finite.of_injective (N := Matrix (Fin n) (Fin n) ℂ)
      ({ toFun := Subtype.val, map_add' := fun _ _ => rfl, map_smul' := fun _ _ => rfl } :
        skewAdjoint (Matrix (Fin n) (Fin n) ℂ) →ₗ[ℝ] Matrix (Fin n) (Fin n) ℂ) Subtype.val_injective
  have e3 : Module.finrank ℝ (skewAdjoint (Matrix (Fin n) (Fin n) ℂ)) = Module.finrank ℝ (selfAdjoint (Matrix (Fin n) (Fin n) ℂ)) := by
    refine le_antisymm ?_ ?_
    · refine LinearMap.finrank_le_finrank_of_injective (f := skewAdjoint.negISMul) fun a b hab => ?_
      apply Subtype.ext
      rw [← skewAdjoint.I_smul_neg_I a, ← skewAdjoint.I_smul_neg_I b, hab]
    · let f : selfAdjoint (Matrix (Fin n) (Fin n) ℂ) →ₗ[ℝ] skewAdjoint (Matrix (Fin n) (Fin n) ℂ) :=
        { toFun := fun a => ⟨Complex.I • (a : Matrix (Fin n) (Fin n) ℂ), by
            rw [skewAdjoint.mem_iff, star_smul, a.2.star_eq]
            simp⟩
          map_add' := fun a b => by apply Subtype.ext; simp
          map_smul' := fun c a => by apply Subtype.ext; exact smul_comm Complex.I c (a : Matrix (Fin n) (Fin n) ℂ) }
      refine LinearMap.finrank_le_finrank_of_injective (f := f) fun a b hab => ?_
      have : ((f a : skewAdjoint (Matrix (Fin n) (Fin n) ℂ)) : Matrix (Fin n) (Fin n) ℂ) = f b := congrArg Subtype.val hab
      apply Subtype.ext
      simpa [f] using this
  rw [Module.finrank_prod, e3] at e2
  omega

/-- **C54** The number of trainable floats is the number of real degrees of freedom of that many Hermitian matrices. -/
theorem C54_floats {p : Nat} (M : Fin p → Matrix (Fin n) (Fin n) ℂ) :
    numFloats (List.ofFn M) = Module.finrank ℝ (Fin p → selfAdjoint (Matrix (Fin n) (Fin n) ℂ)) := by
  rw [Module.finrank_pi_fintype]
  simp [numFloats, finrank_hermitian]

/-- **C54** Compiling gives one Hermitian matrix per feature (plus the bias), so that every sample of that size is accepted; parameters
that are already there are kept as they are, or refused if their number is wrong. -/
theorem C54_compile (bias : Bool) (s : ℝ) (Ms : Option (List (Matrix (Fin n) (Fin n) ℂ))) (fresh : Nat → List (Matrix (Fin n) (Fin n) ℂ))
    (hfresh : ∀ p, (fresh p).length = p) (f : Nat) :
    (∀ Ms', Hermitian.compile bias Ms fresh f = .ok Ms' → (∀ Ms₀, Ms = some Ms₀ → Ms' = Ms₀) ∧ (Ms = Option.none → ∀ M ∈ Ms', M.IsHermitian) ∧
      ∀ x : List ℂ, (∃ A, affine bias s (Ms'.map hermPart) x = .ok A) ↔ x.length = f) ∧
    (∀ e, Hermitian.compile bias Ms fresh f = .error e → e = .valueError ∧
      ∃ Ms₀, Ms = some Ms₀ ∧ ∀ x : List ℂ, x.length = f → ¬ ∃ A, affine bias s (Ms₀.map hermPart) x = .ok A) := by
  have hacc : ∀ (Ms' : List (Matrix (Fin n) (Fin n) ℂ)) (x : List ℂ), Ms'.length = (if bias then f + 1 else f) →
      ((∃ A, affine bias s (Ms'.map hermPart) x = .ok A) ↔ x.length = f) := by
    intro Ms' x hl
    rw [C54_accepts, List.length_map, hl]
    cases bias <;> simp <;> exact eq_comm
  unfold Hermitian.compile
  cases Ms with
  | none =>
    refine ⟨fun Ms' h => ?_, fun e h => (by cases h)⟩
    cases h
    refine ⟨fun Ms₀ h => (by cases h), fun _ M hM => ?_, fun x => hacc _ x (by rw [List.length_map, hfresh])⟩
    obtain ⟨M', -, rfl⟩ := List.mem_map.1 hM
    exact hermPart_isHermitian M'
  | some Ms =>
    simp only
    by_cases hne : Ms.length ≠ if bias = true then f + 1 else f
    · rw [if_pos hne]
      refine ⟨fun Ms' h => (by cases h), fun e h => ?_⟩
      cases h
      refine ⟨rfl, Ms, rfl, fun x hx hA => ?_⟩
      rw [C54_accepts, List.length_map, hx] at hA
      exact hne hA
    · rw [if_neg hne]
      refine ⟨fun Ms' h => ?_, fun e h => (by cases h)⟩
      cases h
      exact ⟨fun Ms₀ h => (by cases h; rfl), fun h => (by cases h), fun x => hacc _ x (not_not.1 hne)⟩

/-- A bias matrix and one feature, smoothing on: the call is accepted and the parameters are not Hermitian. -/
example : ∃ A, affine true (1 / 2) (([!![0, 1; 0, 0], !![1, 0; 0, -1]] : List (Matrix (Fin 2) (Fin 2) ℂ)).map hermPart)
    ([2].map fun a : ℝ => (a : ℂ)) = .ok A := (C54_accepts _ _ _ _).2 (by simp)

/-! ## C56: low rank -/

theorem lowRank_eq (l : Fin r → ℂ) (u : Matrix (Fin n) (Fin r) ℂ) :
    hermPart (lowRank l u) = u * (Matrix.diagonal (fun k => ((l k).re : ℂ)) * uᴴ) := by
  funext a b
  rw [Matrix.mul_apply]
  simp only [hermPart, lowRank, Matrix.of_apply, map_sum, map_mul, Complex.conj_conj]
  rw [← Finset.sum_add_distrib, Finset.sum_div]
  refine Finset.sum_congr rfl fun k _ => ?_
  rw [Matrix.diagonal_mul, Complex.re_eq_add_conj, Matrix.conjTranspose_apply, show star (u b k) = conj (u b k) from rfl]
  ring

theorem rank_add_le (A B : Matrix (Fin n) (Fin n) ℂ) : (A + B).rank ≤ A.rank + B.rank := by
  unfold Matrix.rank
  rw [Matrix.mulVecLin_add]
  refine (Submodule.finrank_mono (LinearMap.range_add_le _ _)).trans (Submodule.finrank_add_le_finrank_add_finrank _ _)

/-- **C56** Every matrix is Hermitian for real features: also if the coefficients are not real. -/
theorem C56_hermitian (bias : Bool) (s : ℝ) (ls : List (Fin r → ℂ)) (us : List (Matrix (Fin n) (Fin r) ℂ)) (x : List ℝ)
    (A : Matrix (Fin n) (Fin n) ℂ) (h : lowRankAffine bias s ls us (x.map fun a : ℝ => (a : ℂ)) = .ok A) : A.IsHermitian :=
  C54_hermitian bias s _ x A h

theorem smul_lowRank_rank (c : ℂ) (l : Fin r → ℂ) (u : Matrix (Fin n) (Fin r) ℂ) : (c • hermPart (lowRank l u)).rank ≤ r := by
  rw [lowRank_eq, ← Matrix.smul_mul]
  exact (Matrix.rank_mul_le_left _ _).trans (Matrix.rank_le_width _)

theorem zip_ofFn {p : Nat} (l : Fin p → Fin r → ℂ) (u : Fin p → Matrix (Fin n) (Fin r) ℂ) :
    List.zipWith lowRank (List.ofFn l) (List.ofFn u) = List.ofFn fun i => lowRank (l i) (u i) := by
  apply List.ext_getElem
  · simp
  · intro i h1 h2
    simp

/-- **C56** Changing one feature changes the matrix by one of rank at most `r` (with or without bias and smoothing). -/
theorem C56_rank_per_feature {p q : Nat} (bias : Bool) (s : ℝ) (l : Fin q → Fin r → ℂ) (u : Fin q → Matrix (Fin n) (Fin r) ℂ)
    (x y : Fin p → ℂ) (i : Fin p) (hxy : ∀ j, j ≠ i → x j = y j) (A B : Matrix (Fin n) (Fin n) ℂ)
    (hA : lowRankAffine bias s (List.ofFn l) (List.ofFn u) (List.ofFn x) = .ok A)
    (hB : lowRankAffine bias s (List.ofFn l) (List.ofFn u) (List.ofFn y) = .ok B) : (A - B).rank ≤ r := by
  unfold lowRankAffine at hA hB
  rw [zip_ofFn] at hA hB
  have hl := (C54_accepts _ _ _ _).1 ⟨A, hA⟩
  rw [List.length_map, List.length_ofFn, List.length_ofFn] at hl
  have hd : ∀ f : Fin p → Matrix (Fin n) (Fin n) ℂ, ∑ j, x j • f j - ∑ j, y j • f j = (x i - y i) • f i := by
    intro f
    rw [← Finset.sum_sub_distrib]
    rw [Finset.sum_eq_single i]
    · rw [sub_smul]
    · intro j _ hj; rw [hxy j hj, sub_self]
    · intro h; exact absurd (Finset.mem_univ _) h
  cases bias with
  | true =>
    simp only [if_true] at hl
    subst hl
    rw [C54_value_bias] at hA hB
    cases hA
    cases hB
    have : ∀ X S S' Y : Matrix (Fin n) (Fin n) ℂ, X + S + Y - (X + S' + Y) = S - S' := by intros; abel
    rw [this, hd, herm, ← hermPart_eq]
    exact smul_lowRank_rank _ _ _
  | false =>
    simp only [Bool.false_eq_true, if_false] at hl
    subst hl
    rw [C54_value_plain] at hA hB
    cases hA
    cases hB
    have : ∀ S S' Y : Matrix (Fin n) (Fin n) ℂ, S + Y - (S' + Y) = S - S' := by intros; abel
    rw [this, hd, herm, ← hermPart_eq]
    exact smul_lowRank_rank _ _ _

/-- **C56** Without smoothing the rank of the whole matrix is at most `r` per parameter matrix. -/
theorem C56_rank_total {p q : Nat} (bias : Bool) (l : Fin q → Fin r → ℂ) (u : Fin q → Matrix (Fin n) (Fin r) ℂ) (x : Fin p → ℂ)
    (A : Matrix (Fin n) (Fin n) ℂ) (hA : lowRankAffine bias 0 (List.ofFn l) (List.ofFn u) (List.ofFn x) = .ok A) : A.rank ≤ q * r := by
  unfold lowRankAffine at hA
  rw [zip_ofFn] at hA
  have hl := (C54_accepts _ _ _ _).1 ⟨A, hA⟩
  rw [List.length_map, List.length_ofFn, List.length_ofFn] at hl
  have hs : ∀ (t : Finset (Fin p)) (x : Fin p → ℂ) (f : Fin p → Matrix (Fin n) (Fin n) ℂ), (∀ j, (x j • f j).rank ≤ r) →
      (∑ j ∈ t, x j • f j).rank ≤ t.card * r := by
    intro t x f hf
    induction t using Finset.induction_on with
    | empty => simp
    | insert a t ha ih =>
      rw [Finset.sum_insert ha, Finset.card_insert_of_notMem ha]
      refine (rank_add_le _ _).trans ?_
      rw [Nat.succ_mul]
      have := hf a
      omega
  cases bias with
  | true =>
    simp only [if_true] at hl
    subst hl
    rw [C54_value_bias] at hA
    cases hA
    rw [Complex.ofReal_zero, zero_smul, add_zero]
    refine (rank_add_le _ _).trans ?_
    have h1 := hs Finset.univ x (fun j => herm (lowRank (l j.succ) (u j.succ))) fun j => by
      rw [herm, ← hermPart_eq]; exact smul_lowRank_rank _ _ _
    have h0 : (herm (lowRank (l 0) (u 0))).rank ≤ r := by
      rw [herm, ← hermPart_eq, ← one_smul ℂ (hermPart _)]; exact smul_lowRank_rank _ _ _
    rw [Finset.card_univ, Fintype.card_fin] at h1
    rw [Nat.succ_mul]
    omega
  | false =>
    simp only [Bool.false_eq_true, if_false] at hl
    subst hl
    rw [C54_value_plain] at hA
    cases hA
    rw [Complex.ofReal_zero, zero_smul, add_zero]
    have h1 := hs Finset.univ x (fun j => herm (lowRank (l j) (u j))) fun j => by
      rw [herm, ← hermPart_eq]; exact smul_lowRank_rank _ _ _
    rw [Finset.card_univ, Fintype.card_fin] at h1
    exact h1

/-- A bias matrix and one feature of rank one in dimension two. -/
example : ∃ A, lowRankAffine true 0 (List.ofFn (fun (_ : Fin 2) (_ : Fin 1) => (1 : ℂ)))
    (List.ofFn fun _ : Fin 2 => (!![1; Complex.I] : Matrix (Fin 2) (Fin 1) ℂ)) (List.ofFn fun _ : Fin 1 => (3 : ℂ)) = .ok A :=
  (C54_accepts _ _ _ _).2 (by simp)

end Verif.Props
