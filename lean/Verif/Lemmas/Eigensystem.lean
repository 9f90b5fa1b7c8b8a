import Verif.Lemmas.Spectrum
import Mathlib.Data.Fin.Tuple.Sort

/-! # Eigensystems of a Hermitian matrix -/

namespace Verif.Pmm
open Matrix PmmSpec

variable {n : Nat}

/-- The vectors of a list as the columns of a matrix. -/
def colMatrix (r : Nat) (V : List (Fin n → ℂ)) : Matrix (Fin n) (Fin r) ℂ := .of fun a i => (V.getD i 0) a

theorem getD_of_lt {α : Type} {l : List α} {i : Nat} (h : i < l.length) (d : α) : l[i]? = some (l.getD i d) := by
  simp [List.getD_eq_getElem?_getD, List.getElem?_eq_getElem h]

variable {A : Matrix (Fin n) (Fin n) ℂ} {E E' : List ℝ} {V V' : List (Fin n → ℂ)}

theorem eigen_gram (h : IsEigensystem A E V) : (colMatrix n V)ᴴ * colMatrix n V = 1 := by
  ext i j
  have hi := getD_of_lt (l := V) (i := i) (by rw [h.sizeV]; exact i.2) 0
  have hj := getD_of_lt (l := V) (i := j) (by rw [h.sizeV]; exact j.2) 0
  have := h.ortho i j _ _ hi hj
  rw [mul_apply, one_apply]
  simp only [Fin.val_inj] at this
  rw [← this]
  rfl

theorem eigen_gram' (h : IsEigensystem A E V) : colMatrix n V * (colMatrix n V)ᴴ = 1 := mul_eq_one_comm.1 (eigen_gram h)

theorem eigen_mul (h : IsEigensystem A E V) : A * colMatrix n V = colMatrix n V * diagonal fun i : Fin n => ((E.getD i 0 : ℝ) : ℂ) := by
  ext a i
  have hi := getD_of_lt (l := V) (i := i) (by rw [h.sizeV]; exact i.2) 0
  have hE := getD_of_lt (l := E) (i := i) (by rw [h.sizeE]; exact i.2) 0
  have := congrFun (h.vec i _ _ hE hi) a
  rw [mul_diagonal, mul_comm]
  exact this

theorem eigen_diag (h : IsEigensystem A E V) : A = colMatrix n V * (diagonal fun i : Fin n => ((E.getD i 0 : ℝ) : ℂ)) * (colMatrix n V)ᴴ := by
  rw [← eigen_mul h, Matrix.mul_assoc, eigen_gram' h, Matrix.mul_one]

/-- The eigenvalues of an eigensystem are the roots of the characteristic polynomial, with multiplicity. -/
theorem eigen_roots (h : IsEigensystem A E V) : ((E.map fun e : ℝ => (e : ℂ)) : Multiset ℂ) = A.charpoly.roots := by
  have e : (∏ i : Fin n, (Polynomial.X - Polynomial.C ((E.getD i 0 : ℝ) : ℂ))) =
      ((Multiset.map (fun i : Fin n => ((E.getD i 0 : ℝ) : ℂ)) Finset.univ.val).map fun a => Polynomial.X - Polynomial.C a).prod := by
    rw [Multiset.map_map]; rfl
  have hE : E = List.ofFn fun i : Fin n => E.getD i 0 := by
    refine List.ext_getElem (by rw [List.length_ofFn, h.sizeE]) fun i h1 h2 => ?_
    rw [List.getElem_ofFn]
    simp [List.getD_eq_getElem?_getD, List.getElem?_eq_getElem h1]
  conv_rhs => rw [eigen_diag h]
  rw [charpoly_mul_comm, ← Matrix.mul_assoc, eigen_gram h, Matrix.one_mul, charpoly_diagonal, e, Polynomial.roots_multiset_prod_X_sub_C]
  conv_lhs => rw [hE]
  rw [List.map_ofFn, List.ofFn_eq_map, ← Multiset.map_coe]
  rfl

/-- The eigenvalues that `eigh` returns are the ones of `eigvalsh`. -/
theorem eigh_eigvalsh {eigh : Matrix (Fin n) (Fin n) ℂ → List ℝ × List (Fin n → ℂ)} (h : IsEigh eigh) : IsEigvalsh fun A => (eigh A).1 :=
  fun A hA => ⟨(h A hA).sorted, eigen_roots (h A hA)⟩

/-- Two eigensystems of the same matrix have the same eigenvalues. -/
theorem eigen_unique (h : IsEigensystem A E V) (h' : IsEigensystem A E' V') : E = E' := by
  have hp : (E : Multiset ℝ) = E' := by
    have := (eigen_roots h).trans (eigen_roots h').symm
    rw [← Multiset.map_coe, ← Multiset.map_coe] at this
    exact Multiset.map_injective Complex.ofReal_injective this
  exact (Multiset.coe_eq_coe.1 hp).eq_of_pairwise (fun _ _ _ _ => le_antisymm) h.sorted h'.sorted

/-- The columns at some indices. -/
theorem colMatrix_map (idx : List Nat) (a : Fin n) (i : Fin idx.length) : colMatrix idx.length (idx.map (V.getD · 0)) a i = V.getD (idx.get i) 0 a := by
  simp [colMatrix, List.getD_eq_getElem?_getD]

/-- If every index with a selected eigenvalue is selected, the selected vectors of two eigensystems span the same space: one set is the
other times a unitary matrix. -/
theorem eigen_span (h : IsEigensystem A E V) (h' : IsEigensystem A E V') {r : Nat} {idx : List Nat} (hr : idx.length = r) (hn : idx.Nodup)
    (hb : ∀ i ∈ idx, i < n) (hgap : ∀ i ∈ idx, ∀ j < n, E.getD j 0 = E.getD i 0 → j ∈ idx) :
    ∃ W : Matrix.unitaryGroup (Fin r) ℂ, colMatrix r (idx.map (V'.getD · 0)) = colMatrix r (idx.map (V.getD · 0)) * (W : Matrix (Fin r) (Fin r) ℂ) := by
  subst hr
  -- the overlaps of all vectors of the two systems
  have hov : ∀ i < n, ∀ j < n, E.getD j 0 ≠ E.getD i 0 → star (V.getD j 0) ⬝ᵥ V'.getD i 0 = 0 := by
    intro i hi j hj hne
    have e1 := h'.vec i _ _ (getD_of_lt (by rw [h'.sizeE]; exact hi) 0) (getD_of_lt (by rw [h'.sizeV]; exact hi) 0)
    have e2 := h.vec j _ _ (getD_of_lt (by rw [h.sizeE]; exact hj) 0) (getD_of_lt (by rw [h.sizeV]; exact hj) 0)
    have hA : Aᴴ = A := by
      rw [eigen_diag h]
      simp only [conjTranspose_mul, conjTranspose_conjTranspose, diagonal_conjTranspose, Matrix.mul_assoc]
      congr 3
      funext i
      simp
    have e3 : star (V.getD j 0) ⬝ᵥ A *ᵥ V'.getD i 0 = ((E.getD j 0 : ℝ) : ℂ) * (star (V.getD j 0) ⬝ᵥ V'.getD i 0) := by
      have : star (A *ᵥ V.getD j 0) = star (V.getD j 0) ᵥ* A := by rw [star_mulVec, hA]
      rw [dotProduct_mulVec, ← this, e2, star_smul, smul_dotProduct, smul_eq_mul]
      simp
    rw [e1, dotProduct_smul, smul_eq_mul] at e3
    have e4 : (((E.getD j 0 : ℝ) : ℂ) - ((E.getD i 0 : ℝ) : ℂ)) * (star (V.getD j 0) ⬝ᵥ V'.getD i 0) = 0 := by rw [sub_mul, e3, sub_self]
    rcases mul_eq_zero.1 e4 with h0 | h0
    · exact absurd (Complex.ofReal_injective (sub_eq_zero.1 h0)) hne
    · exact h0
  -- completeness of the first system
  have hcomp : ∀ w : Fin n → ℂ, ∀ a, w a = ∑ j : Fin n, V.getD j 0 a * (star (V.getD j 0) ⬝ᵥ w) := by
    intro w a
    have := congrFun (congrArg (· *ᵥ w) (eigen_gram' h)) a
    simp only [one_mulVec] at this
    rw [← this, ← mulVec_mulVec]
    rfl
  have hV : colMatrix idx.length (idx.map (V'.getD · 0)) = colMatrix idx.length (idx.map (V.getD · 0)) *
      ((colMatrix idx.length (idx.map (V.getD · 0)))ᴴ * colMatrix idx.length (idx.map (V'.getD · 0))) := by
    ext a i
    have hi := hb _ (List.get_mem idx i)
    have e : ∀ k : Fin idx.length, ((colMatrix idx.length (idx.map (V.getD · 0)))ᴴ * colMatrix idx.length (idx.map (V'.getD · 0))) k i
        = star (V.getD (idx.get k) 0) ⬝ᵥ V'.getD (idx.get i) 0 := by
      intro k
      rw [mul_apply]
      refine Finset.sum_congr rfl fun b _ => ?_
      rw [conjTranspose_apply, colMatrix_map, colMatrix_map]
      rfl
    rw [mul_apply]
    simp only [e, colMatrix_map]
    rw [hcomp (V'.getD (idx.get i) 0) a]
    let g : Fin idx.length → Fin n := fun k => ⟨idx.get k, hb _ (List.get_mem idx k)⟩
    have hg : Function.Injective g := fun k k' hk => List.nodup_iff_injective_get.1 hn (Fin.mk.inj hk)
    rw [← Finset.sum_subset (Finset.subset_univ (Finset.univ.image g)), Finset.sum_image fun _ _ _ _ hk => hg hk]
    intro j _ hj
    rw [hov _ hi j j.2, mul_zero]
    intro he
    have hmem := hgap _ (List.get_mem idx i) j j.2 he
    obtain ⟨k, hk⟩ := List.get_of_mem hmem
    exact hj (Finset.mem_image.2 ⟨k, Finset.mem_univ _, Fin.ext hk⟩)
  have horth : ∀ {V}, IsEigensystem A E V → (colMatrix idx.length (idx.map (V.getD · 0)))ᴴ * colMatrix idx.length (idx.map (V.getD · 0)) = 1 := by
    intro V h
    ext i j
    have hi := hb _ (List.get_mem idx i)
    have hj := hb _ (List.get_mem idx j)
    have := h.ortho _ _ _ _ (getD_of_lt (by rw [h.sizeV]; exact hi) 0) (getD_of_lt (by rw [h.sizeV]; exact hj) 0)
    rw [mul_apply, one_apply]
    have hij : idx.get i = idx.get j ↔ i = j := ⟨fun hk => List.nodup_iff_injective_get.1 hn hk, fun hk => by rw [hk]⟩
    simp only [hij] at this
    rw [← this]
    refine Finset.sum_congr rfl fun b _ => ?_
    rw [conjTranspose_apply, colMatrix_map, colMatrix_map]
    rfl
  refine ⟨⟨(colMatrix idx.length (idx.map (V.getD · 0)))ᴴ * colMatrix idx.length (idx.map (V'.getD · 0)), ?_⟩, hV⟩
  rw [mem_unitaryGroup_iff']
  change (_ : Matrix _ _ ℂ)ᴴ * _ = 1
  rw [conjTranspose_mul, conjTranspose_conjTranspose, Matrix.mul_assoc, ← hV, horth h']

/-- A change of basis carries eigensystems over. -/
theorem eigen_rotate {G : Matrix (Fin n) (Fin n) ℂ} (hG : Gᴴ * G = 1) (h : IsEigensystem (G * A * Gᴴ) E V) : IsEigensystem A E (V.map (Gᴴ *ᵥ ·)) := by
  have hG' : G * Gᴴ = 1 := mul_eq_one_comm.1 hG
  refine ⟨h.sizeE, by rw [List.length_map, h.sizeV], h.sorted, fun i e v he hv => ?_, fun i j v w hv hw => ?_⟩
  · rw [List.getElem?_map, Option.map_eq_some_iff] at hv
    obtain ⟨u, hu, rfl⟩ := hv
    have := congrArg (Gᴴ *ᵥ ·) (h.vec i e u he hu)
    simp only [mulVec_mulVec, mulVec_smul, ← Matrix.mul_assoc, hG, Matrix.one_mul] at this
    rw [mulVec_mulVec]
    exact this
  · rw [List.getElem?_map, Option.map_eq_some_iff] at hv hw
    obtain ⟨u, hu, rfl⟩ := hv
    obtain ⟨u', hu', rfl⟩ := hw
    rw [star_mulVec, conjTranspose_conjTranspose, dotProduct_mulVec, vecMul_vecMul, hG', vecMul_one]
    exact h.ortho i j u u' hu hu'

open Classical in
/-- An `eigh`: the eigenvectors of the spectral theorem, sorted. -/
noncomputable def someEigh (A : Matrix (Fin n) (Fin n) ℂ) : List ℝ × List (Fin n → ℂ) :=
  if h : A.IsHermitian then
    (List.ofFn fun i => h.eigenvalues (Tuple.sort h.eigenvalues i), List.ofFn fun i => (h.eigenvectorBasis (Tuple.sort h.eigenvalues i)).ofLp)
  else ([], [])

/-- An `eigh` exists. -/
theorem someEigh_ok : IsEigh (someEigh (n := n)) := by
  intro A hA
  unfold someEigh
  rw [dif_pos hA]
  refine ⟨List.length_ofFn, List.length_ofFn, ?_, fun i e v he hv => ?_, fun i j v w hv hw => ?_⟩
  · rw [List.pairwise_iff_getElem]
    intro i j hi hj hij
    rw [List.getElem_ofFn, List.getElem_ofFn]
    exact Tuple.monotone_sort hA.eigenvalues (Fin.mk_le_mk.2 hij.le)
  · obtain ⟨hi, rfl⟩ := List.getElem?_eq_some_iff.1 he
    obtain ⟨hi', rfl⟩ := List.getElem?_eq_some_iff.1 hv
    simp only [List.getElem_ofFn]
    exact hA.mulVec_eigenvectorBasis _
  · obtain ⟨hi, rfl⟩ := List.getElem?_eq_some_iff.1 hv
    obtain ⟨hj, rfl⟩ := List.getElem?_eq_some_iff.1 hw
    simp only [List.getElem_ofFn]
    have := (orthonormal_iff_ite.1 hA.eigenvectorBasis.orthonormal) (Tuple.sort hA.eigenvalues ⟨i, by simpa using hi⟩) (Tuple.sort hA.eigenvalues ⟨j, by simpa using hj⟩)
    rw [EuclideanSpace.inner_eq_star_dotProduct, dotProduct_comm] at this
    rw [this]
    simp only [EmbeddingLike.apply_eq_iff_eq, Fin.mk.injEq]

end Verif.Pmm
