import Verif.Lemmas.Pad
import Verif.Lemmas.EigenDeriv
import Verif.Lemmas.ModelFile
import Mathlib.Analysis.Convex.Approximation
import Mathlib.Topology.UniformSpace.UniformApproximation

/-! # C122: what parametric matrix models of a size can predict -/

namespace Verif.Props
open Tree Hermitian Eigen Pmm PmmSpec Pad
open scoped Matrix Topology

variable {n p : Nat}

/-! ## Larger matrices -/

theorem filterMap_range {E : List ℝ} : (List.range E.length).filterMap (E[·]?) = E := by
  have h : ∀ i ∈ List.range E.length, E[i]? = some (E.getD i 0) := fun i hi => getD_some (List.mem_range.1 hi)
  rw [List.filterMap_congr h, show (fun x => some (E.getD x 0)) = some ∘ fun x => E.getD x 0 from rfl, List.filterMap_eq_map]
  refine List.ext_getElem (by simp) fun i h1 h2 => ?_
  simp [List.getElem?_eq_getElem h2]

theorem select_smallest {E : List ℝ} (hs : E.Pairwise (· ≤ ·)) {k : Nat} (hk : k ≤ E.length) {w : Str}
    (hw : parseWhich w = .ok (.smallest, .algebraic)) : selectValues E (some k) w = .ok (E.take k) := by
  have h1 : pySlice (List.range E.length) 0 (k : Int) = (List.range E.length).take k := by
    have : ¬ ((k : Int) < 0) := by omega
    simp [pySlice, this]
  have h2 : ((List.range E.length).take k).filterMap (E[·]?) = E.take k := by
    rw [List.take_range, Nat.min_eq_left hk]
    have h : ∀ i ∈ List.range k, E[i]? = (E.take k)[i]? := fun i hi => by
      rw [List.getElem?_take_of_lt (List.mem_range.1 hi)]
    rw [List.filterMap_congr h]
    have h3 : (E.take k).length = k := by rw [List.length_take]; omega
    conv_lhs => rw [← h3]
    rw [show (E.take ((E.take k).length)) = E.take k from by rw [h3]]
    exact filterMap_range
  simp only [selectValues, selectPairs, hw, selectByFn, Option.getD_some, idxFn, argsort_of_sorted hs, h1, h2, List.take_take, Nat.min_self]

theorem select_largest {E : List ℝ} (hs : E.Pairwise (· ≤ ·)) {k : Nat} (hk : k ≤ E.length) {w : Str}
    (hw : parseWhich w = .ok (.largest, .algebraic)) : selectValues E (some k) w = .ok (E.drop (E.length - k)) := by
  rcases Nat.eq_zero_or_pos k with rfl | hpos
  · simp [selectValues, selectPairs, hw, selectByFn, idxFn]
  have h1 : pyFrom (List.range E.length) (-(k : Int)) = (List.range E.length).drop (E.length - k) := by
    rw [pyFrom_neg _ _ hpos (by simpa using hk), List.length_range]
  have h2 : ((List.range E.length).drop (E.length - k)).filterMap (E[·]?) = E.drop (E.length - k) := by
    refine List.append_cancel_left (as := E.take (E.length - k)) ?_
    rw [List.take_append_drop]
    conv_rhs => rw [← filterMap_range (E := E), ← List.take_append_drop (E.length - k) (List.range E.length), List.filterMap_append]
    congr 1
    rw [List.take_range, Nat.min_eq_left (by omega)]
    have h : ∀ i ∈ List.range (E.length - k), E[i]? = (E.take (E.length - k))[i]? := fun i hi => by
      rw [List.getElem?_take_of_lt (List.mem_range.1 hi)]
    rw [List.filterMap_congr h]
    have h3 : (E.take (E.length - k)).length = E.length - k := by rw [List.length_take]; omega
    have := filterMap_range (E := E.take (E.length - k))
    rw [h3] at this
    exact this.symm
  have h4 : (E.drop (E.length - k)).take k = E.drop (E.length - k) := List.take_of_length_le (by rw [List.length_drop]; omega)
  simp only [selectValues, selectPairs, hw, selectByFn, Option.getD_some, idxFn, argsort_of_sorted hs, h1, h2, h4]

/-- Two models that select the same from every sample of the data predict the same. -/
theorem call_congr {n' : Nat} (ev : Mat n n → List ℝ) (ev' : Mat n' n' → List ℝ) (c : Eigen.Cfg) (s : ℝ) (M0 : Mat n n) (M : Fin p → Mat n n)
    (M0' : Mat n' n') (M' : Fin p → Mat n' n') (d : Tree (List (Fin p → ℝ)))
    (h : ∀ xs ∈ d.flat, ∀ x ∈ xs, selectValues (ev' (modelMatrix s (some M0') M' x)) c.numEig c.which =
      selectValues (ev (modelMatrix s (some M0) M x)) c.numEig c.which) :
    eigenvalueCall ev' c true s (M0' :: List.ofFn M') (map (fun xs => xs.map sample) d) =
      eigenvalueCall ev c true s (M0 :: List.ofFn M) (map (fun xs => xs.map sample) d) := by
  refine (call_model ev' c s (some M0') M' d).trans (Eq.trans ?_ (call_model ev c s (some M0) M d).symm)
  unfold valuesCallable
  refine mapM_congr _ _ _ fun xs hxs => ?_
  have hx : xs ∈ d.flat := mem_flat_norm.1 (mem_flat_norm.1 hxs)
  have : xs.mapM (fun A => selectValues (ev' (modelMatrix s (some M0') M' A)) c.numEig c.which) =
      xs.mapM (fun A => selectValues (ev (modelMatrix s (some M0) M A)) c.numEig c.which) := by
    have hall := h xs hx
    clear hxs hx
    induction xs with
    | nil => rfl
    | cons x xs ih =>
      rw [List.mapM_cons, List.mapM_cons, hall x (by simp), ih fun y hy => hall y (by simp [hy])]
  rw [this]

/-- **C122** Whatever a model predicts, a model with larger matrices can predict for all features within any given bounds: the given number
of smallest or of largest eigenvalues. -/
theorem C122_larger (c : Eigen.Cfg) (part : Part) (hp : part = .smallest ∨ part = .largest) (hw : parseWhich c.which = .ok (part, .algebraic))
    (k : Nat) (hk : c.numEig = some k) (hkn : k ≤ n) (s : ℝ) (M0 : Mat n n) (M : Fin p → Mat n n) (R : ℝ) (m : Nat) :
    ∃ (M0' : Mat (n + m) (n + m)) (M' : Fin p → Mat (n + m) (n + m)),
      ∀ (ev : Mat n n → List ℝ) (ev' : Mat (n + m) (n + m) → List ℝ), IsEigvalsh ev → IsEigvalsh ev' →
        ∀ d : Tree (List (Fin p → ℝ)), (∀ xs ∈ d.flat, ∀ x ∈ xs, ∀ i, |x i| ≤ R) →
          eigenvalueCall ev' c true s (M0' :: List.ofFn M') (map (fun xs => xs.map sample) d) =
            eigenvalueCall ev c true s (M0 :: List.ofFn M) (map (fun xs => xs.map sample) d) := by
  let B : ℝ := absSum (modelMatrix s (some M0) M 0) + ∑ i, R * absSum (herm (M i))
  have hB : ∀ ev : Mat n n → List ℝ, IsEigvalsh ev → ∀ x : Fin p → ℝ, (∀ i, |x i| ≤ R) → ∀ e ∈ ev (modelMatrix s (some M0) M x), |e| ≤ B := by
    intro ev hev x hx e he
    obtain ⟨u, hu, hAu⟩ := ev_vector hev (modelMatrix_isHermitian s (some M0) M x) he
    have h1 : energy (modelMatrix s (some M0) M x) u = e := by
      unfold energy
      rw [hAu, dotProduct_smul, smul_eq_mul, Complex.re_ofReal_mul, ← lenSq_eq, hu]
      simp
    have hb : ∀ W : Mat n n, |energy W u| ≤ absSum W := fun W => by
      have := energy_bound W u
      rwa [hu, mul_one] at this
    rw [← h1, energy_model]
    refine (abs_add_le _ _).trans (add_le_add (hb _) ((Finset.abs_sum_le_sum_abs _ _).trans (Finset.sum_le_sum fun i _ => ?_)))
    rw [abs_mul]
    exact mul_le_mul (hx i) (hb _) (abs_nonneg _) ((abs_nonneg _).trans (hx i))
  obtain ⟨sg, hsg⟩ : ∃ sg : ℝ, sg = if part = .smallest then B else -B := ⟨_, rfl⟩
  refine ⟨pad m (sg : ℝ) M0, fun i => pad m ((0 : ℝ) : ℂ) (M i), fun ev ev' hev hev' d hd => ?_⟩
  refine call_congr ev ev' c s M0 M _ _ d fun xs hxs x hx => ?_
  rw [model_pad s sg (fun _ => 0) M0 M x, hk]
  have hA := modelMatrix_isHermitian s (some M0) M x
  have hbd := hB ev hev x (hd xs hxs x hx)
  have hperm := ev_pad (m := m) hev hev' hA (sg + ∑ i, x i * 0)
  have hsort := (hev' _ (isHermitian_pad (m := m) (sg + ∑ i, x i * 0) hA)).1
  have hsA := (hev _ hA).1
  have hlen := ev_length hev hA
  have hlen' := ev_length hev' (isHermitian_pad (m := m) (sg + ∑ i, x i * 0) hA)
  simp only [mul_zero, Finset.sum_const_zero, add_zero] at hperm hsort hlen' ⊢
  rcases hp with rfl | rfl
  · rw [if_pos rfl] at hsg
    have heq : ev' (pad m (sg : ℂ) (modelMatrix s (some M0) M x)) = ev (modelMatrix s (some M0) M x) ++ List.replicate m sg := by
      refine hperm.eq_of_pairwise' hsort (List.pairwise_append.2 ⟨hsA, List.pairwise_replicate.2 (.inr le_rfl), fun a ha b hb => ?_⟩)
      rw [List.eq_of_mem_replicate hb, hsg]
      exact (abs_le.1 (hbd a ha)).2
    rw [select_smallest hsort (by omega) hw, select_smallest hsA (by omega) hw, heq, List.take_append_of_le_length (by omega)]
  · rw [if_neg (by decide)] at hsg
    have heq : ev' (pad m (sg : ℂ) (modelMatrix s (some M0) M x)) = List.replicate m sg ++ ev (modelMatrix s (some M0) M x) := by
      refine (hperm.trans List.perm_append_comm).eq_of_pairwise' hsort
        (List.pairwise_append.2 ⟨List.pairwise_replicate.2 (.inr le_rfl), hsA, fun a ha b hb => ?_⟩)
      rw [List.eq_of_mem_replicate ha, hsg]
      exact (abs_le.1 (hbd b hb)).1
    rw [select_largest hsort (by omega) hw, select_largest hsA (by omega) hw, hlen', hlen, heq,
      show n + m - k = (List.replicate m sg).length + (n - k) by simp; omega, List.drop_append]
    simp

theorem sorted_first {L : List ℝ} (hs : L.Pairwise (· ≤ ·)) {a : ℝ} (ha : a ∈ L) (hm : ∀ b ∈ L, a ≤ b) : L.take 1 = [a] := by
  cases L with
  | nil => simp at ha
  | cons b L =>
    have h1 := hm b (by simp)
    rcases List.mem_cons.1 ha with rfl | h
    · rfl
    · rw [List.take_succ_cons, List.take_zero, le_antisymm ((List.pairwise_cons.1 hs).1 a h) h1]

theorem sorted_last {L : List ℝ} (hs : L.Pairwise (· ≤ ·)) {a : ℝ} (ha : a ∈ L) (hm : ∀ b ∈ L, b ≤ a) : L.drop (L.length - 1) = [a] := by
  rcases List.eq_nil_or_concat L with rfl | ⟨K, b, rfl⟩
  · simp at ha
  rw [List.concat_eq_append] at *
  have h1 := hm b (by simp)
  have hab : a = b := by
    rcases List.mem_append.1 ha with h | h
    · exact le_antisymm ((List.pairwise_append.1 hs).2.2 a h b (by simp)) h1
    · simpa using h
  rw [List.length_append, List.length_singleton, Nat.add_sub_cancel, List.drop_left, hab]

theorem lenSq_single (i : Fin n) : lenSq (Pi.single i 1 : Fin n → ℂ) = 1 := by
  unfold lenSq
  rw [Finset.sum_eq_single i (fun j _ hj => by simp [Pi.single_apply, hj]) (by simp)]
  simp

/-- **C122** The smallest, or the largest, eigenvalue predicted by a model can be predicted by a model with larger matrices for all
features whatsoever. -/
theorem C122_ground (c : Eigen.Cfg) (part : Part) (hp : part = .smallest ∨ part = .largest) (hw : parseWhich c.which = .ok (part, .algebraic))
    (hk : c.numEig = some 1) (hn : 0 < n) (s : ℝ) (M0 : Mat n n) (M : Fin p → Mat n n) (m : Nat) :
    ∃ (M0' : Mat (n + m) (n + m)) (M' : Fin p → Mat (n + m) (n + m)),
      ∀ (ev : Mat n n → List ℝ) (ev' : Mat (n + m) (n + m) → List ℝ), IsEigvalsh ev → IsEigvalsh ev' → ∀ d : Tree (List (Fin p → ℝ)),
        eigenvalueCall ev' c true s (M0' :: List.ofFn M') (map (fun xs => xs.map sample) d) =
          eigenvalueCall ev c true s (M0 :: List.ofFn M) (map (fun xs => xs.map sample) d) := by
  let v : Fin n → ℂ := Pi.single ⟨0, hn⟩ 1
  have hv : lenSq v = 1 := lenSq_single _
  refine ⟨pad m (energy (modelMatrix s (some M0) M 0) v : ℝ) M0, fun i => pad m ((energy (herm (M i)) v : ℝ) : ℂ) (M i),
    fun ev ev' hev hev' d => ?_⟩
  refine call_congr ev ev' c s M0 M _ _ d fun xs hxs x hx => ?_
  rw [model_pad s _ (fun i => energy (herm (M i)) v) M0 M x, hk, ← energy_model s (some M0) M x v]
  have hA := modelMatrix_isHermitian s (some M0) M x
  generalize modelMatrix s (some M0) M x = A at hA ⊢
  have hperm := ev_pad (m := m) hev hev' hA (energy A v)
  have hsort := (hev' _ (isHermitian_pad (m := m) (energy A v) hA)).1
  have hsA := (hev _ hA).1
  have hlen := ev_length hev hA
  have hlen' := ev_length hev' (isHermitian_pad (m := m) (energy A v) hA)
  rcases hp with rfl | rfl
  · rw [select_smallest hsort (by omega) hw, select_smallest hsA (by omega) hw]
    have h0 : (ev A)[0]? = some ((ev A).getD 0 0) := getD_some (by omega)
    have hmem : (ev A).getD 0 0 ∈ ev A := List.mem_of_getElem? h0
    have hle := (ev_least hev hA h0).1
    have hmin : ∀ b ∈ ev A, (ev A).getD 0 0 ≤ b := fun b hb => by
      obtain ⟨u, hu, hAu⟩ := ev_vector hev hA hb
      have h := hle u
      have h1 : energy A u = b := by
        unfold energy
        rw [hAu, dotProduct_smul, smul_eq_mul, Complex.re_ofReal_mul, ← lenSq_eq, hu]
        simp
      rwa [hu, mul_one, h1] at h
    rw [sorted_first hsort (hperm.mem_iff.2 (List.mem_append_left _ hmem)) fun b hb => ?_, sorted_first hsA hmem hmin]
    rcases List.mem_append.1 (hperm.mem_iff.1 hb) with h | h
    · exact hmin b h
    · rw [List.eq_of_mem_replicate h]
      have := hle v
      rwa [hv, mul_one] at this
  · rw [select_largest hsort (by omega) hw, select_largest hsA (by omega) hw]
    have h0 : (ev A)[n - 1]? = some ((ev A).getD (n - 1) 0) := getD_some (by omega)
    have hmem : (ev A).getD (n - 1) 0 ∈ ev A := List.mem_of_getElem? h0
    have hle := (ev_greatest hev hA h0).1
    have hmax : ∀ b ∈ ev A, b ≤ (ev A).getD (n - 1) 0 := fun b hb => by
      obtain ⟨u, hu, hAu⟩ := ev_vector hev hA hb
      have h := hle u
      have h1 : energy A u = b := by
        unfold energy
        rw [hAu, dotProduct_smul, smul_eq_mul, Complex.re_ofReal_mul, ← lenSq_eq, hu]
        simp
      rwa [hu, mul_one, h1] at h
    rw [sorted_last hsort (hperm.mem_iff.2 (List.mem_append_left _ hmem)) fun b hb => ?_, sorted_last hsA hmem hmax]
    rcases List.mem_append.1 (hperm.mem_iff.1 hb) with h | h
    · exact hmax b h
    · rw [List.eq_of_mem_replicate h]
      have := hle v
      rwa [hv, mul_one] at this

/-! ## Which functions can be predicted -/

/-- The model with diagonal matrices has diagonal matrices, whatever the smoothing is. -/
theorem model_diagonal (s : ℝ) (b : Fin n → ℝ) (w : Fin n → Fin p → ℝ) (x : Fin p → ℝ) :
    modelMatrix s (some (Matrix.diagonal fun j => (b j : ℂ))) (fun q => Matrix.diagonal fun j => (w j q : ℂ)) x =
      Matrix.diagonal fun j => ((b j + ∑ q, w j q * x q : ℝ) : ℂ) := by
  have hh : ∀ d : Fin n → ℝ, herm (Matrix.diagonal fun j => (d j : ℂ)) = Matrix.diagonal fun j => (d j : ℂ) := fun d => by
    unfold herm
    rw [Matrix.diagonal_conjTranspose, show (star fun j => (d j : ℂ)) = fun j => (d j : ℂ) from funext fun j => by simp, ← two_smul ℂ,
      smul_smul]
    norm_num
  have hc : (fun i : Fin (p + 1) => herm ((Fin.cons (Matrix.diagonal fun j => (b j : ℂ)) fun q => Matrix.diagonal fun j => (w j q : ℂ) :
      Fin (p + 1) → Mat n n) i)) = fun i => Matrix.diagonal fun j => (((Fin.cons (b j) (w j) : Fin (p + 1) → ℝ) i : ℝ) : ℂ) := by
    funext i
    refine Fin.cases ?_ (fun q => ?_) i
    · simp only [Fin.cons_zero, hh]
    · simp only [Fin.cons_succ, hh (fun j => w j q)]
  have hz : commutators (fun i : Fin (p + 1) => Matrix.diagonal fun j => (((Fin.cons (b j) (w j) : Fin (p + 1) → ℝ) i : ℝ) : ℂ)) =
      (0 : Mat n n) := by
    unfold commutators
    rw [Finset.sum_eq_zero, smul_zero]
    intro i _
    refine Finset.sum_eq_zero fun j _ => ?_
    rw [Matrix.diagonal_mul_diagonal, Matrix.diagonal_mul_diagonal]
    simp only [mul_comm, sub_self, ite_self]
  rw [modelMatrix_some, hc, hz, hh, smul_zero, add_zero]
  simp only [fun q => hh fun j => w j q]
  ext i k
  by_cases hik : i = k
  · subst hik
    simp [Matrix.sum_apply, mul_comm]
  · simp [Matrix.sum_apply, hik]

theorem energy_diagonal (d : Fin n → ℝ) (v : Fin n → ℂ) :
    energy (Matrix.diagonal fun j => (d j : ℂ)) v = ∑ i, d i * Complex.normSq (v i) := by
  have := energy_diag (A := Matrix.diagonal fun j => (d j : ℂ)) (U := 1) (l := d) (by simp) v
  simpa using this

/-- **C122** Every minimum of affine functions is predicted by a model: with one row for each of them, and asked for one smallest
eigenvalue; and every maximum, asked for one largest. -/
theorem C122_envelope (c c' : Eigen.Cfg) (hw : parseWhich c.which = .ok (.smallest, .algebraic)) (hk : c.numEig = some 1)
    (hw' : parseWhich c'.which = .ok (.largest, .algebraic)) (hk' : c'.numEig = some 1) (s : ℝ) (hn : 0 < n)
    (b : Fin n → ℝ) (w : Fin n → Fin p → ℝ) :
    ∃ (M0 : Mat n n) (M : Fin p → Mat n n), ∀ ev : Mat n n → List ℝ, IsEigvalsh ev → ∀ x : Fin p → ℝ,
      (∃ e, eigenvalueCall ev c true s (M0 :: List.ofFn M) (.leaf [sample x]) = .ok (.leaf [[e]]) ∧
        (∀ j, e ≤ b j + ∑ q, w j q * x q) ∧ ∃ j, e = b j + ∑ q, w j q * x q) ∧
      ∃ e, eigenvalueCall ev c' true s (M0 :: List.ofFn M) (.leaf [sample x]) = .ok (.leaf [[e]]) ∧
        (∀ j, b j + ∑ q, w j q * x q ≤ e) ∧ ∃ j, e = b j + ∑ q, w j q * x q := by
  refine ⟨Matrix.diagonal fun j => (b j : ℂ), fun q => Matrix.diagonal fun j => (w j q : ℂ), fun ev hev x => ?_⟩
  obtain ⟨d, hd⟩ : ∃ d : Fin n → ℝ, ∀ j, d j = b j + ∑ q, w j q * x q := ⟨_, fun _ => rfl⟩
  have hm := model_diagonal s b w x
  simp only [← hd] at hm ⊢
  have hs : ∀ j, energy (Matrix.diagonal fun j => (d j : ℂ)) (Pi.single j 1) = d j := fun j => by
    rw [energy_diagonal, Finset.sum_eq_single j (fun i _ hi => by simp [Pi.single_apply, hi]) (by simp)]
    simp
  have hsum : ∀ v : Fin n → ℂ, ∀ e, lenSq v = 1 → energy (Matrix.diagonal fun j => (d j : ℂ)) v = e →
      ∑ i, (d i - e) * Complex.normSq (v i) = 0 := fun v e hv he => by
    simp only [sub_mul, Finset.sum_sub_distrib, ← Finset.mul_sum]
    rw [← energy_diagonal, he]
    unfold lenSq at hv
    rw [hv]
    ring
  have hex : ∀ v : Fin n → ℂ, lenSq v = 1 → ∃ i, Complex.normSq (v i) ≠ 0 := fun v hv => by
    by_contra hcon
    push Not at hcon
    unfold lenSq at hv
    rw [Finset.sum_eq_zero fun i _ => hcon i] at hv
    norm_num at hv
  constructor
  · obtain ⟨e, he, h1, v, hv, h2⟩ := C75_ground_state ev hev c hw (by rw [hk]; rfl) hn s (some (Matrix.diagonal fun j => (b j : ℂ)))
      (fun q => Matrix.diagonal fun j => (w j q : ℂ)) x
    rw [hm] at h1 h2
    have hle : ∀ j, e ≤ d j := fun j => by
      have := h1 (Pi.single j 1)
      rwa [lenSq_single, mul_one, hs] at this
    refine ⟨e, he, hle, ?_⟩
    obtain ⟨i, hi⟩ := hex v hv
    have h0 := (Finset.sum_eq_zero_iff_of_nonneg fun i _ => mul_nonneg (sub_nonneg.2 (hle i)) (Complex.normSq_nonneg _)).1 (hsum v e hv h2)
      i (Finset.mem_univ i)
    exact ⟨i, (sub_eq_zero.1 ((mul_eq_zero.1 h0).resolve_right hi)).symm⟩
  · obtain ⟨e, he, h1, v, hv, h2⟩ := C75_top_state ev hev c' hw' (by rw [hk']; rfl) hn s (some (Matrix.diagonal fun j => (b j : ℂ)))
      (fun q => Matrix.diagonal fun j => (w j q : ℂ)) x
    rw [hm] at h1 h2
    have hle : ∀ j, d j ≤ e := fun j => by
      have := h1 (Pi.single j 1)
      rwa [lenSq_single, mul_one, hs] at this
    refine ⟨e, he, hle, ?_⟩
    obtain ⟨i, hi⟩ := hex v hv
    have hneg : ∑ i, (e - d i) * Complex.normSq (v i) = 0 := by
      have := hsum v e hv h2
      rw [← neg_eq_zero, ← Finset.sum_neg_distrib]
      simpa [← neg_mul] using this
    have h0 := (Finset.sum_eq_zero_iff_of_nonneg fun i _ => mul_nonneg (sub_nonneg.2 (hle i)) (Complex.normSq_nonneg _)).1 hneg
      i (Finset.mem_univ i)
    exact ⟨i, sub_eq_zero.1 ((mul_eq_zero.1 h0).resolve_right hi)⟩

/-- A continuous convex function on a compact set is, up to any error, the maximum of finitely many affine functions. -/
theorem convex_envelope (K : Set (Fin p → ℝ)) (hK : IsCompact K) (hne : K.Nonempty) (f : (Fin p → ℝ) → ℝ) (hf : ConvexOn ℝ K f)
    (hc : ContinuousOn f K) (ε : ℝ) (hε : 0 < ε) :
    ∃ (n : Nat) (b : Fin n → ℝ) (w : Fin n → Fin p → ℝ), 0 < n ∧ (∀ j, ∀ x ∈ K, b j + ∑ q, w j q * x q ≤ f x) ∧
      ∀ x ∈ K, ∃ j, f x - ε ≤ b j + ∑ q, w j q * x q := by
  have h1 : ∀ x ∈ K, ∃ (b : ℝ) (w : Fin p → ℝ), (∀ y ∈ K, b + ∑ q, w q * y q ≤ f y) ∧ b + ∑ q, w q * x q = f x - ε / 2 := by
    intro x hx
    obtain ⟨l, a, h1, h2⟩ := ConvexOn.exists_affine_le_of_lt (𝕜 := ℝ) hx (show f x - ε / 2 < f x by linarith) hK.isClosed
      hc.lowerSemicontinuousOn hf
    have hl : ∀ y : Fin p → ℝ, l y = ∑ q, l (Pi.single q 1) * y q := fun y => by
      conv_lhs => rw [← Finset.univ_sum_single y]
      rw [map_sum]
      refine Finset.sum_congr rfl fun q _ => ?_
      rw [show (Pi.single q (y q) : Fin p → ℝ) = y q • Pi.single q 1 from by rw [← Pi.single_smul, smul_eq_mul, mul_one], map_smul,
        smul_eq_mul, mul_comm]
    refine ⟨a, fun q => l (Pi.single q 1), fun y hy => ?_, ?_⟩
    · have := h1 ⟨y, hy⟩
      simp at this
      rw [← hl]
      linarith
    · simp at h2
      rw [← hl]
      linarith
  choose! b w hb hw using h1
  obtain ⟨t, ht, hcov⟩ := hK.elim_nhdsWithin_subcover (fun x => {y | f y - ε < b x + ∑ q, w x q * y q}) fun x hx => by
    have hcont : ContinuousWithinAt (fun y : Fin p → ℝ => (b x + ∑ q, w x q * y q) - (f y - ε)) K x := by
      refine ContinuousWithinAt.sub (Continuous.continuousWithinAt (by fun_prop)) ((hc x hx).sub continuousWithinAt_const)
    have hpos : 0 < (b x + ∑ q, w x q * x q) - (f x - ε) := by
      rw [hw x hx]
      linarith
    filter_upwards [hcont.eventually (lt_mem_nhds hpos)] with y hy
    exact sub_pos.1 hy
  refine ⟨t.card, fun j => b (t.equivFin.symm j), fun j => w (t.equivFin.symm j), ?_, fun j x hx => hb _ (ht _ (t.equivFin.symm j).2) x hx,
    fun x hx => ?_⟩
  · obtain ⟨x, hx⟩ := hne
    obtain ⟨y, hy, -⟩ := Set.mem_iUnion₂.1 (hcov hx)
    exact Finset.card_pos.2 ⟨y, hy⟩
  · obtain ⟨y, hy, hxy⟩ := Set.mem_iUnion₂.1 (hcov hx)
    refine ⟨t.equivFin ⟨y, hy⟩, ?_⟩
    simp only [Equiv.symm_apply_apply]
    exact le_of_lt hxy

/-- The predictions of models of all sizes asked for one eigenvalue come as close to `f` on `K` as one likes. -/
def Approximable (c : Eigen.Cfg) (s : ℝ) (K : Set (Fin p → ℝ)) (f : (Fin p → ℝ) → ℝ) : Prop :=
  ∀ ε > 0, ∃ (n : Nat) (M0 : Mat n n) (M : Fin p → Mat n n), 0 < n ∧ ∀ ev : Mat n n → List ℝ, IsEigvalsh ev → ∀ x ∈ K,
    ∃ e, eigenvalueCall ev c true s (M0 :: List.ofFn M) (.leaf [sample x]) = .ok (.leaf [[e]]) ∧ |e - f x| ≤ ε

theorem approximable_continuous (c : Eigen.Cfg) {part : Part} (hw : parseWhich c.which = .ok (part, .algebraic)) (hk : c.numEig = some 1)
    (s : ℝ) (K : Set (Fin p → ℝ)) (f : (Fin p → ℝ) → ℝ) (h : Approximable c s K f) : ContinuousOn f K := by
  refine continuousOn_of_uniform_approx_of_continuousOn fun u hu => ?_
  obtain ⟨ε, hε, hεu⟩ := Metric.mem_uniformity_dist.1 hu
  obtain ⟨n, M0, M, hn, hM⟩ := h (ε / 2) (by linarith)
  have hmod := hM _ exists_eigvalsh
  obtain ⟨idx, -, h2, h3⟩ := call_sorted _ (exists_eigvalsh (n := n)) c hw (by rw [hk]; exact hn) s (some M0) M
  refine ⟨fun x => (idx.map ((someEigvalsh (modelMatrix s (some M0) M x)).getD · 0)).getD 0 0, ?_, fun y hy => ?_⟩
  · intro x hx
    rw [ContinuousWithinAt, tendsto_iff_dist_tendsto_zero]
    refine squeeze_zero (fun _ => dist_nonneg) (g := fun y : Fin p → ℝ => ∑ i, |y i - x i| * absSum (herm (M i))) (fun y => ?_) ?_
    · obtain ⟨a, b, ha, hb, hab⟩ := C75_lipschitz _ (exists_eigvalsh (n := n)) c hw (by rw [hk]; exact hn) s (some M0) M
        (fun i => absSum (herm (M i))) (fun i v => energy_bound _ v) y x
      rw [h2 y] at ha
      rw [h2 x] at hb
      simp only [Except.ok.injEq, Tree.leaf.injEq, List.cons.injEq, and_true] at ha hb
      rw [Real.dist_eq]
      show |(List.getD (idx.map _) 0 0 : ℝ) - List.getD (idx.map _) 0 0| ≤ _
      have hab' := hab
      rw [← ha, ← hb] at hab'
      have hnn : 0 ≤ ∑ i, |y i - x i| * absSum (herm (M i)) := Finset.sum_nonneg fun i _ => mul_nonneg (abs_nonneg _) (absSum_nonneg _)
      cases idx with
      | nil => simpa using hnn
      | cons i idx =>
        simp only [List.map_cons, List.forall₂_cons] at hab'
        exact hab'.1
    · have hct : Continuous fun y : Fin p → ℝ => ∑ i, |y i - x i| * absSum (herm (M i)) := by fun_prop
      have := hct.tendsto x
      simp only [sub_self, abs_zero, zero_mul, Finset.sum_const_zero] at this
      exact this.mono_left nhdsWithin_le_nhds
  · obtain ⟨e, he, hd⟩ := hmod y hy
    have h2y := h2 y
    rw [show eigenvalueCall _ c (some M0).isSome s ((some M0).toList ++ List.ofFn M) (.leaf [sample y]) = _ from he] at h2y
    simp only [Except.ok.injEq, Tree.leaf.injEq, List.cons.injEq, and_true] at h2y
    apply hεu
    show dist (f y) (List.getD (idx.map ((someEigvalsh (modelMatrix s (some M0) M y)).getD · 0)) 0 0) < ε
    have : idx.map ((someEigvalsh (modelMatrix s (some M0) M y)).getD · 0) = [e] := h2y.symm
    rw [this, Real.dist_eq, abs_sub_comm]
    exact lt_of_le_of_lt hd (by linarith)

theorem le_of_eps {a b : ℝ} (h : ∀ ε > 0, a ≤ b + 2 * ε) : a ≤ b :=
  le_of_forall_pos_le_add fun ε hε => by
    have := h (ε / 2) (by linarith)
    linarith

/-- **C122** Models asked for the smallest eigenvalue can come as close as one likes, everywhere on a compact convex set of features, to
exactly the continuous concave functions. -/
theorem C122_concave (c : Eigen.Cfg) (hw : parseWhich c.which = .ok (.smallest, .algebraic)) (hk : c.numEig = some 1) (s : ℝ)
    (K : Set (Fin p → ℝ)) (hK : IsCompact K) (hconv : Convex ℝ K) (hne : K.Nonempty) (f : (Fin p → ℝ) → ℝ) :
    Approximable c s K f ↔ ConcaveOn ℝ K f ∧ ContinuousOn f K := by
  constructor
  · intro h
    refine ⟨⟨hconv, fun x hx y hy a b ha hb hab => ?_⟩, approximable_continuous c hw hk s K f h⟩
    refine le_of_eps fun ε hε => ?_
    obtain ⟨n, M0, M, hn, hM⟩ := h ε hε
    have hmod := hM _ exists_eigvalsh
    obtain ⟨u, v, m, hu, hv, hm, hle⟩ := C75_concave _ (exists_eigvalsh (n := n)) c hw (by rw [hk]; rfl) hn s (some M0) M x y a ha (by linarith)
    have hz : (fun i => a * x i + (1 - a) * y i) = a • x + b • y := by
      funext i
      rw [show b = 1 - a by linarith]
      rfl
    rw [hz] at hm
    have get : ∀ z ∈ K, ∀ w, eigenvalueCall _ c (some M0).isSome s ((some M0).toList ++ List.ofFn M) (.leaf [sample z]) = .ok (.leaf [[w]]) →
        |w - f z| ≤ ε := fun z hz w hw => by
      obtain ⟨e, he, hd⟩ := hmod z hz
      have : (Except.ok (.leaf [[e]]) : Except PyErr (Tree (List (List ℝ)))) = .ok (.leaf [[w]]) := he.symm.trans hw
      obtain rfl : e = w := by simpa using this
      exact hd
    have h1 := abs_le.1 (get x hx u hu)
    have h2 := abs_le.1 (get y hy v hv)
    have h3 := abs_le.1 (get _ (hconv hx hy ha hb hab) m hm)
    have hb' : b = 1 - a := by linarith
    simp only [smul_eq_mul]
    have h4 : a * f x ≤ a * (u + ε) := mul_le_mul_of_nonneg_left (by linarith) ha
    have h5 : b * f y ≤ b * (v + ε) := mul_le_mul_of_nonneg_left (by linarith) hb
    rw [hb'] at h5 ⊢
    rw [hb'] at h3
    nlinarith
  · rintro ⟨hf, hc⟩ ε hε
    obtain ⟨n, b, w, hn, h1, h2⟩ := convex_envelope K hK hne (fun x => -f x) hf.neg hc.neg ε hε
    obtain ⟨M0, M, hM⟩ := C122_envelope c ⟨some 1, "LA".toList⟩ hw hk (by decide) rfl s hn (fun j => -b j) (fun j q => -w j q)
    refine ⟨n, M0, M, hn, fun ev hev x hx => ?_⟩
    obtain ⟨⟨e, he, hle, j, hj⟩, -⟩ := hM ev hev x
    simp only [neg_mul, Finset.sum_neg_distrib] at hle hj
    refine ⟨e, he, ?_⟩
    obtain ⟨i, hi⟩ := h2 x hx
    have := hle i
    have := h1 j x hx
    rw [abs_of_nonneg] <;> linarith

/-- **C122** Models asked for the largest eigenvalue can come as close as one likes to exactly the continuous convex functions. -/
theorem C122_convex (c : Eigen.Cfg) (hw : parseWhich c.which = .ok (.largest, .algebraic)) (hk : c.numEig = some 1) (s : ℝ)
    (K : Set (Fin p → ℝ)) (hK : IsCompact K) (hconv : Convex ℝ K) (hne : K.Nonempty) (f : (Fin p → ℝ) → ℝ) :
    Approximable c s K f ↔ ConvexOn ℝ K f ∧ ContinuousOn f K := by
  constructor
  · intro h
    refine ⟨⟨hconv, fun x hx y hy a b ha hb hab => ?_⟩, approximable_continuous c hw hk s K f h⟩
    refine le_of_eps fun ε hε => ?_
    obtain ⟨n, M0, M, hn, hM⟩ := h ε hε
    have hmod := hM _ exists_eigvalsh
    obtain ⟨u, v, m, hu, hv, hm, hle⟩ := C75_convex _ (exists_eigvalsh (n := n)) c hw (by rw [hk]; rfl) hn s (some M0) M x y a ha (by linarith)
    have hz : (fun i => a * x i + (1 - a) * y i) = a • x + b • y := by
      funext i
      rw [show b = 1 - a by linarith]
      rfl
    rw [hz] at hm
    have get : ∀ z ∈ K, ∀ w, eigenvalueCall _ c (some M0).isSome s ((some M0).toList ++ List.ofFn M) (.leaf [sample z]) = .ok (.leaf [[w]]) →
        |w - f z| ≤ ε := fun z hz w hw => by
      obtain ⟨e, he, hd⟩ := hmod z hz
      have : (Except.ok (.leaf [[e]]) : Except PyErr (Tree (List (List ℝ)))) = .ok (.leaf [[w]]) := he.symm.trans hw
      obtain rfl : e = w := by simpa using this
      exact hd
    have h1 := abs_le.1 (get x hx u hu)
    have h2 := abs_le.1 (get y hy v hv)
    have h3 := abs_le.1 (get _ (hconv hx hy ha hb hab) m hm)
    have hb' : b = 1 - a := by linarith
    simp only [smul_eq_mul]
    have h4 : a * (u - ε) ≤ a * f x := mul_le_mul_of_nonneg_left (by linarith) ha
    have h5 : b * (v - ε) ≤ b * f y := mul_le_mul_of_nonneg_left (by linarith) hb
    rw [hb'] at h5 ⊢
    rw [hb'] at h3
    nlinarith
  · rintro ⟨hf, hc⟩ ε hε
    obtain ⟨n, b, w, hn, h1, h2⟩ := convex_envelope K hK hne f hf hc ε hε
    obtain ⟨M0, M, hM⟩ := C122_envelope ⟨some 1, "SA".toList⟩ c (by decide) rfl hw hk s hn b w
    refine ⟨n, M0, M, hn, fun ev hev x hx => ?_⟩
    obtain ⟨-, e, he, hle, j, hj⟩ := hM ev hev x
    refine ⟨e, he, ?_⟩
    obtain ⟨i, hi⟩ := h2 x hx
    have := hle i
    have := h1 j x hx
    rw [abs_sub_comm, abs_of_nonneg] <;> linarith

/-- The hypotheses are met: the settings of a model that predicts one smallest or one largest eigenvalue, and a function on an interval
that can be approximated, and one that cannot. -/
example : parseWhich "SA".toList = .ok (.smallest, .algebraic) ∧ parseWhich "LA".toList = .ok (.largest, .algebraic) ∧
    Approximable ⟨some 1, "SA".toList⟩ 0 (Set.Icc (-1) 1 : Set (Fin 1 → ℝ)) (fun x => -|x 0|) ∧
    ¬ Approximable ⟨some 1, "SA".toList⟩ 0 (Set.Icc (-1) 1 : Set (Fin 1 → ℝ)) (fun x => |x 0|) := by
  have hK : IsCompact (Set.Icc (-1) 1 : Set (Fin 1 → ℝ)) := isCompact_Icc
  have hne : (Set.Icc (-1) 1 : Set (Fin 1 → ℝ)).Nonempty := ⟨0, by constructor <;> intro i <;> simp⟩
  have hw : parseWhich "SA".toList = .ok (.smallest, .algebraic) := by decide
  refine ⟨hw, by decide, ?_, fun h => ?_⟩
  · refine (C122_concave _ hw rfl 0 _ hK (convex_Icc _ _) hne _).2 ⟨⟨convex_Icc _ _, fun x _ y _ a b ha hb hab => ?_⟩, by fun_prop⟩
    simp only [smul_eq_mul, Pi.add_apply, Pi.smul_apply]
    have := abs_add_le (a * x 0) (b * y 0)
    rw [abs_mul, abs_mul, abs_of_nonneg ha, abs_of_nonneg hb] at this
    linarith
  · have hc := ((C122_concave _ hw rfl 0 _ hK (convex_Icc _ _) hne _).1 h).1
    have h1 : (1 : Fin 1 → ℝ) ∈ (Set.Icc (-1) 1 : Set (Fin 1 → ℝ)) := by constructor <;> intro i <;> simp
    have h2 : (-1 : Fin 1 → ℝ) ∈ (Set.Icc (-1) 1 : Set (Fin 1 → ℝ)) := by constructor <;> intro i <;> simp
    have := hc.2 h1 h2 (show (0 : ℝ) ≤ 1 / 2 by norm_num) (show (0 : ℝ) ≤ 1 / 2 by norm_num) (by norm_num)
    norm_num at this

/-- The other theorems apply, for instance, to two of three eigenvalues, with data in a tree and a solver that exists. -/
example : ∃ (c : Eigen.Cfg) (k : Nat) (ev : Mat 3 3 → List ℝ) (ev' : Mat (3 + 2) (3 + 2) → List ℝ) (d : Tree (List (Fin 1 → ℝ))),
    parseWhich c.which = .ok (.largest, .algebraic) ∧ c.numEig = some k ∧ k ≤ 3 ∧ IsEigvalsh ev ∧ IsEigvalsh ev' ∧
      (∀ xs ∈ d.flat, ∀ x ∈ xs, ∀ i, |x i| ≤ 4) ∧ d.flat ≠ [] :=
  ⟨⟨some 2, "LA".toList⟩, 2, _, _, .dict [("a".toList, .leaf [fun _ => 3, fun _ => -4])], by decide, rfl, by decide, exists_eigvalsh, exists_eigvalsh,
    by simp [flat, flatD]; norm_num, by simp [flat, flatD]⟩

end Verif.Props
