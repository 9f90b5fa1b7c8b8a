import Verif.Model.Pmm
import Verif.Lemmas.Spectrum
import Verif.Props.Eigen

/-! # C75: eigenvalue matrix models -/

namespace Verif.Props
open Verif.Hermitian Verif.Eigen Verif.Tree Verif.ForwardSpec Verif.Pmm Verif.PmmSpec
open scoped Matrix

variable {n p : Nat}

/-- The matrix of the model at real features: `M₀ + Σ xᵢ Mᵢ + s·i·Σ [M_i, M_j]`, with the Hermitian parts of the parameters; `M₀` may be absent. -/
noncomputable def modelMatrix (s : ℝ) (M0 : Option (Matrix (Fin n) (Fin n) ℂ)) (M : Fin p → Matrix (Fin n) (Fin n) ℂ) (x : Fin p → ℝ) :
    Matrix (Fin n) (Fin n) ℂ :=
  M0.elim 0 herm + ∑ i, (x i : ℂ) • herm (M i) + (s : ℂ) • commutators fun i : Fin (M0.toList ++ List.ofFn M).length => herm ((M0.toList ++ List.ofFn M).get i)

/-- The features of one sample as the model gets them. -/
noncomputable def sample (x : Fin p → ℝ) : List ℂ := List.ofFn fun i => (x i : ℂ)

theorem commutators_list (L : List (Matrix (Fin n) (Fin n) ℂ)) : commutators (fun i : Fin L.length => herm (L.get i)) = smoothingMatrix (L.map hermPart) := by
  rw [← C55_sum, ← map_hermPart, List.ofFn_get]

theorem affine_model (s : ℝ) (M0 : Option (Matrix (Fin n) (Fin n) ℂ)) (M : Fin p → Matrix (Fin n) (Fin n) ℂ) (x : Fin p → ℝ) :
    affine M0.isSome s ((M0.toList ++ List.ofFn M).map hermPart) (sample x) = .ok (modelMatrix s M0 M x) := by
  unfold modelMatrix sample
  rw [commutators_list]
  cases M0 with
  | none =>
    have := C54_value_plain s M fun i => (x i : ℂ)
    rw [← C55_sum, ← map_hermPart] at this
    simpa using this
  | some m =>
    have := C54_value_bias s (Fin.cons m M : Fin (p + 1) → Matrix (Fin n) (Fin n) ℂ) fun i => (x i : ℂ)
    rw [← C55_sum, ← map_hermPart, List.ofFn_succ] at this
    simpa using this

theorem modelMatrix_isHermitian (s : ℝ) (M0 : Option (Matrix (Fin n) (Fin n) ℂ)) (M : Fin p → Matrix (Fin n) (Fin n) ℂ) (x : Fin p → ℝ) :
    (modelMatrix s M0 M x).IsHermitian := by
  refine C54_hermitian M0.isSome s (M0.toList ++ List.ofFn M) (List.ofFn x) _ ?_
  rw [← affine_model s M0 M x, List.map_ofFn]
  rfl

theorem single_call (ev : Mat n n → List ℝ) (c : Eigen.Cfg) (bias : Bool) (s : ℝ) (Ms : List (Mat n n)) (x : List ℂ) {A : Mat n n}
    (h : affine bias s (Ms.map hermPart) x = .ok A) :
    eigenvalueCall ev c bias s Ms (.leaf [x]) = match selectValues (ev A) c.numEig c.which with
      | .ok r => .ok (.leaf [r])
      | .error e => .error e := by
  have e1 : [x].mapM (affine bias s (Ms.map hermPart)) = Except.ok [A] := by
    simp only [List.mapM_cons, h, List.mapM_nil]; rfl
  simp only [eigenvalueCall, affineCallable, Tree.norm, Tree.mapM, e1, valuesCallable]
  cases hs : selectValues (ev A) c.numEig c.which with
  | error e => simp only [List.mapM_cons, hs]; rfl
  | ok r => simp only [List.mapM_cons, hs, List.mapM_nil]; rfl

/-- **C75** Every sample of every array of the data is treated by itself: the prediction at a place is the list of the predictions of
the samples there, and the structure is kept. -/
theorem C75_samples (ev : Matrix (Fin n) (Fin n) ℂ → List ℝ) (c : Eigen.Cfg) (bias : Bool) (s : ℝ) (Ms : List (Matrix (Fin n) (Fin n) ℂ))
    (data : Tree (List (List ℂ))) (out : Tree (List (List ℝ))) (h : eigenvalueCall ev c bias s Ms data = .ok out) :
    map (fun _ => ()) out = map (fun _ => ()) data.norm.norm ∧
    ∀ q xs, At data q xs → ∃ rs, At out q rs ∧ List.Forall₂ (fun x r => eigenvalueCall ev c bias s Ms (.leaf [x]) = .ok (.leaf [r])) xs rs := by
  unfold eigenvalueCall at h
  cases hA : affineCallable bias s Ms data with
  | error e => rw [hA] at h; cases h
  | ok As =>
    rw [hA] at h
    simp only [] at h
    obtain ⟨hst, hat⟩ := C54_data bias s Ms data As hA
    unfold valuesCallable at h
    refine ⟨?_, fun q xs hq => ?_⟩
    · obtain ⟨z, h1, h2, -⟩ := mapM_graph (fun xs w hw => by
        split at hw
        · cases hw; exact ⟨_, rfl⟩
        · cases hw) _ h
      rw [← h2, map_map]
      have e1 : map (fun _ => ()) As.norm = map (fun _ => ()) data.norm.norm := by
        rw [← norm_map, hst, norm_map]
      rw [← e1, ← h1, map_map]
    · obtain ⟨As', hAs', hf⟩ := hat q xs hq
      obtain ⟨w, hw, hs⟩ := mapM_at h (at_norm.2 hAs')
      split at hw
      · rename_i r hr
        cases hw
        refine ⟨r, sub_leaf.1 hs, ?_⟩
        have hr' := mapM_forall₂ hr
        clear hr hs hAs' hq
        induction hf generalizing r with
        | nil => cases hr'; exact List.Forall₂.nil
        | cons h1 _ ih =>
          cases hr' with
          | cons h2 h3 =>
            refine List.Forall₂.cons ?_ (ih _ h3)
            rw [single_call ev c bias s Ms _ h1.1, h2]
      · cases hw

/-- **C75** The prediction for one sample: `k` eigenvalues of the model's matrix, the ones the mode asks for, in ascending order (of
the absolute values for the magnitude modes). -/
theorem C75_prediction (ev : Matrix (Fin n) (Fin n) ℂ → List ℝ) (hev : IsEigvalsh ev) (c : Eigen.Cfg) {part : Part} {o : Order}
    (hw : parseWhich c.which = .ok (part, o)) (hk : c.numEig.getD n ≤ n) (s : ℝ) (M0 : Option (Matrix (Fin n) (Fin n) ℂ))
    (M : Fin p → Matrix (Fin n) (Fin n) ℂ) (x : Fin p → ℝ) :
    ∃ r, eigenvalueCall ev c M0.isSome s (M0.toList ++ List.ofFn M) (.leaf [sample x]) = .ok (.leaf [r]) ∧ r.length = c.numEig.getD n ∧
      (∀ e ∈ r, ((e : ℝ) : ℂ) ∈ (modelMatrix s M0 M x).charpoly.roots) ∧
      Selected (ev (modelMatrix s M0 M x)) (ev (modelMatrix s M0 M x)) c.numEig part o r r := by
  have hA := modelMatrix_isHermitian s M0 M x
  have hl := ev_length hev hA
  obtain ⟨E', V', e1, e2, hS⟩ := C58_select (ev (modelMatrix s M0 M x)) (ev (modelMatrix s M0 M x)) rfl c.numEig (by rw [hl]; exact hk) c.which part o hw
  have hEV : E' = V' := by
    obtain ⟨idx, -, -, -, h1, h2, -⟩ := hS
    have inj : Function.Injective (List.map (some : ℝ → Option ℝ)) := List.map_injective_iff.2 (Option.some_injective _)
    exact inj (h1.trans h2.symm)
  subst hEV
  refine ⟨E', ?_, ?_, fun e he => ?_, hS⟩
  · rw [single_call ev c _ s _ _ (affine_model s M0 M x), e2]
  · rw [(selected_length hS).1, hl]
  · rw [← (hev _ hA).2, Multiset.mem_coe, List.mem_map]
    refine ⟨e, ?_, rfl⟩
    obtain ⟨idx, -, -, -, h1, -⟩ := hS
    have : some e ∈ E'.map some := List.mem_map.2 ⟨e, he, rfl⟩
    rw [h1] at this
    obtain ⟨i, -, hi⟩ := List.mem_map.1 this
    exact List.mem_of_getElem? hi

theorem argsort_of_sorted {E : List ℝ} (hs : E.Pairwise (· ≤ ·)) : argsort .algebraic E = List.range E.length := by
  unfold argsort
  have : (List.range E.length).Pairwise fun i j => key Order.algebraic (E.getD i 0) ≤ key Order.algebraic (E.getD j 0) := by
    rw [List.pairwise_iff_getElem]
    intro i j hi hj hij
    simp only [List.length_range] at hi hj
    simp only [List.getElem_range, key, List.getD_eq_getElem?_getD, List.getElem?_eq_getElem hi, List.getElem?_eq_getElem hj, Option.getD_some]
    exact (List.pairwise_iff_getElem.1 hs) i j hi hj hij
  exact this.insertionSort_eq

theorem select_sorted (N : Nat) {k : Option Nat} (hk' : k.getD N ≤ N) {w : Str} {part : Part} (hw : parseWhich w = .ok (part, .algebraic)) :
    ∃ idx : List Nat, (∀ i ∈ idx, i < N) ∧
      (∀ E : List ℝ, E.Pairwise (· ≤ ·) → E.length = N → selectValues E k w = .ok (idx.map (E.getD · 0))) ∧
      (k.getD N = 1 → (part = .smallest → idx = [0]) ∧ (part = .largest → idx = [N - 1])) := by
  obtain ⟨E, hE, hN⟩ : ∃ E : List ℝ, E.Pairwise (· ≤ ·) ∧ E.length = N :=
    ⟨List.replicate N 0, List.pairwise_replicate.2 (.inr le_rfl), List.length_replicate⟩
  subst hN
  have hk := hk'
  have aux : ∀ G : List ℝ, G.Pairwise (· ≤ ·) → G.length = E.length →
      selectValues G k w = .ok ((((idxFn part .algebraic E (k.getD E.length))).take (k.getD E.length)).map (G.getD · 0)) := by
    intro G hG hGl
    have hidx : idxFn part .algebraic G (k.getD E.length) = idxFn part .algebraic E (k.getD E.length) := by
      unfold idxFn
      rw [argsort_of_sorted hG, argsort_of_sorted hE, hGl]
    simp only [selectValues, selectPairs, hw, selectByFn, Option.map_none, Option.getD_some, hGl, hidx]
    have hb : ∀ i ∈ idxFn part .algebraic E (k.getD E.length), i < G.length := by
      obtain ⟨_, -, -, -, -, -, -, h⟩ := idxFn_spec part .algebraic E (k.getD E.length) hk
      rw [hGl]; exact h
    have inj : Function.Injective (List.map (some : ℝ → Option ℝ)) := List.map_injective_iff.2 (Option.some_injective _)
    congr 1
    apply inj
    rw [List.map_take, filterMap_get G _ hb, ← List.map_take, List.map_map]
    refine List.map_congr_left fun i hi => ?_
    have := hb i (List.mem_of_mem_take hi)
    simp [List.getD_eq_getElem?_getD, List.getElem?_eq_getElem this]
  obtain ⟨idx, rfl, -, h3, h4, -⟩ := idxFn_spec part .algebraic E (k.getD E.length) hk
  refine ⟨_, h4, aux, fun h1 => ?_⟩
  rw [h1] at hk ⊢
  refine ⟨?_, ?_⟩
  · rintro rfl
    simp only [idxFn, argsort_of_sorted hE, Int.natCast_one]
    have := pySlice_zero (List.range E.length) 1
    simp only [Nat.cast_one] at this
    rw [this]
    obtain ⟨m, hm⟩ : ∃ m, E.length = m + 1 := ⟨E.length - 1, by omega⟩
    rw [hm]
    simp [List.range_succ_eq_map]
  · rintro rfl
    simp only [idxFn, argsort_of_sorted hE]
    rw [pyFrom_neg _ 1 (by omega) (by simpa using hk)]
    obtain ⟨m, hm⟩ : ∃ m, E.length = m + 1 := ⟨E.length - 1, by omega⟩
    rw [hm]
    simp [List.range_succ]

theorem call_sorted (ev : Matrix (Fin n) (Fin n) ℂ → List ℝ) (hev : IsEigvalsh ev) (c : Eigen.Cfg) {part : Part}
    (hw : parseWhich c.which = .ok (part, .algebraic)) (hk : c.numEig.getD n ≤ n) (s : ℝ) (M0 : Option (Matrix (Fin n) (Fin n) ℂ))
    (M : Fin p → Matrix (Fin n) (Fin n) ℂ) :
    ∃ idx : List Nat, (∀ i ∈ idx, i < n) ∧
      (∀ x, eigenvalueCall ev c M0.isSome s (M0.toList ++ List.ofFn M) (.leaf [sample x]) =
        .ok (.leaf [idx.map ((ev (modelMatrix s M0 M x)).getD · 0)])) ∧
      (c.numEig.getD n = 1 → (part = .smallest → idx = [0]) ∧ (part = .largest → idx = [n - 1])) := by
  obtain ⟨idx, h1, h2, h3⟩ := select_sorted n hk hw
  refine ⟨idx, h1, fun x => ?_, h3⟩
  have hA := modelMatrix_isHermitian s M0 M x
  rw [single_call ev c _ s _ _ (affine_model s M0 M x), h2 _ (hev _ hA).1 (ev_length hev hA)]

theorem getD_some {E : List ℝ} {i : Nat} (h : i < E.length) : E[i]? = some (E.getD i 0) := by
  simp [List.getD_eq_getElem?_getD, List.getElem?_eq_getElem h]

/-- **C75** A model asked for one smallest eigenvalue predicts the minimum of the energy over all unit vectors. -/
theorem C75_ground_state (ev : Matrix (Fin n) (Fin n) ℂ → List ℝ) (hev : IsEigvalsh ev) (c : Eigen.Cfg)
    (hw : parseWhich c.which = .ok (.smallest, .algebraic)) (hk : c.numEig.getD n = 1) (hn : 0 < n) (s : ℝ) (M0 : Option (Matrix (Fin n) (Fin n) ℂ))
    (M : Fin p → Matrix (Fin n) (Fin n) ℂ) (x : Fin p → ℝ) :
    ∃ e, eigenvalueCall ev c M0.isSome s (M0.toList ++ List.ofFn M) (.leaf [sample x]) = .ok (.leaf [[e]]) ∧
      (∀ v, e * lenSq v ≤ energy (modelMatrix s M0 M x) v) ∧ ∃ v, lenSq v = 1 ∧ energy (modelMatrix s M0 M x) v = e := by
  obtain ⟨idx, -, h2, h3⟩ := call_sorted ev hev c hw (by omega) s M0 M
  obtain rfl := (h3 hk).1 rfl
  have hA := modelMatrix_isHermitian s M0 M x
  exact ⟨_, h2 x, ev_least hev hA (getD_some (by rw [ev_length hev hA]; exact hn))⟩

/-- **C75** A model asked for one largest eigenvalue predicts the maximum of the energy over all unit vectors. -/
theorem C75_top_state (ev : Matrix (Fin n) (Fin n) ℂ → List ℝ) (hev : IsEigvalsh ev) (c : Eigen.Cfg)
    (hw : parseWhich c.which = .ok (.largest, .algebraic)) (hk : c.numEig.getD n = 1) (hn : 0 < n) (s : ℝ) (M0 : Option (Matrix (Fin n) (Fin n) ℂ))
    (M : Fin p → Matrix (Fin n) (Fin n) ℂ) (x : Fin p → ℝ) :
    ∃ e, eigenvalueCall ev c M0.isSome s (M0.toList ++ List.ofFn M) (.leaf [sample x]) = .ok (.leaf [[e]]) ∧
      (∀ v, energy (modelMatrix s M0 M x) v ≤ e * lenSq v) ∧ ∃ v, lenSq v = 1 ∧ energy (modelMatrix s M0 M x) v = e := by
  obtain ⟨idx, -, h2, h3⟩ := call_sorted ev hev c hw (by omega) s M0 M
  obtain rfl := (h3 hk).2 rfl
  have hA := modelMatrix_isHermitian s M0 M x
  exact ⟨_, h2 x, ev_greatest hev hA (getD_some (by rw [ev_length hev hA]; omega))⟩

theorem energy_model (s : ℝ) (M0 : Option (Matrix (Fin n) (Fin n) ℂ)) (M : Fin p → Matrix (Fin n) (Fin n) ℂ) (x : Fin p → ℝ) (v : Fin n → ℂ) :
    energy (modelMatrix s M0 M x) v = energy (modelMatrix s M0 M 0) v + ∑ i, x i * energy (herm (M i)) v := by
  simp only [modelMatrix, energy_add, energy_sum, energy_smul, Pi.zero_apply, zero_mul, Finset.sum_const_zero]
  ring

/-- **C75** The predicted smallest eigenvalue is a concave function of the features. -/
theorem C75_concave (ev : Matrix (Fin n) (Fin n) ℂ → List ℝ) (hev : IsEigvalsh ev) (c : Eigen.Cfg)
    (hw : parseWhich c.which = .ok (.smallest, .algebraic)) (hk : c.numEig.getD n = 1) (hn : 0 < n) (s : ℝ) (M0 : Option (Matrix (Fin n) (Fin n) ℂ))
    (M : Fin p → Matrix (Fin n) (Fin n) ℂ) (x y : Fin p → ℝ) (t : ℝ) (h0 : 0 ≤ t) (h1 : t ≤ 1) :
    ∃ a b m, eigenvalueCall ev c M0.isSome s (M0.toList ++ List.ofFn M) (.leaf [sample x]) = .ok (.leaf [[a]]) ∧
      eigenvalueCall ev c M0.isSome s (M0.toList ++ List.ofFn M) (.leaf [sample y]) = .ok (.leaf [[b]]) ∧
      eigenvalueCall ev c M0.isSome s (M0.toList ++ List.ofFn M) (.leaf [sample fun i => t * x i + (1 - t) * y i]) = .ok (.leaf [[m]]) ∧
      t * a + (1 - t) * b ≤ m := by
  obtain ⟨a, ha, ha', -⟩ := C75_ground_state ev hev c hw hk hn s M0 M x
  obtain ⟨b, hb, hb', -⟩ := C75_ground_state ev hev c hw hk hn s M0 M y
  obtain ⟨m, hm, -, v, hv1, hv⟩ := C75_ground_state ev hev c hw hk hn s M0 M fun i => t * x i + (1 - t) * y i
  refine ⟨a, b, m, ha, hb, hm, ?_⟩
  have ea := ha' v
  have eb := hb' v
  rw [hv1, energy_model] at ea eb
  rw [energy_model] at hv
  have hs : ∑ i, (t * x i + (1 - t) * y i) * energy (herm (M i)) v = t * ∑ i, x i * energy (herm (M i)) v + (1 - t) * ∑ i, y i * energy (herm (M i)) v := by
    rw [Finset.mul_sum, Finset.mul_sum, ← Finset.sum_add_distrib]
    exact Finset.sum_congr rfl fun i _ => by ring
  rw [hs] at hv
  have e1 := mul_le_mul_of_nonneg_left ea h0
  have e2 := mul_le_mul_of_nonneg_left eb (sub_nonneg.2 h1)
  rw [← hv]
  nlinarith [e1, e2]

/-- **C75** The predicted largest eigenvalue is a convex function of the features. -/
theorem C75_convex (ev : Matrix (Fin n) (Fin n) ℂ → List ℝ) (hev : IsEigvalsh ev) (c : Eigen.Cfg)
    (hw : parseWhich c.which = .ok (.largest, .algebraic)) (hk : c.numEig.getD n = 1) (hn : 0 < n) (s : ℝ) (M0 : Option (Matrix (Fin n) (Fin n) ℂ))
    (M : Fin p → Matrix (Fin n) (Fin n) ℂ) (x y : Fin p → ℝ) (t : ℝ) (h0 : 0 ≤ t) (h1 : t ≤ 1) :
    ∃ a b m, eigenvalueCall ev c M0.isSome s (M0.toList ++ List.ofFn M) (.leaf [sample x]) = .ok (.leaf [[a]]) ∧
      eigenvalueCall ev c M0.isSome s (M0.toList ++ List.ofFn M) (.leaf [sample y]) = .ok (.leaf [[b]]) ∧
      eigenvalueCall ev c M0.isSome s (M0.toList ++ List.ofFn M) (.leaf [sample fun i => t * x i + (1 - t) * y i]) = .ok (.leaf [[m]]) ∧
      m ≤ t * a + (1 - t) * b := by
  obtain ⟨a, ha, ha', -⟩ := C75_top_state ev hev c hw hk hn s M0 M x
  obtain ⟨b, hb, hb', -⟩ := C75_top_state ev hev c hw hk hn s M0 M y
  obtain ⟨m, hm, -, v, hv1, hv⟩ := C75_top_state ev hev c hw hk hn s M0 M fun i => t * x i + (1 - t) * y i
  refine ⟨a, b, m, ha, hb, hm, ?_⟩
  have ea := ha' v
  have eb := hb' v
  rw [hv1, energy_model] at ea eb
  rw [energy_model] at hv
  have hs : ∑ i, (t * x i + (1 - t) * y i) * energy (herm (M i)) v = t * ∑ i, x i * energy (herm (M i)) v + (1 - t) * ∑ i, y i * energy (herm (M i)) v := by
    rw [Finset.mul_sum, Finset.mul_sum, ← Finset.sum_add_distrib]
    exact Finset.sum_congr rfl fun i _ => by ring
  rw [hs] at hv
  have e1 := mul_le_mul_of_nonneg_left ea h0
  have e2 := mul_le_mul_of_nonneg_left eb (sub_nonneg.2 h1)
  rw [← hv]
  nlinarith [e1, e2]

/-- **C75** In the algebraic modes every predicted eigenvalue depends Lipschitz-continuously on the features: it moves at most by the
changes of the features times bounds for the parameters. -/
theorem C75_lipschitz (ev : Matrix (Fin n) (Fin n) ℂ → List ℝ) (hev : IsEigvalsh ev) (c : Eigen.Cfg) {part : Part}
    (hw : parseWhich c.which = .ok (part, .algebraic)) (hk : c.numEig.getD n ≤ n) (s : ℝ) (M0 : Option (Matrix (Fin n) (Fin n) ℂ))
    (M : Fin p → Matrix (Fin n) (Fin n) ℂ) (bnd : Fin p → ℝ) (hb : ∀ i v, |energy (herm (M i)) v| ≤ bnd i * lenSq v) (x y : Fin p → ℝ) :
    ∃ a b, eigenvalueCall ev c M0.isSome s (M0.toList ++ List.ofFn M) (.leaf [sample x]) = .ok (.leaf [a]) ∧
      eigenvalueCall ev c M0.isSome s (M0.toList ++ List.ofFn M) (.leaf [sample y]) = .ok (.leaf [b]) ∧
      List.Forall₂ (fun u w => |u - w| ≤ ∑ i, |x i - y i| * bnd i) a b := by
  obtain ⟨idx, h1, h2, -⟩ := call_sorted ev hev c hw hk s M0 M
  refine ⟨_, _, h2 x, h2 y, ?_⟩
  have key : ∀ x y : Fin p → ℝ, ∀ v, energy (modelMatrix s M0 M x) v ≤ energy (modelMatrix s M0 M y) v + (∑ i, |x i - y i| * bnd i) * lenSq v := by
    intro x y v
    rw [energy_model s M0 M x, energy_model s M0 M y, add_assoc, add_le_add_iff_left, ← sub_le_iff_le_add', ← Finset.sum_sub_distrib, Finset.sum_mul]
    refine Finset.sum_le_sum fun i _ => ?_
    rw [← sub_mul, mul_assoc]
    calc (x i - y i) * energy (herm (M i)) v ≤ |x i - y i| * |energy (herm (M i)) v| := by rw [← abs_mul]; exact le_abs_self _
      _ ≤ |x i - y i| * (bnd i * lenSq v) := mul_le_mul_of_nonneg_left (hb i v) (abs_nonneg _)
  have hx := modelMatrix_isHermitian s M0 M x
  have hy := modelMatrix_isHermitian s M0 M y
  have main : ∀ i < n, |(ev (modelMatrix s M0 M x)).getD i 0 - (ev (modelMatrix s M0 M y)).getD i 0| ≤ ∑ i, |x i - y i| * bnd i := by
    intro i hi
    have gx := getD_some (E := ev (modelMatrix s M0 M x)) (i := i) (by rw [ev_length hev hx]; exact hi)
    have gy := getD_some (E := ev (modelMatrix s M0 M y)) (i := i) (by rw [ev_length hev hy]; exact hi)
    have w1 := weyl hev hx hy (key x y) i _ _ gx gy
    have w2 := weyl hev hy hx (key y x) i _ _ gy gx
    simp only [abs_sub_comm (y _) (x _)] at w2
    rw [abs_le]
    constructor <;> linarith
  clear h2
  induction idx with
  | nil => exact List.Forall₂.nil
  | cons i t ih => exact List.Forall₂.cons (main i (h1 i List.mem_cons_self)) (ih fun j hj => h1 j (List.mem_cons_of_mem _ hj))

theorem herm_gauge (G A : Matrix (Fin n) (Fin n) ℂ) : herm (G * A * Gᴴ) = G * herm A * Gᴴ := by
  unfold herm
  simp only [Matrix.conjTranspose_mul, Matrix.conjTranspose_conjTranspose, Matrix.mul_smul, Matrix.smul_mul, Matrix.mul_add, Matrix.add_mul, Matrix.mul_assoc]

/-- A change of basis. -/
def rotate (G A : Matrix (Fin n) (Fin n) ℂ) : Matrix (Fin n) (Fin n) ℂ := G * A * Gᴴ

theorem commutators_gauge {m : Nat} {G : Matrix (Fin n) (Fin n) ℂ} (hG : Gᴴ * G = 1) (N : Fin m → Matrix (Fin n) (Fin n) ℂ) :
    commutators (fun i => rotate G (N i)) = rotate G (commutators N) := by
  have hm : ∀ A B : Matrix (Fin n) (Fin n) ℂ, rotate G A * rotate G B = rotate G (A * B) := by
    intro A B
    unfold rotate
    calc G * A * Gᴴ * (G * B * Gᴴ) = G * A * (Gᴴ * G) * B * Gᴴ := by simp only [Matrix.mul_assoc]
      _ = _ := by rw [hG, Matrix.mul_one, Matrix.mul_assoc G A B]
  simp only [commutators, hm]
  unfold rotate
  rw [Matrix.mul_smul, Matrix.smul_mul, Finset.mul_sum, Finset.sum_mul]
  congr 1
  refine Finset.sum_congr rfl fun i _ => ?_
  rw [Finset.mul_sum, Finset.sum_mul]
  refine Finset.sum_congr rfl fun j _ => ?_
  split
  · rw [Matrix.mul_sub, Matrix.sub_mul]
  · rw [Matrix.mul_zero, Matrix.zero_mul]

theorem smoothing_gauge {G : Matrix (Fin n) (Fin n) ℂ} (hG : Gᴴ * G = 1) (L : List (Matrix (Fin n) (Fin n) ℂ)) :
    smoothingMatrix (L.map (rotate G)) = rotate G (smoothingMatrix L) := by
  have e : L = List.ofFn L.get := (List.ofFn_get L).symm
  rw [e, List.map_ofFn, C55_sum, C55_sum]
  exact commutators_gauge hG L.get

theorem model_gauge {G : Matrix (Fin n) (Fin n) ℂ} (hG : Gᴴ * G = 1) (s : ℝ) (M0 : Option (Matrix (Fin n) (Fin n) ℂ))
    (M : Fin p → Matrix (Fin n) (Fin n) ℂ) (x : Fin p → ℝ) :
    modelMatrix s (M0.map (rotate G)) (fun i => rotate G (M i)) x = rotate G (modelMatrix s M0 M x) := by
  have hL : (M0.map (rotate G)).toList ++ List.ofFn (fun i => rotate G (M i)) = (M0.toList ++ List.ofFn M).map (rotate G) := by
    rw [List.map_append, List.map_ofFn]
    cases M0 <;> rfl
  have hh : ∀ A, herm (rotate G A) = rotate G (herm A) := herm_gauge G
  have hc : (s : ℂ) • smoothingMatrix (((M0.map (rotate G)).toList ++ List.ofFn fun i => rotate G (M i)).map hermPart)
      = rotate G ((s : ℂ) • smoothingMatrix ((M0.toList ++ List.ofFn M).map hermPart)) := by
    have : ((M0.map (rotate G)).toList ++ List.ofFn fun i => rotate G (M i)).map hermPart = ((M0.toList ++ List.ofFn M).map hermPart).map (rotate G) := by
      rw [hL, List.map_map, List.map_map]
      refine List.map_congr_left fun A _ => ?_
      have h1 := map_hermPart (fun _ : Fin 1 => rotate G A)
      have h2 := map_hermPart (fun _ : Fin 1 => A)
      simp only [List.ofFn_succ, List.ofFn_zero, List.map_cons, List.map_nil, List.cons.injEq, and_true] at h1 h2
      simp only [Function.comp_apply, h1, h2, hh]
    rw [this, smoothing_gauge hG]
    simp only [rotate, Matrix.mul_smul, Matrix.smul_mul]
  unfold modelMatrix
  rw [commutators_list, commutators_list, hc]
  have h0 : (M0.map (rotate G)).elim 0 herm = rotate G (M0.elim 0 herm) := by
    cases M0 with
    | none => simp [rotate]
    | some m => exact hh m
  rw [h0]
  simp only [hh]
  simp only [rotate, Matrix.mul_add, Matrix.add_mul, Finset.mul_sum, Finset.sum_mul, Matrix.mul_smul, Matrix.smul_mul]

/-- **C75** Gauge invariance: changing the basis of all parameters by the same unitary matrix changes no prediction, in any mode. -/
theorem C75_gauge (ev : Matrix (Fin n) (Fin n) ℂ → List ℝ) (hev : IsEigvalsh ev) (c : Eigen.Cfg) (G : Matrix (Fin n) (Fin n) ℂ) (hG : Gᴴ * G = 1)
    (s : ℝ) (M0 : Option (Matrix (Fin n) (Fin n) ℂ)) (M : Fin p → Matrix (Fin n) (Fin n) ℂ) (x : Fin p → ℝ) :
    eigenvalueCall ev c M0.isSome s ((M0.toList ++ List.ofFn M).map fun A => G * A * Gᴴ) (.leaf [sample x])
      = eigenvalueCall ev c M0.isSome s (M0.toList ++ List.ofFn M) (.leaf [sample x]) := by
  have hL : (M0.map (rotate G)).toList ++ List.ofFn (fun i => rotate G (M i)) = (M0.toList ++ List.ofFn M).map fun A => G * A * Gᴴ := by
    rw [List.map_append, List.map_ofFn]
    cases M0 <;> rfl
  have h1 := affine_model s (M0.map (rotate G)) (fun i => rotate G (M i)) x
  have hE := ev_charpoly hev (modelMatrix_isHermitian s (M0.map (rotate G)) (fun i => rotate G (M i)) x) (modelMatrix_isHermitian s M0 M x) (by
    rw [model_gauge hG, rotate, Matrix.charpoly_mul_comm, ← Matrix.mul_assoc, hG, Matrix.one_mul])
  rw [hL, Option.isSome_map] at h1
  rw [single_call ev c _ s _ _ h1, single_call ev c _ s _ _ (affine_model s M0 M x), hE]

/-- **C75** The declared output shape is the shape of the prediction if a number of eigenvalues is given. -/
theorem C75_shape (ev : Matrix (Fin n) (Fin n) ℂ → List ℝ) (hev : IsEigvalsh ev) (c : Eigen.Cfg) (k : Nat) (hc : c.numEig = some k) {part : Part} {o : Order}
    (hw : parseWhich c.which = .ok (part, o)) (hk : k ≤ n) (s : ℝ) (M0 : Option (Matrix (Fin n) (Fin n) ℂ))
    (M : Fin p → Matrix (Fin n) (Fin n) ℂ) (x : Fin p → ℝ) :
    ∃ r, eigenvalueCall ev c M0.isSome s (M0.toList ++ List.ofFn M) (.leaf [sample x]) = .ok (.leaf [r]) ∧
      eigenvalueShape c.numEig (.leaf [p]) = .ok (.leaf [some r.length]) := by
  obtain ⟨r, h1, h2, -⟩ := C75_prediction ev hev c hw (by rw [hc]; exact hk) s M0 M x
  refine ⟨r, h1, ?_⟩
  rw [h2, hc]
  rfl

/-- **C75** If all eigenvalues are asked for by giving no number, the declared shape is not the shape of the prediction. -/
theorem C75_shape_none_refuted (ev : Matrix (Fin n) (Fin n) ℂ → List ℝ) (hev : IsEigvalsh ev) (c : Eigen.Cfg) (hc : c.numEig = Option.none) {part : Part} {o : Order}
    (hw : parseWhich c.which = .ok (part, o)) (s : ℝ) (M0 : Option (Matrix (Fin n) (Fin n) ℂ)) (M : Fin p → Matrix (Fin n) (Fin n) ℂ) (x : Fin p → ℝ) :
    ∃ r, eigenvalueCall ev c M0.isSome s (M0.toList ++ List.ofFn M) (.leaf [sample x]) = .ok (.leaf [r]) ∧
      eigenvalueShape c.numEig (.leaf [p]) ≠ .ok (.leaf [some r.length]) := by
  obtain ⟨r, h1, h2, -⟩ := C75_prediction ev hev c hw (by rw [hc]; exact le_rfl) s M0 M x
  refine ⟨r, h1, ?_⟩
  rw [hc]
  intro h
  injection h with h
  injection h with h
  injection h with h
  cases h

/-- **C75** More than one input array is rejected when the shape is asked for. -/
theorem C75_shape_single (k : Option Nat) (t : Tree (List Nat)) (h : t.jaxLeaves.length ≠ 1) : eigenvalueShape k t = .error .valueError := if_neg h

/-- The numbers of the counterexample: `diag(-1, 1) + x`. -/
noncomputable def flip : Fin 2 → ℝ := ![-1, 1]

theorem flip_matrix (x : ℝ) : modelMatrix 0 (some (Matrix.diagonal fun i => (flip i : ℂ))) (fun _ : Fin 1 => (1 : Matrix (Fin 2) (Fin 2) ℂ)) (fun _ => x)
    = Matrix.diagonal fun i => ((![-1 + x, 1 + x] i : ℝ) : ℂ) := by
  have h1 : ∀ d : Fin 2 → ℝ, herm (Matrix.diagonal fun i => (d i : ℂ)) = Matrix.diagonal fun i => (d i : ℂ) := by
    intro d
    unfold herm
    rw [Matrix.diagonal_conjTranspose]
    ext i j
    simp only [Matrix.smul_apply, Matrix.add_apply, Matrix.diagonal_apply, smul_eq_mul]
    split
    · simp; ring
    · simp
  have h2 : herm (1 : Matrix (Fin 2) (Fin 2) ℂ) = 1 := by
    have := h1 fun _ => 1
    simpa using this
  unfold modelMatrix
  rw [Option.elim_some, h1]
  simp only [Finset.univ_unique, Finset.sum_const, Finset.card_singleton, one_smul, h2, Complex.ofReal_zero, zero_smul, add_zero]
  ext i j
  fin_cases i <;> fin_cases j <;> simp [flip]

/-- **C75** In the magnitude modes the prediction jumps: there is a model for which arbitrarily close features have predictions
more than 2 apart. -/
theorem C75_magnitude_refuted (ev : Matrix (Fin 2) (Fin 2) ℂ → List ℝ) (hev : IsEigvalsh ev) (ε : ℝ) (hε : 0 < ε) (hε1 : ε < 1) :
    ∃ a b, eigenvalueCall ev ⟨some 1, "LM".toList⟩ true 0 [Matrix.diagonal fun i => (flip i : ℂ), 1] (.leaf [sample fun _ : Fin 1 => ε]) = .ok (.leaf [[a]]) ∧
      eigenvalueCall ev ⟨some 1, "LM".toList⟩ true 0 [Matrix.diagonal fun i => (flip i : ℂ), 1] (.leaf [sample fun _ : Fin 1 => -ε]) = .ok (.leaf [[b]]) ∧
      2 < a - b := by
  have hw : parseWhich "LM".toList = .ok (.largest, .magnitude) := by rfl
  have main : ∀ x : ℝ, ∃ r, eigenvalueCall ev ⟨some 1, "LM".toList⟩ true 0 [Matrix.diagonal fun i => (flip i : ℂ), 1] (.leaf [sample fun _ : Fin 1 => x]) = .ok (.leaf [r]) ∧
      Selected [-1 + x, 1 + x] [-1 + x, 1 + x] (some 1) .largest .magnitude r r := by
    intro x
    obtain ⟨r, h1, -, -, h4⟩ := C75_prediction ev hev ⟨some 1, "LM".toList⟩ hw (by decide) 0 (some (Matrix.diagonal fun i => (flip i : ℂ)))
      (fun _ : Fin 1 => (1 : Matrix (Fin 2) (Fin 2) ℂ)) fun _ => x
    refine ⟨r, by simpa using h1, ?_⟩
    rw [flip_matrix, ev_diagonal hev _ (by simp; linarith)] at h4
    simpa using h4
  have pick : ∀ (x : ℝ) (r : List ℝ), Selected [-1 + x, 1 + x] [-1 + x, 1 + x] (some 1) .largest .magnitude r r →
      ∃ e, r = [e] ∧ (e = -1 + x ∧ |1 + x| ≤ |-1 + x| ∨ e = 1 + x ∧ |-1 + x| ≤ |1 + x|) := by
    intro x r h
    obtain ⟨idx, hn, hl, hb, h1, -, -, h2⟩ := h
    simp only [Option.getD_some] at hl h2
    obtain ⟨i, rfl⟩ := List.length_eq_one_iff.1 hl
    have hi := hb i List.mem_cons_self
    simp only [List.length_cons, List.length_nil] at hi
    simp only [Chosen, List.mem_singleton, forall_eq, List.length_cons, List.length_nil] at h2
    have inj : Function.Injective (List.map (some : ℝ → Option ℝ)) := List.map_injective_iff.2 (Option.some_injective _)
    obtain rfl | rfl : i = 0 ∨ i = 1 := by omega
    · refine ⟨-1 + x, inj h1, .inl ⟨rfl, ?_⟩⟩
      simpa [Eigen.key] using h2 1 (by omega) (by omega)
    · refine ⟨1 + x, inj h1, .inr ⟨rfl, ?_⟩⟩
      simpa [Eigen.key] using h2 0 (by omega) (by omega)
  obtain ⟨r, h1, h2⟩ := main ε
  obtain ⟨q, h3, h4⟩ := main (-ε)
  obtain ⟨a, rfl, ha⟩ := pick _ _ h2
  obtain ⟨b, rfl, hb⟩ := pick _ _ h4
  refine ⟨a, b, h1, h3, ?_⟩
  rw [abs_of_neg (by linarith : -1 + ε < 0), abs_of_pos (by linarith : 0 < 1 + ε)] at ha
  rw [abs_of_neg (by linarith : -1 + -ε < 0), abs_of_pos (by linarith : 0 < 1 + -ε)] at hb
  rcases ha with ⟨_, h⟩ | ⟨rfl, _⟩ <;> rcases hb with ⟨rfl, _⟩ | ⟨_, h'⟩ <;> linarith

/-- An `eigvalsh` to run the examples with. -/
noncomputable def someEigvalsh (A : Matrix (Fin n) (Fin n) ℂ) : List ℝ := (A.charpoly.roots.map Complex.re).sort (· ≤ ·)

example : IsEigvalsh (someEigvalsh (n := 3)) := exists_eigvalsh

theorem someEigvalsh_flip (x : ℝ) :
    eigenvalueCall someEigvalsh ⟨some 1, "SA".toList⟩ true 0 [Matrix.diagonal fun i => (flip i : ℂ), 1] (.leaf [sample fun _ : Fin 1 => x])
      = .ok (.leaf [[-1 + x]]) := by
  obtain ⟨idx, -, h2, h3⟩ := call_sorted someEigvalsh exists_eigvalsh ⟨some 1, "SA".toList⟩ (part := .smallest) (by rfl) (by decide) 0
    (some (Matrix.diagonal fun i => (flip i : ℂ))) (fun _ : Fin 1 => (1 : Matrix (Fin 2) (Fin 2) ℂ))
  obtain rfl := (h3 rfl).1 rfl
  have := h2 fun _ => x
  have hd := ev_diagonal (ev := someEigvalsh) exists_eigvalsh ![-1 + x, 1 + x] (by simp; linarith)
  rw [flip_matrix, hd] at this
  simpa using this

/-- The ground state energy of `diag(-1, 1) + x` is `x - 1`, at `x = 3` it is 2. -/
example : eigenvalueCall someEigvalsh ⟨some 1, "SA".toList⟩ true 0 [Matrix.diagonal fun i => (flip i : ℂ), 1] (.leaf [sample fun _ : Fin 1 => 3])
    = .ok (.leaf [[2]]) := by
  rw [someEigvalsh_flip]
  norm_num

/-- The bounds of the Lipschitz property exist: the identity matrix has the bound 1. -/
example (v : Fin 2 → ℂ) : |energy (herm (1 : Matrix (Fin 2) (Fin 2) ℂ)) v| ≤ 1 * lenSq v := by
  have h1 : herm (1 : Matrix (Fin 2) (Fin 2) ℂ) = 1 := by
    unfold herm
    rw [Matrix.conjTranspose_one, ← two_smul ℂ, smul_smul]
    norm_num
  have h2 : energy (1 : Matrix (Fin 2) (Fin 2) ℂ) v = lenSq v := by
    unfold energy
    rw [Matrix.one_mulVec, ← lenSq_eq, Complex.ofReal_re]
  rw [h1, h2, abs_of_nonneg (lenSq_nonneg v), one_mul]

/-- A rotation that is not the identity. -/
example : (!![0, 1; 1, 0] : Matrix (Fin 2) (Fin 2) ℂ)ᴴ * !![0, 1; 1, 0] = 1 := by
  ext i j
  fin_cases i <;> fin_cases j <;> simp [Matrix.mul_apply]

end Verif.Props
