import Verif.Props.Pmm
import Verif.Props.Observables
import Verif.Lemmas.Eigensystem

/-! # C76: observable matrix models -/

namespace Verif.Props
open Verif.Hermitian Verif.Eigen Verif.Observables Verif.Tree Verif.ForwardSpec Verif.Pmm Verif.PmmSpec
open scoped Matrix

variable {n p q l : Nat}

/-- The outputs of one sample, from its selected vectors. -/
noncomputable def readout (useExp : Bool) (nrm : Matrix (Fin n) (Fin n) ℂ → ℝ) (centered : Bool) (Ds : Fin q → Fin l → Matrix (Fin n) (Fin n) ℂ)
    (b : Option (Fin q → ℝ)) (r : Nat) (V : List (Fin n → ℂ)) : Fin q → ℝ := fun k =>
  (if useExp then expectSingle nrm centered (forceHerm Ds) (columns r V) k else ampSingle nrm centered (forceHerm Ds) (columns r V) k) + b.elim 0 (· k)

theorem readout_exp (nrm : Matrix (Fin n) (Fin n) ℂ → ℝ) (centered : Bool) (Ds : Fin q → Fin l → Matrix (Fin n) (Fin n) ℂ)
    (b : Option (Fin q → ℝ)) (r : Nat) (V : List (Fin n → ℂ)) :
    readout true nrm centered Ds b r V = fun k => expectSingle nrm centered (forceHerm Ds) (columns r V) k + b.elim 0 (· k) := rfl

theorem readout_amp (nrm : Matrix (Fin n) (Fin n) ℂ → ℝ) (centered : Bool) (Ds : Fin q → Fin l → Matrix (Fin n) (Fin n) ℂ)
    (b : Option (Fin q → ℝ)) (r : Nat) (V : List (Fin n → ℂ)) :
    readout false nrm centered Ds b r V = fun k => ampSingle nrm centered (forceHerm Ds) (columns r V) k + b.elim 0 (· k) := rfl

theorem at_addBias (b : Option (Fin q → ℝ)) (t : Tree (List (Fin q → ℝ))) (path : List Step) (ys : List (Fin q → ℝ)) (h : At t path ys) :
    At (addBias b t) path (ys.map fun y k => y k + b.elim 0 (· k)) := by
  cases b with
  | none => simpa [addBias] using h
  | some b => exact map_norm_at.2 ⟨ys, h, rfl⟩

theorem single_obs (eigh : Matrix (Fin n) (Fin n) ℂ → List ℝ × List (Fin n → ℂ)) (nrm : Matrix (Fin n) (Fin n) ℂ → ℝ) (c : Eigen.Cfg) (bias : Bool) (s : ℝ)
    (useExp centered : Bool) (Ms : List (Matrix (Fin n) (Fin n) ℂ)) (Ds : Fin q → Fin l → Matrix (Fin n) (Fin n) ℂ) (b : Option (Fin q → ℝ)) (x : List ℂ)
    {A : Matrix (Fin n) (Fin n) ℂ} (h : affine bias s (Ms.map hermPart) x = .ok A) :
    observableCall eigh nrm c bias s useExp centered Ms Ds b (.leaf [x]) = match pairsOf eigh c A with
      | .ok EV => .ok (.leaf [readout useExp nrm centered Ds b (c.numEig.getD n) EV.2])
      | .error e => .error e := by
  have e1 : [x].mapM (affine bias s (Ms.map hermPart)) = Except.ok [A] := by
    simp only [List.mapM_cons, h, List.mapM_nil]; rfl
  simp only [observableCall, affineCallable, Tree.norm, Tree.mapM, e1, vectorsCallable]
  cases hs : pairsOf eigh c A with
  | error e => simp only [List.mapM_cons, hs]; rfl
  | ok r =>
    simp only [List.mapM_cons, hs, List.mapM_nil]
    cases useExp <;> cases b <;>
      simp [bind, Except.bind, pure, Except.pure, expectCallable, ampCallable, addBias, Tree.map, Tree.norm, readout_exp, readout_amp]

/-- **C76** Every sample of every array of the data is treated by itself: the prediction at a place is the list of the predictions of
the samples there, and the structure is kept. -/
theorem C76_samples (eigh : Matrix (Fin n) (Fin n) ℂ → List ℝ × List (Fin n → ℂ)) (nrm : Matrix (Fin n) (Fin n) ℂ → ℝ) (c : Eigen.Cfg) (bias : Bool)
    (s : ℝ) (useExp centered : Bool) (Ms : List (Matrix (Fin n) (Fin n) ℂ)) (Ds : Fin q → Fin l → Matrix (Fin n) (Fin n) ℂ) (b : Option (Fin q → ℝ))
    (data : Tree (List (List ℂ))) (out : Tree (List (Fin q → ℝ)))
    (h : observableCall eigh nrm c bias s useExp centered Ms Ds b data = .ok out) :
    ∀ path xs, At data path xs → ∃ ys, At out path ys ∧
      List.Forall₂ (fun x y => observableCall eigh nrm c bias s useExp centered Ms Ds b (.leaf [x]) = .ok (.leaf [y])) xs ys := by
  unfold observableCall at h
  cases hA : affineCallable bias s Ms data with
  | error e => rw [hA] at h; cases h
  | ok As =>
    rw [hA] at h
    simp only [] at h
    obtain ⟨-, hat⟩ := C54_data bias s Ms data As hA
    cases hV : vectorsCallable eigh c As with
    | error e => rw [hV] at h; cases h
    | ok Vs =>
      rw [hV] at h
      simp only [Except.ok.injEq] at h
      intro path xs hx
      obtain ⟨As', hAs', hf⟩ := hat path xs hx
      unfold vectorsCallable at hV
      obtain ⟨w, hw, hs⟩ := mapM_at hV (at_norm.2 hAs')
      split at hw
      · rename_i r hr
        cases hw
        have hVs := sub_leaf.1 hs
        have hVs' : At (Tree.map (fun xs => xs.map (columns (c.numEig.getD n))) Vs) path ((r.map Prod.snd).map (columns (c.numEig.getD n))) :=
          at_map.2 ⟨_, hVs, rfl⟩
        refine ⟨r.map fun EV => readout useExp nrm centered Ds b (c.numEig.getD n) EV.2, ?_, ?_⟩
        · rw [← h]
          have hread := (C57_data nrm centered Ds (Tree.map (fun xs => xs.map (columns (c.numEig.getD n))) Vs)).2 path _ hVs'
          cases useExp
          · have := at_addBias b _ path _ hread.2
            simpa [List.map_map, Function.comp_def, readout_exp, readout_amp] using this
          · have := at_addBias b _ path _ hread.1
            simpa [List.map_map, Function.comp_def, readout_exp, readout_amp] using this
        · have hr' := mapM_forall₂ hr
          clear hr hs hAs' hx hVs hVs'
          induction hf generalizing r with
          | nil => cases hr'; exact List.Forall₂.nil
          | cons h1 _ ih =>
            cases hr' with
            | cons h2 h3 =>
              refine List.Forall₂.cons ?_ (ih _ h3)
              rw [single_obs eigh nrm c bias s useExp centered Ms Ds b _ h1.1, h2]
      · cases hw

theorem pairs_idx {E : List ℝ} {V : List (Fin n → ℂ)} (hE : E.length = n) (hV : V.length = n) (c : Eigen.Cfg) {part : Part} {o : Order}
    (hw : parseWhich c.which = .ok (part, o)) (hk : c.numEig.getD n ≤ n) :
    ∃ idx : List Nat, idx = (idxFn part o E (c.numEig.getD n)).take (c.numEig.getD n) ∧ idx.Nodup ∧ idx.length = c.numEig.getD n ∧ (∀ i ∈ idx, i < n) ∧
      selectValues E c.numEig c.which = .ok (idx.map (E.getD · 0)) ∧
      selectPairs E (some V) c.numEig c.which = .ok (idx.map (E.getD · 0), some (idx.map (V.getD · 0))) := by
  obtain ⟨idx, h1, h2, h3, h4, -, -, h7⟩ := idxFn_spec part o E (c.numEig.getD n) (by rw [hE]; exact hk)
  rw [hE] at h4 h7
  have aux : ∀ {β : Type} (L : List β) (d : β), L.length = n →
      ((idxFn part o E (c.numEig.getD n)).filterMap (L[·]?)).take (c.numEig.getD n) = idx.map (L.getD · d) := by
    intro β L d hL
    have inj : Function.Injective (List.map (some : β → Option β)) := List.map_injective_iff.2 (Option.some_injective _)
    apply inj
    rw [List.map_take, filterMap_get L _ (by rw [hL]; exact h7), ← List.map_take, ← h1, List.map_map]
    exact List.map_congr_left fun i hi => getD_of_lt (by rw [hL]; exact h4 i hi) d
  have e1 := aux E 0 hE
  have e2 := aux V 0 hV
  refine ⟨idx, h1, h2, h3, h4, ?_, ?_⟩
  · simp only [selectValues, selectPairs, hw, selectByFn, Option.map_none, Option.getD_some, hE, e1]
  · simp only [selectPairs, hw, selectByFn, Option.map_some, Option.getD_some, hE, e1, e2]

theorem obs_uniform (eigh : Matrix (Fin n) (Fin n) ℂ → List ℝ × List (Fin n → ℂ)) (heigh : IsEigh eigh) (nrm : Matrix (Fin n) (Fin n) ℂ → ℝ)
    (c : Eigen.Cfg) {part : Part} {o : Order} (hw : parseWhich c.which = .ok (part, o)) (hk : c.numEig.getD n ≤ n) (s : ℝ)
    (M0 : Option (Matrix (Fin n) (Fin n) ℂ)) (M : Fin p → Matrix (Fin n) (Fin n) ℂ) (x : Fin p → ℝ) :
    ∃ (e : List ℝ) (v : Fin (c.numEig.getD n) → Fin n → ℂ),
      Selected (eigh (modelMatrix s M0 M x)).1 (eigh (modelMatrix s M0 M x)).1 c.numEig part o e e ∧
      selectValues (eigh (modelMatrix s M0 M x)).1 c.numEig c.which = .ok e ∧
      (∀ i j, star (v i) ⬝ᵥ v j = if i = j then 1 else 0) ∧
      (∀ i : Fin (c.numEig.getD n), modelMatrix s M0 M x *ᵥ v i = ((e.getD i 0 : ℝ) : ℂ) • v i) ∧
      ∀ (q l : Nat) (useExp centered : Bool) (Ds : Fin q → Fin l → Matrix (Fin n) (Fin n) ℂ) (b : Option (Fin q → ℝ)), ∃ y : Fin q → ℝ,
        observableCall eigh nrm c M0.isSome s useExp centered (M0.toList ++ List.ofFn M) Ds b (.leaf [sample x]) = .ok (.leaf [y]) ∧
        ∀ k, y k = (if useExp then ∑ m, ∑ i, energy (herm (Ds k m)) (v i)
            else ∑ m, ∑ i, ∑ j, Complex.normSq (star (v i) ⬝ᵥ herm (Ds k m) *ᵥ v j))
          - (if centered then (∑ m, nrm (herm (Ds k m)) ^ 2) / 2 else 0) + b.elim 0 (· k) := by
  have hA := modelMatrix_isHermitian s M0 M x
  have hsys := heigh _ hA
  obtain ⟨idx, -, h2, h3, h4, h5, h6⟩ := pairs_idx hsys.sizeE hsys.sizeV c hw hk
  obtain ⟨E', V', e1, e2, hS⟩ := C58_select (eigh (modelMatrix s M0 M x)).1 (eigh (modelMatrix s M0 M x)).1 rfl c.numEig
    (by rw [hsys.sizeE]; exact hk) c.which part o hw
  have hEV : E' = V' := by
    obtain ⟨idx, -, -, -, h1, h2, -⟩ := hS
    have inj : Function.Injective (List.map (some : ℝ → Option ℝ)) := List.map_injective_iff.2 (Option.some_injective _)
    exact inj (h1.trans h2.symm)
  subst hEV
  rw [h5] at e2
  cases e2
  set E := (eigh (modelMatrix s M0 M x)).1 with hE
  set V := (eigh (modelMatrix s M0 M x)).2 with hV
  have hget : ∀ i : Fin (c.numEig.getD n), ((idx.map (V.getD · 0)).getD i 0) = V.getD (idx.getD i 0) 0 ∧ idx.getD i 0 ∈ idx ∧
      (idx.map (E.getD · 0)).getD i 0 = E.getD (idx.getD i 0) 0 := by
    intro i
    have hi : (i : Nat) < idx.length := by rw [h3]; exact i.2
    refine ⟨?_, ?_, ?_⟩ <;> simp [List.getD_eq_getElem?_getD, List.getElem?_eq_getElem hi]
  have hpair : pairsOf eigh c (modelMatrix s M0 M x) = .ok (idx.map (E.getD · 0), idx.map (V.getD · 0)) := by
    rw [pairsOf, ← hE, ← hV, h6]
  refine ⟨idx.map (E.getD · 0), fun i => V.getD (idx.getD i 0) 0, hS, h5, ?_, ?_, fun q l useExp centered Ds b => ⟨readout useExp nrm centered Ds b (c.numEig.getD n) (idx.map (V.getD · 0)), ?_, ?_⟩⟩
  · intro i j
    have hi := h4 _ (hget i).2.1
    have hj := h4 _ (hget j).2.1
    rw [hsys.ortho _ _ _ _ (getD_of_lt (by rw [hsys.sizeV]; exact hi) 0) (getD_of_lt (by rw [hsys.sizeV]; exact hj) 0)]
    have hi' : (i : Nat) < idx.length := by rw [h3]; exact i.2
    have hj' : (j : Nat) < idx.length := by rw [h3]; exact j.2
    congr 1
    simp only [List.getD_eq_getElem?_getD, List.getElem?_eq_getElem hi', List.getElem?_eq_getElem hj', Option.getD_some, h2.getElem_inj_iff, Fin.val_inj]
  · intro i
    have hi := h4 _ (hget i).2.1
    rw [(hget i).2.2]
    exact hsys.vec _ _ _ (getD_of_lt (by rw [hsys.sizeE]; exact hi) 0) (getD_of_lt (by rw [hsys.sizeV]; exact hi) 0)
  · rw [single_obs eigh nrm c _ s useExp centered _ Ds b _ (affine_model s M0 M x), hpair]
  · intro k
    have hcol : ∀ (a : Fin n) (i : Fin (c.numEig.getD n)), columns (c.numEig.getD n) (idx.map (V.getD · 0)) a i = V.getD (idx.getD i 0) 0 a := by
      intro a i
      exact congrFun (hget i).1 a
    have hamp : ∀ (H : Matrix (Fin n) (Fin n) ℂ) (i j : Fin (c.numEig.getD n)),
        ((columns (c.numEig.getD n) (idx.map (V.getD · 0)))ᴴ * H * columns (c.numEig.getD n) (idx.map (V.getD · 0))) i j
          = star (V.getD (idx.getD i 0) 0) ⬝ᵥ H *ᵥ V.getD (idx.getD j 0) 0 := by
      intro H i j
      rw [Matrix.mul_assoc, Matrix.mul_apply]
      refine Finset.sum_congr rfl fun a _ => ?_
      rw [Matrix.conjTranspose_apply, hcol, Pi.star_apply, Matrix.mul_apply]
      congr 1
      exact Finset.sum_congr rfl fun b _ => by rw [hcol]
    have hplain : readout useExp nrm centered Ds b (c.numEig.getD n) (idx.map (V.getD · 0)) k =
        (if useExp then expectSingle nrm false (forceHerm Ds) (columns (c.numEig.getD n) (idx.map (V.getD · 0))) k
          else ampSingle nrm false (forceHerm Ds) (columns (c.numEig.getD n) (idx.map (V.getD · 0))) k)
        - (if centered then (∑ m, nrm (herm (Ds k m)) ^ 2) / 2 else 0) + b.elim 0 (· k) := by
      have hc := C57_centered nrm Ds (columns (c.numEig.getD n) (idx.map (V.getD · 0))) k
      unfold readout
      cases centered
      · simp
      · cases useExp
        · simp only [Bool.false_eq_true, if_false, if_true, hc.2.1]
        · simp only [if_true, hc.1]
    rw [hplain]
    congr 2
    cases useExp
    · simp only [Bool.false_eq_true, if_false]
      rw [C57_amplitude_value]
      simp only [hamp]
    · simp only [if_true]
      have hr := congrArg Complex.re (C57_expectation_real nrm Ds (columns (c.numEig.getD n) (idx.map (V.getD · 0))) k)
      rw [Complex.ofReal_re] at hr
      rw [hr, Complex.re_sum]
      refine Finset.sum_congr rfl fun m _ => ?_
      rw [Matrix.trace, Complex.re_sum]
      refine Finset.sum_congr rfl fun i _ => ?_
      rw [Matrix.diag_apply, hamp]
      rfl

theorem obs_prediction (eigh : Matrix (Fin n) (Fin n) ℂ → List ℝ × List (Fin n → ℂ)) (heigh : IsEigh eigh) (nrm : Matrix (Fin n) (Fin n) ℂ → ℝ)
    (c : Eigen.Cfg) {part : Part} {o : Order} (hw : parseWhich c.which = .ok (part, o)) (hk : c.numEig.getD n ≤ n) (s : ℝ) (useExp centered : Bool)
    (M0 : Option (Matrix (Fin n) (Fin n) ℂ)) (M : Fin p → Matrix (Fin n) (Fin n) ℂ) (Ds : Fin q → Fin l → Matrix (Fin n) (Fin n) ℂ)
    (b : Option (Fin q → ℝ)) (x : Fin p → ℝ) :
    ∃ (y : Fin q → ℝ) (e : List ℝ) (v : Fin (c.numEig.getD n) → Fin n → ℂ),
      observableCall eigh nrm c M0.isSome s useExp centered (M0.toList ++ List.ofFn M) Ds b (.leaf [sample x]) = .ok (.leaf [y]) ∧
      Selected (eigh (modelMatrix s M0 M x)).1 (eigh (modelMatrix s M0 M x)).1 c.numEig part o e e ∧
      selectValues (eigh (modelMatrix s M0 M x)).1 c.numEig c.which = .ok e ∧
      (∀ i j, star (v i) ⬝ᵥ v j = if i = j then 1 else 0) ∧
      (∀ i : Fin (c.numEig.getD n), modelMatrix s M0 M x *ᵥ v i = ((e.getD i 0 : ℝ) : ℂ) • v i) ∧
      ∀ k, y k = (if useExp then ∑ m, ∑ i, energy (herm (Ds k m)) (v i)
          else ∑ m, ∑ i, ∑ j, Complex.normSq (star (v i) ⬝ᵥ herm (Ds k m) *ᵥ v j))
        - (if centered then (∑ m, nrm (herm (Ds k m)) ^ 2) / 2 else 0) + b.elim 0 (· k) := by
  obtain ⟨e, v, h1, h2, h3, h4, h5⟩ := obs_uniform eigh heigh nrm c hw hk s M0 M x
  obtain ⟨y, h6, h7⟩ := h5 q l useExp centered Ds b
  exact ⟨y, e, v, h6, h1, h2, h3, h4, h7⟩

/-- **C76** The prediction for one sample: for the selected orthonormal eigenvectors `v` of the model's matrix, the sums of the
expectation values of the Hermitian parts of the observables, or of the squared absolute values of all transition amplitudes, minus
half the squared norms if centered, plus the bias. -/
theorem C76_prediction (eigh : Matrix (Fin n) (Fin n) ℂ → List ℝ × List (Fin n → ℂ)) (heigh : IsEigh eigh) (nrm : Matrix (Fin n) (Fin n) ℂ → ℝ)
    (c : Eigen.Cfg) {part : Part} {o : Order} (hw : parseWhich c.which = .ok (part, o)) (hk : c.numEig.getD n ≤ n) (s : ℝ) (useExp centered : Bool)
    (M0 : Option (Matrix (Fin n) (Fin n) ℂ)) (M : Fin p → Matrix (Fin n) (Fin n) ℂ) (Ds : Fin q → Fin l → Matrix (Fin n) (Fin n) ℂ)
    (b : Option (Fin q → ℝ)) (x : Fin p → ℝ) :
    ∃ (y : Fin q → ℝ) (e : List ℝ) (v : Fin (c.numEig.getD n) → Fin n → ℂ),
      observableCall eigh nrm c M0.isSome s useExp centered (M0.toList ++ List.ofFn M) Ds b (.leaf [sample x]) = .ok (.leaf [y]) ∧
      Selected (eigh (modelMatrix s M0 M x)).1 (eigh (modelMatrix s M0 M x)).1 c.numEig part o e e ∧
      (∀ i j, star (v i) ⬝ᵥ v j = if i = j then 1 else 0) ∧
      (∀ i : Fin (c.numEig.getD n), modelMatrix s M0 M x *ᵥ v i = ((e.getD i 0 : ℝ) : ℂ) • v i) ∧
      ∀ k, y k = (if useExp then ∑ m, ∑ i, energy (herm (Ds k m)) (v i)
          else ∑ m, ∑ i, ∑ j, Complex.normSq (star (v i) ⬝ᵥ herm (Ds k m) *ᵥ v j))
        - (if centered then (∑ m, nrm (herm (Ds k m)) ^ 2) / 2 else 0) + b.elim 0 (· k) := by
  obtain ⟨y, e, v, h1, h2, -, h3⟩ := obs_prediction eigh heigh nrm c hw hk s useExp centered M0 M Ds b x
  exact ⟨y, e, v, h1, h2, h3⟩

/-- Every selected eigenvalue is selected with all its copies: no eigenvalue outside the selection equals one inside. -/
def Separated (E r : List ℝ) : Prop := ∀ e ∈ r, r.count e = E.count e

theorem separated_gap {E : List ℝ} (hE : E.length = n) {idx : List Nat} (hn : idx.Nodup) (hb : ∀ i ∈ idx, i < n)
    (h : Separated E (idx.map (E.getD · 0))) : ∀ i ∈ idx, ∀ j < n, E.getD j 0 = E.getD i 0 → j ∈ idx := by
  intro i hi j hj hij
  have hc := h (E.getD i 0) (List.mem_map.2 ⟨i, hi, rfl⟩)
  have hE' : E = (List.range n).map (E.getD · 0) := by
    refine List.ext_getElem (by simp [hE]) fun k h1 h2 => ?_
    simp [List.getD_eq_getElem?_getD, List.getElem?_eq_getElem h1]
  have e2 : E.count (E.getD i 0) = ((List.range n).filter fun k => E.getD k 0 == E.getD i 0).length := by
    conv_lhs => rw [hE']
    rw [List.count, List.countP_map, List.countP_eq_length_filter]
    have : (E.getD i 0) = ((List.range n).map (E.getD · 0)).getD i 0 := by rw [← hE']
    rw [← hE']
    rfl
  rw [e2, List.count, List.countP_map, List.countP_eq_length_filter] at hc
  have hsub : List.Subperm (idx.filter fun k => E.getD k 0 == E.getD i 0) ((List.range n).filter fun k => E.getD k 0 == E.getD i 0) := by
    refine List.Nodup.subperm (hn.filter _) fun k hk => ?_
    rw [List.mem_filter] at hk ⊢
    exact ⟨List.mem_range.2 (hb k hk.1), hk.2⟩
  have hp := hsub.perm_of_length_le (by simp only [Function.comp_def] at hc; omega)
  have : j ∈ (List.range n).filter fun k => E.getD k 0 == E.getD i 0 := List.mem_filter.2 ⟨List.mem_range.2 hj, by simpa using hij⟩
  exact (List.mem_filter.1 (hp.mem_iff.2 this)).1

theorem columns_rotate (G : Matrix (Fin n) (Fin n) ℂ) (r : Nat) (V : List (Fin n → ℂ)) : columns r (V.map (Gᴴ *ᵥ ·)) = Gᴴ * columns r V := by
  ext a i
  rw [Matrix.mul_apply]
  simp only [columns, Matrix.of_apply, List.getD_eq_getElem?_getD, List.getElem?_map]
  cases V[(i : Nat)]? with
  | none => simp
  | some v => rfl

theorem readout_rotate (useExp : Bool) (nrm : Matrix (Fin n) (Fin n) ℂ → ℝ) (centered : Bool) (Ds : Fin q → Fin l → Matrix (Fin n) (Fin n) ℂ)
    (b : Option (Fin q → ℝ)) (r : Nat) (V : List (Fin n → ℂ)) (G : Matrix (Fin n) (Fin n) ℂ) (hnrm : ∀ H, nrm (G * H * Gᴴ) = nrm H) :
    readout useExp nrm centered (fun k m => G * Ds k m * Gᴴ) b r V = readout useExp nrm centered Ds b r (V.map (Gᴴ *ᵥ ·)) := by
  have hh : ∀ (k : Fin q) (m : Fin l), forceHerm (fun k m => G * Ds k m * Gᴴ) k m = G * forceHerm Ds k m * Gᴴ := by
    intro k m
    rw [forceHerm_eq, forceHerm_eq, herm_gauge]
  have hn : ∀ k, normTerm nrm (forceHerm fun k m => G * Ds k m * Gᴴ) k = normTerm nrm (forceHerm Ds) k := by
    intro k
    simp only [normTerm, hh, hnrm]
  have hconj : ∀ H : Matrix (Fin n) (Fin n) ℂ, (columns r V)ᴴ * (G * H * Gᴴ) * columns r V = (Gᴴ * columns r V)ᴴ * H * (Gᴴ * columns r V) := by
    intro H
    simp only [Matrix.conjTranspose_mul, Matrix.conjTranspose_conjTranspose, Matrix.mul_assoc]
  funext k
  have h1 : expectSum (forceHerm fun k m => G * Ds k m * Gᴴ) (columns r V) k = expectSum (forceHerm Ds) (columns r (V.map (Gᴴ *ᵥ ·))) k := by
    rw [columns_rotate, expectSum_eq, expectSum_eq]
    simp only [hh, hconj]
  have h2 : ∀ m i j, amplitude (forceHerm fun k m => G * Ds k m * Gᴴ) (columns r V) k m i j = amplitude (forceHerm Ds) (columns r (V.map (Gᴴ *ᵥ ·))) k m i j := by
    intro m i j
    rw [columns_rotate, amplitude_eq, amplitude_eq, hh, hconj]
  cases useExp
  · simp only [readout_amp, ampSingle, h2, hn]
  · simp only [readout_exp, expectSingle, h1, hn]

/-- **C76** Predictions do not depend on the choices of the eigensolver (signs, phases, bases of degenerate eigenspaces) nor on the
basis of the parameters: if no eigenvalue outside the selection equals one inside, any two eigensolvers give the same prediction,
also after all matrices are rotated by a unitary matrix. -/
theorem C76_gauge (eigh₁ eigh₂ : Matrix (Fin n) (Fin n) ℂ → List ℝ × List (Fin n → ℂ)) (h₁ : IsEigh eigh₁) (h₂ : IsEigh eigh₂)
    (nrm : Matrix (Fin n) (Fin n) ℂ → ℝ) (c : Eigen.Cfg) {part : Part} {o : Order} (hw : parseWhich c.which = .ok (part, o)) (hk : c.numEig.getD n ≤ n)
    (s : ℝ) (useExp centered : Bool) (M0 : Option (Matrix (Fin n) (Fin n) ℂ)) (M : Fin p → Matrix (Fin n) (Fin n) ℂ)
    (Ds : Fin q → Fin l → Matrix (Fin n) (Fin n) ℂ) (b : Option (Fin q → ℝ)) (x : Fin p → ℝ)
    (G : Matrix (Fin n) (Fin n) ℂ) (hG : Gᴴ * G = 1) (hnrm : ∀ H, nrm (G * H * Gᴴ) = nrm H) (r : List ℝ)
    (hr : selectValues (eigh₁ (modelMatrix s M0 M x)).1 c.numEig c.which = .ok r) (hsep : Separated (eigh₁ (modelMatrix s M0 M x)).1 r) :
    observableCall eigh₂ nrm c M0.isSome s useExp centered ((M0.toList ++ List.ofFn M).map fun A => G * A * Gᴴ) (fun k m => G * Ds k m * Gᴴ) b
      (.leaf [sample x]) = observableCall eigh₁ nrm c M0.isSome s useExp centered (M0.toList ++ List.ofFn M) Ds b (.leaf [sample x]) := by
  have hL : (M0.map (rotate G)).toList ++ List.ofFn (fun i => rotate G (M i)) = (M0.toList ++ List.ofFn M).map fun A => G * A * Gᴴ := by
    rw [List.map_append, List.map_ofFn]
    cases M0 <;> rfl
  have hA2 := affine_model s (M0.map (rotate G)) (fun i => rotate G (M i)) x
  have s2 := h₂ _ (modelMatrix_isHermitian s (M0.map (rotate G)) (fun i => rotate G (M i)) x)
  rw [hL, Option.isSome_map, model_gauge hG] at hA2
  rw [model_gauge hG] at s2
  have s1 := h₁ _ (modelMatrix_isHermitian s M0 M x)
  have s2' := eigen_rotate hG s2
  have hE := eigen_unique s1 s2'
  obtain ⟨idx, e1, n1, l1, b1, v1, p1⟩ := pairs_idx s1.sizeE s1.sizeV c hw hk
  obtain ⟨idx', e2, -, -, -, -, p2⟩ := pairs_idx s2.sizeE s2.sizeV c hw hk
  rw [← hE, ← e1] at e2
  subst e2
  rw [v1] at hr
  cases hr
  rw [← hE] at s2'
  obtain ⟨W, hWeq⟩ := eigen_span s1 s2' l1 n1 b1 (separated_gap s1.sizeE n1 b1 hsep)
  rw [single_obs eigh₂ nrm c _ s useExp centered _ _ b _ hA2, single_obs eigh₁ nrm c _ s useExp centered _ Ds b _ (affine_model s M0 M x)]
  simp only [pairsOf, p1, p2]
  congr 3
  rw [readout_rotate useExp nrm centered Ds b _ _ G hnrm]
  have hmap : (idx'.map ((eigh₂ (rotate G (modelMatrix s M0 M x))).2.getD · 0)).map (Gᴴ *ᵥ ·)
      = idx'.map (((eigh₂ (rotate G (modelMatrix s M0 M x))).2.map (Gᴴ *ᵥ ·)).getD · 0) := by
    rw [List.map_map]
    refine List.map_congr_left fun i _ => ?_
    simp only [Function.comp_apply, List.getD_eq_getElem?_getD, List.getElem?_map]
    cases (eigh₂ (rotate G (modelMatrix s M0 M x))).2[i]? with
    | none => simp
    | some v => rfl
  have hcol : ∀ V : List (Fin n → ℂ), columns (c.numEig.getD n) V = colMatrix (c.numEig.getD n) V := fun _ => rfl
  have hU := C57_unitary nrm centered Ds (columns (c.numEig.getD n) (idx'.map ((eigh₁ (modelMatrix s M0 M x)).2.getD · 0))) W
  rw [hmap]
  cases useExp
  · rw [readout_amp, readout_amp, hcol, hWeq]
    funext k
    exact congrArg (· + _) (congrFun hU.2 k)
  · rw [readout_exp, readout_exp, hcol, hWeq]
    funext k
    exact congrArg (· + _) (congrFun hU.1 k)

/-- **C76** In particular two eigensolvers agree. -/
theorem C76_solver (eigh₁ eigh₂ : Matrix (Fin n) (Fin n) ℂ → List ℝ × List (Fin n → ℂ)) (h₁ : IsEigh eigh₁) (h₂ : IsEigh eigh₂)
    (nrm : Matrix (Fin n) (Fin n) ℂ → ℝ) (c : Eigen.Cfg) {part : Part} {o : Order} (hw : parseWhich c.which = .ok (part, o)) (hk : c.numEig.getD n ≤ n)
    (s : ℝ) (useExp centered : Bool) (M0 : Option (Matrix (Fin n) (Fin n) ℂ)) (M : Fin p → Matrix (Fin n) (Fin n) ℂ)
    (Ds : Fin q → Fin l → Matrix (Fin n) (Fin n) ℂ) (b : Option (Fin q → ℝ)) (x : Fin p → ℝ) (r : List ℝ)
    (hr : selectValues (eigh₁ (modelMatrix s M0 M x)).1 c.numEig c.which = .ok r) (hsep : Separated (eigh₁ (modelMatrix s M0 M x)).1 r) :
    observableCall eigh₂ nrm c M0.isSome s useExp centered (M0.toList ++ List.ofFn M) Ds b (.leaf [sample x])
      = observableCall eigh₁ nrm c M0.isSome s useExp centered (M0.toList ++ List.ofFn M) Ds b (.leaf [sample x]) := by
  have := C76_gauge eigh₁ eigh₂ h₁ h₂ nrm c hw hk s useExp centered M0 M Ds b x 1 (by simp) (by simp) r hr hsep
  have e : ((M0.toList ++ List.ofFn M).map fun A => 1 * A * (1 : Matrix (Fin n) (Fin n) ℂ)ᴴ) = M0.toList ++ List.ofFn M := by
    conv_rhs => rw [← List.map_id (M0.toList ++ List.ofFn M)]
    exact List.map_congr_left fun A _ => by simp
  have e' : (fun k m => 1 * Ds k m * (1 : Matrix (Fin n) (Fin n) ℂ)ᴴ) = Ds := by
    funext k m
    simp
  rwa [e, e'] at this

/-- The condition is met: the ground state of `diag(-1, 1) + x`, with any correct eigensolver. -/
example (eigh : Matrix (Fin 2) (Fin 2) ℂ → List ℝ × List (Fin 2 → ℂ)) (h : IsEigh eigh) (x : ℝ) :
    selectValues (eigh (modelMatrix 0 (some (Matrix.diagonal fun i => (flip i : ℂ))) (fun _ : Fin 1 => (1 : Matrix (Fin 2) (Fin 2) ℂ)) fun _ => x)).1
      (some 1) "SA".toList = .ok [-1 + x] ∧
    Separated (eigh (modelMatrix 0 (some (Matrix.diagonal fun i => (flip i : ℂ))) (fun _ : Fin 1 => (1 : Matrix (Fin 2) (Fin 2) ℂ)) fun _ => x)).1 [-1 + x] := by
  have hE := ev_diagonal (eigh_eigvalsh h) ![-1 + x, 1 + x] (by simp; linarith)
  rw [flip_matrix, hE]
  obtain ⟨idx, -, h2, h3⟩ := select_sorted 2 (k := some 1) (by decide) (w := "SA".toList) (part := .smallest) (by rfl)
  obtain rfl := (h3 rfl).1 rfl
  refine ⟨?_, ?_⟩
  · rw [h2 _ (by simp; linarith) (by simp)]
    simp
  · intro e he
    rw [List.mem_singleton] at he
    subst he
    have : (1 : ℝ) + x ≠ -1 + x := by intro h; linarith
    simp [List.count_cons, this]

/-- There is a correct eigensolver. -/
example : IsEigh (someEigh (n := 5)) := someEigh_ok

/-- The two eigensystems of the counterexample: the unit vectors in either order. -/
noncomputable def unitVectors (swap : Bool) : List (Fin 2 → ℂ) := if swap then [![0, 1], ![1, 0]] else [![1, 0], ![0, 1]]

open Classical in
/-- An eigensolver that picks the unit vectors for the zero matrix. -/
noncomputable def pickEigh (swap : Bool) (A : Matrix (Fin 2) (Fin 2) ℂ) : List ℝ × List (Fin 2 → ℂ) :=
  if A = 0 then ([0, 0], unitVectors swap) else someEigh A

theorem pickEigh_ok (swap : Bool) : IsEigh (pickEigh swap) := by
  intro A hA
  unfold pickEigh
  split
  · rename_i h
    subst h
    refine ⟨rfl, by cases swap <;> rfl, by simp, fun i e v he hv => ?_, fun i j v w hv hw => ?_⟩
    · have : e = 0 := by
        have := List.mem_of_getElem? he
        simpa using this
      subst this
      simp
    · have hlen : (unitVectors swap).length = 2 := by cases swap <;> rfl
      have hi : i < 2 := by have := (List.getElem?_eq_some_iff.1 hv).1; simpa [hlen] using this
      have hj : j < 2 := by have := (List.getElem?_eq_some_iff.1 hw).1; simpa [hlen] using this
      have hi' : i = 0 ∨ i = 1 := by omega
      have hj' : j = 0 ∨ j = 1 := by omega
      rcases hi' with rfl | rfl <;> rcases hj' with rfl | rfl <;> cases swap <;> simp [unitVectors] at hv hw <;> subst hv hw <;>
        simp [dotProduct, Fin.sum_univ_two]
  · exact someEigh_ok A hA

/-- **C76** With a degenerate eigenvalue only partly selected, the prediction depends on the eigensolver: two correct eigensolvers give
different predictions for the same model and sample. -/
theorem C76_degenerate_refuted (nrm : Matrix (Fin 2) (Fin 2) ℂ → ℝ) :
    ∃ eigh₁ eigh₂ : Matrix (Fin 2) (Fin 2) ℂ → List ℝ × List (Fin 2 → ℂ), IsEigh eigh₁ ∧ IsEigh eigh₂ ∧
      observableCall eigh₁ nrm ⟨some 1, "SA".toList⟩ true 0 true false [0] (fun _ : Fin 1 => fun _ : Fin 1 => Matrix.diagonal ![1, 0]) Option.none
        (.leaf [sample (p := 0) Fin.elim0]) ≠
      observableCall eigh₂ nrm ⟨some 1, "SA".toList⟩ true 0 true false [0] (fun _ : Fin 1 => fun _ : Fin 1 => Matrix.diagonal ![1, 0]) Option.none
        (.leaf [sample (p := 0) Fin.elim0]) := by
  refine ⟨pickEigh false, pickEigh true, pickEigh_ok _, pickEigh_ok _, ?_⟩
  have hz : modelMatrix 0 (some (0 : Matrix (Fin 2) (Fin 2) ℂ)) (fun _ : Fin 0 => (0 : Matrix (Fin 2) (Fin 2) ℂ)) Fin.elim0 = 0 := by
    simp [modelMatrix, herm]
  have hA := affine_model 0 (some (0 : Matrix (Fin 2) (Fin 2) ℂ)) (fun _ : Fin 0 => (0 : Matrix (Fin 2) (Fin 2) ℂ)) Fin.elim0
  rw [hz] at hA
  have hA' : affine true 0 (([0] : List (Matrix (Fin 2) (Fin 2) ℂ)).map hermPart) (sample (p := 0) Fin.elim0) = .ok 0 := hA
  rw [single_obs _ nrm _ _ _ _ _ _ _ _ _ hA', single_obs _ nrm _ _ _ _ _ _ _ _ _ hA']
  have hp : ∀ sw, pairsOf (pickEigh sw) ⟨some 1, "SA".toList⟩ 0 = .ok ([0], [if sw then ![0, 1] else ![1, 0]]) := by
    intro sw
    have hpick : pickEigh sw 0 = ([0, 0], unitVectors sw) := if_pos rfl
    have hidx : idxFn .smallest .algebraic [(0 : ℝ), 0] 1 = [0] := by
      simp only [idxFn]
      rw [argsort_of_sorted (by simp)]
      rfl
    have hw : parseWhich "SA".toList = .ok (.smallest, .algebraic) := by rfl
    simp only [pairsOf, selectPairs, hw, hpick, selectByFn, Option.getD_some, hidx, Option.map_some]
    cases sw <;> rfl
  rw [hp, hp]
  intro h
  injection h with h
  injection h with h
  injection h with h
  have := congrFun h 0
  simp [readout_exp, expectSingle, expectSum, columns, forceHerm_eq, herm, Fin.sum_univ_two] at this

/-- **C76** A bias given to the constructor is not used: whatever is given, the prediction of a freshly compiled model is the one of the
random draw. -/
theorem C76_bias_ignored_refuted (eigh : Matrix (Fin n) (Fin n) ℂ → List ℝ × List (Fin n → ℂ)) (heigh : IsEigh eigh) (nrm : Matrix (Fin n) (Fin n) ℂ → ℝ)
    (c : Eigen.Cfg) {part : Part} {o : Order} (hw : parseWhich c.which = .ok (part, o)) (hk : c.numEig.getD n ≤ n) (s : ℝ) (useExp centered : Bool)
    (M0 : Option (Matrix (Fin n) (Fin n) ℂ)) (M : Fin p → Matrix (Fin n) (Fin n) ℂ) (Ds : Fin q → Fin l → Matrix (Fin n) (Fin n) ℂ)
    (b : Fin q → ℝ) (draw : Fin q → ℝ) (hd : draw ≠ b) (x : Fin p → ℝ) :
    observableCall eigh nrm c M0.isSome s useExp centered (M0.toList ++ List.ofFn M) Ds (compiledBias true (some b) draw) (.leaf [sample x])
      ≠ observableCall eigh nrm c M0.isSome s useExp centered (M0.toList ++ List.ofFn M) Ds (some b) (.leaf [sample x]) := by
  have s1 := heigh _ (modelMatrix_isHermitian s M0 M x)
  obtain ⟨idx, -, -, -, -, -, p1⟩ := pairs_idx s1.sizeE s1.sizeV c hw hk
  rw [single_obs eigh nrm c _ s useExp centered _ Ds _ _ (affine_model s M0 M x), single_obs eigh nrm c _ s useExp centered _ Ds _ _ (affine_model s M0 M x)]
  simp only [pairsOf, p1, compiledBias, if_true]
  intro h
  injection h with h
  injection h with h
  injection h with h
  apply hd
  funext k
  have := congrFun h k
  cases useExp
  · simpa [readout_amp] using this
  · simpa [readout_exp] using this

/-- **C76** An `AffineObservablePMM` takes the eigenvectors the user asks for; without a request, those of the eigenvalues of largest magnitude if there is no smoothing, and those of the
smallest eigenvalues if there is. -/
theorem C76_default (w : Str) (s : ℝ) (hs : s ≠ 0) :
    (∀ sm, defaultWhich (some w) sm = w) ∧ parseWhich (defaultWhich Option.none Option.none) = .ok (.largest, .magnitude) ∧
    parseWhich (defaultWhich Option.none (some 0)) = .ok (.largest, .magnitude) ∧ parseWhich (defaultWhich Option.none (some s)) = .ok (.smallest, .algebraic) := by
  refine ⟨fun _ => rfl, rfl, ?_, ?_⟩
  · rw [show defaultWhich Option.none (some 0) = "LM".toList from if_pos rfl]; rfl
  · rw [show defaultWhich Option.none (some s) = "SA".toList from if_neg hs]; rfl

example : (1 : ℝ) ≠ 0 := one_ne_zero

end Verif.Props
