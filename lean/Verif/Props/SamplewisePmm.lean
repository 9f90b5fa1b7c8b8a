import Verif.Lemmas.SamplewiseList
import Verif.Props.Pmm

/-!
# C93: the parametric matrix models compute sample by sample
-/

namespace Verif.Props
open Tree Samplewise Hermitian Eigen Observables Pmm

variable {n : Nat}

/-- With the same number of features the affine matrix exists for all samples or for none. -/
theorem affine_uniform (bias : Bool) (s : ℝ) (Ms : List (Mat n n)) (p : Nat) : Uniform (fun x => x.length = p) (affine bias s Ms) := by
  intro a b ha hb e h
  change a.length = p at ha
  change b.length = p at hb
  unfold affine at h ⊢
  rw [ha] at h
  rw [hb]
  cases bias
  · simp only [Bool.false_eq_true, if_false] at h ⊢
    split at h
    · split at h <;> cases h
    · rw [if_neg ‹_›]; exact h
  · simp only [if_true] at h ⊢
    cases Ms with
    | nil => exact h
    | cons M0 Ms' =>
      simp only at h ⊢
      split at h
      · split at h <;> cases h
      · rw [if_neg ‹_›]; exact h

/-- **C93**, `AffineHermitianMatrix`. -/
theorem C93_hermitian (bias : Bool) (s : ℝ) (Ms : List (Mat n n)) (p : Nat) : SamplewiseLists (fun x => x.length = p) (affineCallable bias s Ms) :=
  samples_agree (affine_uniform bias s (Ms.map hermPart) p) (H := id) (fun _ _ _ _ _ h => h) (fun xs r h => by simp only [h, id]) (fun xs e h => by simp only [h])

/-- **C93**, `LowRankAffineHermitianMatrix`. -/
theorem C93_low_rank {r : Nat} (bias : Bool) (s : ℝ) (ls : List (Fin r → ℂ)) (us : List (Mat n r)) (p : Nat) :
    SamplewiseLists (fun x => x.length = p) fun d : Tree (List (List ℂ)) => Tree.mapM (fun xs => (xs.mapM (lowRankAffine bias s ls us)).map .leaf) d.norm :=
  samples_agree (affine_uniform bias s ((List.zipWith lowRank ls us).map hermPart) p) (H := id) (fun _ _ _ _ _ h => h) (fun xs r h => by
      show (xs.mapM (affine bias s _)).map _ = _
      rw [h]; rfl) (fun xs e h => by
      show (xs.mapM (affine bias s _)).map _ = _
      rw [h]; rfl)

/-- **C93**, `Eigenvalues`. -/
theorem C93_eigenvalues {α μ : Type} [AddCommGroup α] [LinearOrder α] (eigvalsh : μ → List α) (c : Eigen.Cfg) : SamplewiseLists (fun _ => True) (valuesCallable eigvalsh c) :=
  samples_agree (F := fun A => selectValues (eigvalsh A) c.numEig c.which) (fun a b _ _ e h => by
      simp only [selectValues, selectPairs] at h ⊢
      cases hw : parseWhich c.which <;> rw [hw] at h <;> [exact h; cases h]) (H := id) (fun _ _ _ _ _ h => h) (fun xs r h => by simp only [h, id]) (fun xs e h => by simp only [h])

/-- **C93**, `Eigenvectors`. -/
theorem C93_eigenvectors {α γ μ : Type} [AddCommGroup α] [LinearOrder α] (eigh : μ → List α × List γ) (c : Eigen.Cfg) : SamplewiseLists (fun _ => True) (vectorsCallable eigh c) :=
  samples_agree (F := pairsOf eigh c) (fun a b _ _ e h => by
      simp only [pairsOf, selectPairs] at h ⊢
      cases hw : parseWhich c.which with
      | error e' => rw [hw] at h; exact h
      | ok w => rw [hw] at h; simp only [selectByFn] at h; cases h) (H := fun r => r.map Prod.snd) (fun _ _ _ _ _ h => map_chosen h) (fun xs r h => by simp only [h]) (fun xs e h => by simp only [h])

/-- **C93**, `Eigensystem`: both entries of its dictionary. -/
theorem C93_eigensystem {α γ μ : Type} [AddCommGroup α] [LinearOrder α] (eigh : μ → List α × List γ) (c : Eigen.Cfg) (pt : Part) (o : Order) (hw : parseWhich c.which = .ok (pt, o))
    (f : Nat → Nat) (k m : Nat) (hs : Selection f k m) (d d' : Tree (List μ)) (hd : Decomposes eigh c.numEig d) (h : Related (Samplewise.Chosen f k m) d d') :
    ∃ a a' b b', systemCallable eigh c d = .ok (.dict [("eigenvalues".toList, map .inl a), ("eigenvectors".toList, map .inr b)]) ∧
      systemCallable eigh c d' = .ok (.dict [("eigenvalues".toList, map .inl a'), ("eigenvectors".toList, map .inr b')]) ∧
      Related (Samplewise.Chosen f k m) a a' ∧ Related (Samplewise.Chosen f k m) b b' := by
  have hd' : Decomposes eigh c.numEig d' := by
    intro q As hAs A hA
    obtain ⟨z, rfl, rfl⟩ := h
    have hmem := mem_flat_at.2 ⟨q, hAs⟩
    rw [flat_map'] at hmem
    obtain ⟨x, hx, rfl⟩ := List.mem_map.1 hmem
    obtain ⟨q', hq'⟩ := mem_flat_at.1 (show x.1.1 ∈ flat (map (fun p => p.1.1) z) by rw [flat_map']; exact List.mem_map_of_mem hx)
    exact hd q' x.1.1 hq' A (chosen_mem x.2 hA)
  obtain ⟨a, b, h1, h2, h3⟩ := C58_parts eigh c pt o hw d hd
  obtain ⟨a', b', h1', h2', h3'⟩ := C58_parts eigh c pt o hw d' hd'
  have ha := C93_eigenvalues (fun A => (eigh A).1) c f k m hs d d' (fun _ _ _ _ => trivial) h
  have hb := C93_eigenvectors eigh c f k m hs d d' (fun _ _ _ _ => trivial) h
  rw [h1, h1'] at ha
  rw [h2, h2'] at hb
  exact ⟨a, a', b, b', h3, h3', ha, hb⟩

/-- **C93**, `ExpectationValueSum`. -/
theorem C93_expectation {q l r : Nat} (nrm : Mat n n → ℝ) (centered : Bool) (Ds : Fin q → Fin l → Mat n n) :
    SamplewiseLists (fun _ => True) fun d : Tree (List (Mat n r)) => .ok (expectCallable nrm centered Ds d) :=
  fun _ _ _ _ _ _ _ h => map_lists _ (norm_related h)

/-- **C93**, `TransitionAmplitudeSum`. -/
theorem C93_amplitude {q l r : Nat} (nrm : Mat n n → ℝ) (centered : Bool) (Ds : Fin q → Fin l → Mat n n) :
    SamplewiseLists (fun _ => True) fun d : Tree (List (Mat n r)) => .ok (ampCallable nrm centered Ds d) :=
  fun _ _ _ _ _ _ _ h => map_lists _ (norm_related h)

/-- **C93**, `AffineEigenvaluePMM`, whatever its parameters. -/
theorem C93_eigenvalue_pmm (eigvalsh : Mat n n → List ℝ) (c : Eigen.Cfg) (bias : Bool) (s : ℝ) (Ms : List (Mat n n)) (p : Nat) :
    SamplewiseLists (fun x => x.length = p) (eigenvalueCall eigvalsh c bias s Ms) := by
  have h := agree_comp (C93_hermitian bias s Ms p) (C93_eigenvalues eigvalsh c)
  intro f k m hs d d' hd hr
  have := h f k m hs d d' hd hr
  beta_reduce at this
  unfold eigenvalueCall
  cases h1 : affineCallable bias s Ms d <;> cases h2 : affineCallable bias s Ms d' <;> rw [h1, h2] at this <;> exact this

/-- **C93**, `AffineObservablePMM`, whatever its parameters. -/
theorem C93_observable_pmm {q l : Nat} (eigh : Mat n n → List ℝ × List (Fin n → ℂ)) (nrm : Mat n n → ℝ) (c : Eigen.Cfg) (bias : Bool) (s : ℝ)
    (useExp centered : Bool) (Ms : List (Mat n n)) (Ds : Fin q → Fin l → Mat n n) (b : Option (Fin q → ℝ)) (p : Nat) :
    SamplewiseLists (fun x => x.length = p) (observableCall eigh nrm c bias s useExp centered Ms Ds b) := by
  have h7 : ∀ (f : Nat → Nat) (k m : Nat) {x y : Tree (List (Fin q → ℝ))}, Related (Samplewise.Chosen f k m) x y → Related (Samplewise.Chosen f k m) (addBias b x) (addBias b y) := by
    intro f k m x y hxy
    unfold addBias
    cases b with
    | none => exact hxy
    | some b => exact map_lists _ (norm_related hxy)
  have hl : SamplewiseLists (fun _ => True) fun Vs : Tree (List (List (Fin n → ℂ))) => .ok (addBias b
      (if useExp then expectCallable nrm centered Ds (map (fun xs => xs.map (columns (c.numEig.getD n))) Vs)
        else ampCallable nrm centered Ds (map (fun xs => xs.map (columns (c.numEig.getD n))) Vs))) := by
    intro f k m hs d d' _ hr
    refine h7 f k m ?_
    have h5 := map_lists (columns (c.numEig.getD n)) hr
    split
    · exact map_lists _ (norm_related h5)
    · exact map_lists _ (norm_related h5)
  have h := agree_comp (C93_hermitian bias s Ms p) (agree_comp (C93_eigenvectors eigh c) hl)
  intro f k m hs d d' hd hr
  have := h f k m hs d d' hd hr
  beta_reduce at this
  unfold observableCall
  cases h1 : affineCallable bias s Ms d with
  | error e =>
    cases h2 : affineCallable bias s Ms d' with
    | error e' => rw [h1, h2] at this; exact this
    | ok As' =>
      rw [h1, h2] at this
      simp only at this ⊢
      cases h4 : vectorsCallable eigh c As' <;> rw [h4] at this <;> exact this
  | ok As =>
    cases h2 : affineCallable bias s Ms d' with
    | error e' =>
      rw [h1, h2] at this
      simp only at this ⊢
      cases h4 : vectorsCallable eigh c As <;> rw [h4] at this <;> exact this
    | ok As' =>
      rw [h1, h2] at this
      simp only at this ⊢
      cases h3 : vectorsCallable eigh c As <;> cases h4 : vectorsCallable eigh c As' <;> rw [h3, h4] at this <;> exact this

/-! ### Examples -/

/-- The same sample sameTwice. -/
theorem sameTwice {A : Type} (a : A) : Selection (fun _ => 0) 1 2 ∧ Related (Samplewise.Chosen (fun _ => 0) 1 2) (.leaf [a]) (.leaf [a, a]) := by
  refine ⟨⟨by decide, by decide, fun i hi => by omega⟩, .leaf ⟨([a], [a, a]), rfl, rfl, fun i hi => ?_⟩, rfl, rfl⟩
  match i, hi with
  | 0, _ => rfl
  | 1, _ => rfl

/-- The two samples of `sameTwice` have the ground state energy of the one sample. -/
example (x : ℝ) : eigenvalueCall someEigvalsh ⟨some 1, "SA".toList⟩ true 0 [Matrix.diagonal fun i => (flip i : ℂ), 1]
    (.leaf [sample fun _ : Fin 1 => x, sample fun _ : Fin 1 => x]) = .ok (.leaf [[-1 + x], [-1 + x]]) := by
  have ha := C93_eigenvalue_pmm someEigvalsh ⟨some 1, "SA".toList⟩ true 0 [Matrix.diagonal fun i => (flip i : ℂ), 1] 1 _ _ _ (sameTwice x).1 _ _ (fun xs hxs y hy => by
    cases List.mem_singleton.1 hxs
    cases List.mem_singleton.1 hy
    rfl) (sameTwice (sample fun _ : Fin 1 => x)).2
  obtain ⟨o, h, t, h1, h2⟩ := agree_ok ha (someEigvalsh_flip x)
  rw [h]
  cases t with
  | leaf q =>
    obtain ⟨⟨a, b⟩, ha, hb, hq⟩ := q
    cases h1
    cases h2
    simp only at hb hq ⊢
    match b, hb with
    | [u, v], _ =>
      have e0 := hq 0 (by decide)
      have e1 := hq 1 (by decide)
      simp at e0 e1
      subst e0 e1
      rfl
  | _ => cases h1

/-- A data set with a sample of its own in every place: three samples and the last two in reverse order. -/
example : Related (Samplewise.Chosen (2 - ·) 3 2) (.dict [("m".toList, .leaf [10, 20, 30])]) (.dict [("m".toList, .leaf [30, 20])]) ∧
    valuesCallable (fun m : Int => [m, m + 1, m + 5]) ⟨some 1, "LA".toList⟩ (.dict [("m".toList, .leaf [10, 20, 30])]) = .ok (.dict [("m".toList, .leaf [[15], [25], [35]])]) ∧
    valuesCallable (fun m : Int => [m, m + 1, m + 5]) ⟨some 1, "LA".toList⟩ (.dict [("m".toList, .leaf [30, 20])]) = .ok (.dict [("m".toList, .leaf [[35], [25]])]) ∧
    vectorsCallable (fun m : Int => ([m, m + 1], [(m, 'a'), (m, 'b')])) ⟨some 1, "LA".toList⟩ (.dict [("m".toList, .leaf [30, 20])]) =
      .ok (.dict [("m".toList, .leaf [[(30, 'b')], [(20, 'b')]])]) := by
  refine ⟨⟨.dict [("m".toList, .leaf ⟨([10, 20, 30], [30, 20]), rfl, rfl, fun i hi => ?_⟩)], rfl, rfl⟩, by decide +kernel, by decide +kernel, by decide +kernel⟩
  match i, hi with
  | 0, _ => rfl
  | 1, _ => rfl

/-- The data of the last example has decompositions, and `Eigensystem` returns both entries in the same order. -/
example : Decomposes (fun m : Int => ([m, m + 1], [(m, 'a'), (m, 'b')])) (some 1) (.leaf [10, 20, 30]) ∧ parseWhich "LA".toList = .ok (.largest, .algebraic) ∧
    systemCallable (fun m : Int => ([m, m + 1], [(m, 'a'), (m, 'b')])) ⟨some 1, "LA".toList⟩ (.leaf [30, 20]) =
      .ok (.dict [("eigenvalues".toList, .leaf (.inl [[31], [21]])), ("eigenvectors".toList, .leaf (.inr [[(30, 'b')], [(20, 'b')]]))]) :=
  ⟨fun q As h A hA => ⟨rfl, by simp⟩, by decide +kernel, by decide +kernel⟩

end Verif.Props
