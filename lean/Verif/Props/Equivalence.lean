import Verif.Props.AffineTensor
import Verif.Props.Hermitian
import Verif.Props.Observables
import Verif.Props.Prebuilt
import Verif.Lemmas.TreeBind
import Mathlib.Analysis.Matrix.Spectrum

/-!
# C118: modules that stand for the same computation agree
-/

namespace Verif.Props
open Tree Hermitian ForwardSpec
open scoped Matrix ComplexConjugate

variable {n r : Nat}

/-! ## Tensors and matrices -/

/-- The matrices in an array of shape `(p, n, n)`. -/
noncomputable def matrices (n : Nat) (x : NArr ℂ) : List (Mat n n) := List.ofFn fun i : Fin (x.shape.headD 0) => Matrix.of fun j k : Fin n => x.val [i.val, j.val, k.val]

/-- The samples in an array of shape `(b, f)`. -/
def rows {V : Type} (x : NArr V) : List (List V) :=
  List.ofFn fun k : Fin (x.shape.headD 0) => List.ofFn fun j : Fin (x.shape.tail.headD 0) => x.val [k.val, j.val]

theorem mapM_ofFn_ok {A B : Type} (f : A → Except PyErr B) : ∀ {b : Nat} (x : Fin b → A) (y : Fin b → B), (∀ k, f (x k) = .ok (y k)) →
    (List.ofFn x).mapM f = .ok (List.ofFn y)
  | 0, _, _, _ => by simp; rfl
  | b + 1, x, y, h => by
    rw [List.ofFn_succ, List.ofFn_succ, List.mapM_cons, h 0, mapM_ofFn_ok f (fun k => x k.succ) (fun k => y k.succ) fun k => h k.succ]
    rfl

theorem tensor_affine {bias : Bool} {M x : NArr ℂ} {p b f : Nat} (hM : M.shape = [p, n, n]) (hx : x.shape = [b, f]) (hb : 0 < b)
    (hH : ∀ A ∈ matrices n M, A.IsHermitian) :
    (rows x).mapM (affine bias 0 ((matrices n M).map hermPart)) = (AffineTensor.tensor bias M x).map (matrices n) := by
  have e : (matrices n M).map hermPart = matrices n M := by
    conv_rhs => rw [← List.map_id (matrices n M)]
    exact List.map_congr_left fun A hA => hermPart_self (hH A hA)
  have hx0 : x.shape.headD 0 = b := by rw [hx]; rfl
  have hx1 : x.shape.tail.headD 0 = f := by rw [hx]; rfl
  have hr : rows x = List.ofFn fun k : Fin b => List.ofFn fun j : Fin f => x.val [k.val, j.val] := by
    unfold rows
    rw [hx0, hx1]
  have hm : matrices n M = List.ofFn fun i : Fin p => Matrix.of fun j k : Fin n => M.val [i.val, j.val, k.val] := by
    unfold matrices
    rw [show M.shape.headD 0 = p by rw [hM]; rfl]
  rw [e, hr]
  cases ht : AffineTensor.tensor bias M x with
  | error er =>
    have her : er = .typeError ∧ p ≠ if bias then f + 1 else f := by
      unfold AffineTensor.tensor at ht
      rw [hM, hx] at ht
      simp only at ht
      cases bias
      · simp only [Bool.false_eq_true, if_false] at ht ⊢
        split at ht
        · cases ht
        · cases ht; exact ⟨rfl, by assumption⟩
      · simp only [if_true] at ht ⊢
        split at ht
        · cases ht
        · cases ht; exact ⟨rfl, by assumption⟩
    obtain ⟨b', rfl⟩ := Nat.exists_eq_succ_of_ne_zero hb.ne'
    rw [List.ofFn_succ, List.mapM_cons]
    have hbad : affine bias 0 (matrices n M) (List.ofFn fun j : Fin f => x.val [(0 : Fin (b' + 1)).val, j.val]) = .error .typeError := by
      rw [hm]
      unfold affine
      cases bias
      · simp only [Bool.false_eq_true, if_false] at her ⊢
        rw [if_neg]
        simpa using Ne.symm her.2
      · simp only [if_true] at her ⊢
        cases p with
        | zero => simp
        | succ p =>
          rw [List.ofFn_succ]
          simp only
          rw [if_neg]
          simp only [List.length_ofFn]
          have := her.2
          omega
    rw [hbad, her.1]
    rfl
  | ok y =>
    obtain ⟨⟨ts, hy, hp⟩, hv⟩ := C70_value bias M x y b f hx ht
    rw [hM, List.cons.injEq] at hp
    obtain ⟨rfl, rfl⟩ := hp
    have hY : matrices n y = List.ofFn fun i : Fin b => Matrix.of fun j k : Fin n => y.val [i.val, j.val, k.val] := by
      unfold matrices
      rw [show y.shape.headD 0 = b by rw [hy]; rfl]
    change _ = Except.ok (matrices n y)
    rw [hY]
    refine mapM_ofFn_ok _ _ _ fun k => ?_
    rw [hm]
    cases bias
    · simp only [Bool.false_eq_true, if_false] at hv ⊢
      rw [affine_plain]
      refine congrArg _ ?_
      ext j k'
      simp [Matrix.sum_apply, hv]
    · simp only [if_true] at hv ⊢
      rw [affine_bias]
      refine congrArg _ ?_
      ext j k'
      simp [Matrix.sum_apply, hv]

/-- **C118** `AffineTensor` for matrices, and `AffineHermitianMatrix` without smoothing, compute the same from the same Hermitian matrices, and refuse the same data. -/
theorem C118_tensor (bias : Bool) (M : NArr ℂ) {p : Nat} (hM : M.shape = [p, n, n]) (hH : ∀ A ∈ matrices n M, A.IsHermitian) (data : Tree (NArr ℂ))
    (hd : ∀ q x, At data q x → ∃ b f, x.shape = [b, f] ∧ 0 < b) :
    affineCallable bias 0 (matrices n M) (map rows data) = (AffineTensor.call bias M data).map (map (matrices n)) := by
  unfold affineCallable AffineTensor.call jaxMap
  simp only [zipAll]
  rw [mapM_comp, ← Tree.mapM_map, norm_map, mapM_comp]
  refine mapM_congr _ _ _ fun x hx => ?_
  obtain ⟨q, hq⟩ := mem_flat_at.1 hx
  obtain ⟨b, f, hs, hb⟩ := hd q x (at_norm.1 hq)
  rw [tensor_affine hM hs hb hH]
  cases AffineTensor.tensor bias M x <;> rfl

/-! ## Low rank -/

theorem lowRank_isHermitian (l : Fin r → ℝ) (u : Mat n r) : (lowRank (fun k => (l k : ℂ)) u).IsHermitian := by
  ext a b
  simp only [Matrix.conjTranspose_apply, lowRank, Matrix.of_apply, star_sum, star_mul']
  refine Finset.sum_congr rfl fun k _ => ?_
  simp only [RCLike.star_def, Complex.conj_ofReal, Complex.conj_conj]
  ring

/-- A Hermitian matrix of rank at most `r` is a sum of `r` projections with real coefficients. -/
theorem exists_lowRank {H : Mat n n} (hH : H.IsHermitian) (hr : H.rank ≤ r) : ∃ (l : Fin r → ℝ) (u : Mat n r), lowRank (fun k => (l k : ℂ)) u = H := by
  classical
  rw [hH.rank_eq_card_non_zero_eigs] at hr
  obtain ⟨e⟩ : Nonempty ({i // hH.eigenvalues i ≠ 0} ↪ Fin r) := Function.Embedding.nonempty_of_card_le (by simpa using hr)
  let U : Mat n n := hH.eigenvectorUnitary
  let inv : Fin r → Option {i // hH.eigenvalues i ≠ 0} := fun k => if h : ∃ i, e i = k then some h.choose else none
  have hinv : ∀ i, inv (e i) = some i := by
    intro i
    have h : ∃ j, e j = e i := ⟨i, rfl⟩
    simp only [inv, dif_pos h]
    exact congrArg some (e.injective h.choose_spec)
  have hnone : ∀ k, (∀ i, e i ≠ k) → inv k = Option.none := by
    intro k h
    simp only [inv]
    rw [dif_neg]
    rintro ⟨i, hi⟩
    exact h i hi
  refine ⟨fun k => (inv k).elim 0 fun i => hH.eigenvalues i, Matrix.of fun a k => (inv k).elim 0 fun i => U a i, ?_⟩
  have hsp : ∀ a b, H a b = ∑ i, (hH.eigenvalues i : ℂ) * U a i * conj (U b i) := by
    intro a b
    conv_lhs => rw [hH.spectral_theorem, Unitary.conjStarAlgAut_apply]
    rw [Matrix.mul_apply]
    refine Finset.sum_congr rfl fun i _ => ?_
    rw [Matrix.mul_diagonal]
    simp only [Function.comp, U]
    rw [show (star (hH.eigenvectorUnitary : Matrix (Fin n) (Fin n) ℂ)) i b = conj ((hH.eigenvectorUnitary : Matrix (Fin n) (Fin n) ℂ) b i) from rfl]
    simp only [RCLike.ofReal_eq_complex_ofReal]
    ring
  ext a b
  rw [hsp]
  simp only [lowRank, Matrix.of_apply]
  have h1 : ∑ i, (hH.eigenvalues i : ℂ) * U a i * conj (U b i) = ∑ i : {i // hH.eigenvalues i ≠ 0}, (hH.eigenvalues i : ℂ) * U a i * conj (U b i) := by
    symm
    refine Finset.sum_of_injOn Subtype.val Subtype.val_injective.injOn (fun _ _ => Finset.mem_coe.2 (Finset.mem_univ _)) (fun i _ hi => ?_) fun _ _ => rfl
    have : hH.eigenvalues i = 0 := by
      by_contra h
      exact hi ⟨⟨i, h⟩, Finset.mem_coe.2 (Finset.mem_univ _), rfl⟩
    rw [this, Complex.ofReal_zero, zero_mul, zero_mul]
  rw [h1]
  symm
  refine Finset.sum_of_injOn e e.injective.injOn (fun _ _ => Finset.mem_coe.2 (Finset.mem_univ _)) (fun k _ hk => ?_) fun i _ => ?_
  · rw [hnone k fun i hi => hk ⟨i, Finset.mem_coe.2 (Finset.mem_univ _), hi⟩]
    simp
  · rw [hinv i]
    rfl

/-- **C118** A low-rank module can stand for the given matrices exactly when the Hermitian part of each has at most that rank: then it computes the same for every bias, smoothing and
sample, also from real coefficients. At full rank it can always. -/
theorem C118_low_rank (Ms : List (Mat n n)) :
    ((∃ (ls : List (Fin r → ℂ)) (us : List (Mat n r)), ls.length = Ms.length ∧ us.length = Ms.length ∧
        ∀ bias s x, lowRankAffine bias s ls us x = affine bias s (Ms.map hermPart) x) ↔ ∀ M ∈ Ms, (herm M).rank ≤ r) ∧
    ((∀ M ∈ Ms, (herm M).rank ≤ r) → ∃ (ls : List (Fin r → ℝ)) (us : List (Mat n r)), ls.length = Ms.length ∧ us.length = Ms.length ∧
        ∀ bias s x, lowRankAffine bias s (ls.map fun l k => (l k : ℂ)) us x = affine bias s (Ms.map hermPart) x) ∧
    (n ≤ r → ∀ M ∈ Ms, (herm M).rank ≤ r) := by
  have hconv : (∀ M ∈ Ms, (herm M).rank ≤ r) → ∃ (ls : List (Fin r → ℝ)) (us : List (Mat n r)), ls.length = Ms.length ∧ us.length = Ms.length ∧
      ∀ bias s x, lowRankAffine bias s (ls.map fun l k => (l k : ℂ)) us x = affine bias s (Ms.map hermPart) x := by
    intro h
    have : ∃ (ls : List (Fin r → ℝ)) (us : List (Mat n r)), ls.length = Ms.length ∧ us.length = Ms.length ∧
        (List.zipWith lowRank (ls.map fun l k => (l k : ℂ)) us).map hermPart = Ms.map hermPart := by
      induction Ms with
      | nil => exact ⟨[], [], rfl, rfl, rfl⟩
      | cons M Ms ih =>
        obtain ⟨ls, us, h1, h2, h3⟩ := ih fun M' hM' => h M' (List.mem_cons_of_mem _ hM')
        have hh : (hermPart M).rank ≤ r := by rw [hermPart_eq]; exact h M List.mem_cons_self
        obtain ⟨l, u, hlu⟩ := exists_lowRank (hermPart_isHermitian M) hh
        refine ⟨l :: ls, u :: us, by simp [h1], by simp [h2], ?_⟩
        simp only [List.map_cons, List.zipWith_cons_cons, h3, hlu, hermPart_self (hermPart_isHermitian M)]
    obtain ⟨ls, us, h1, h2, h3⟩ := this
    exact ⟨ls, us, h1, h2, fun bias s x => by rw [lowRankAffine, h3]⟩
  refine ⟨⟨?_, fun h => ?_⟩, hconv, fun hn M _ => (Matrix.rank_le_width _).trans hn⟩
  · rintro ⟨ls, us, h1, h2, h3⟩ M hM
    obtain ⟨i, rfl⟩ := List.mem_iff_get.1 hM
    let p := Ms.length
    let l : Fin p → Fin r → ℂ := fun i => ls.get (i.cast h1.symm)
    let u : Fin p → Mat n r := fun i => us.get (i.cast h2.symm)
    have hl : ls = List.ofFn l := by
      refine List.ext_get (by simp [p, h1]) fun k hk hk' => ?_
      simp [l]
    have hu : us = List.ofFn u := by
      refine List.ext_get (by simp [p, h2]) fun k hk hk' => ?_
      simp [u]
    have hMs : Ms = List.ofFn Ms.get := (List.ofFn_get Ms).symm
    have := h3 false 0 (List.ofFn (Pi.single i 1 : Fin p → ℂ))
    rw [lowRankAffine, hl, hu, zip_ofFn] at this
    conv_rhs at this => rw [hMs]
    rw [C54_value_plain, C54_value_plain] at this
    simp only [Except.ok.injEq, Complex.ofReal_zero, zero_smul, add_zero] at this
    rw [Finset.sum_eq_single i, Finset.sum_eq_single i] at this
    · simp only [Pi.single_eq_same, one_smul] at this
      rw [← this, herm, ← hermPart_eq, ← one_smul ℂ (hermPart _)]
      exact smul_lowRank_rank _ _ _
    · intro j _ hj; rw [Pi.single_eq_of_ne hj, zero_smul]
    · intro hj; exact absurd (Finset.mem_univ _) hj
    · intro j _ hj; rw [Pi.single_eq_of_ne hj, zero_smul]
    · intro hj; exact absurd (Finset.mem_univ _) hj
  · obtain ⟨ls, us, h1, h2, h3⟩ := hconv h
    exact ⟨_, us, by rw [List.length_map, h1], h2, h3⟩

/-! ## Observables of one state -/

/-- **C118** For a single state the transition amplitudes are the squares of the expectation values of the operators. -/
theorem C118_single_state {q l : Nat} (nrm : Mat n n → ℝ) (Ds : Fin q → Fin l → Mat n n) (V : Mat n 1) (k : Fin q) :
    Observables.ampSingle nrm false (Observables.forceHerm Ds) V k =
      ∑ m, (Observables.expectSingle nrm false (Observables.forceHerm fun (_ : Fin 1) (_ : Fin 1) => Ds k m) V 0) ^ 2 := by
  rw [C57_amplitude_value]
  refine Finset.sum_congr rfl fun m _ => ?_
  have h := C57_expectation_real nrm (fun (_ : Fin 1) (_ : Fin 1) => Ds k m) V 0
  simp only [Finset.univ_unique, Finset.sum_singleton, Matrix.trace, Matrix.diag] at h ⊢
  rw [← h, Complex.normSq_ofReal, sq]

/-! ## Linear layers -/

open Prebuilt in
/-- **C118** A compiled `LinearNN` for vectors of `f` features and `n` outputs, without its activation, and an `AffineTensor` of tensor shape `(n,)` compute the same, if the weights of
the layer are the transposed tensors and its bias the first of them. -/
theorem C118_linear {K : Type} [CommSemiring K] (draw : Nat → List Nat → K) (drawB : List Nat → List Nat → K) (m : Mdl (LinHyper K) (Layers K) (Tree (List Nat))) {n f : Nat}
    (hout : m.hyper.out = some n) (hnew : m.inShape ≠ some (.leaf [f])) (M : NArr K) (hM : M.shape = [if m.hyper.bias then f + 1 else f, n]) :
    ∃ m', Prebuilt.compile (linOps draw drawB) m (.leaf [f]) = (m', .ok ()) ∧
      ∀ (x : NArr K) (B : Nat), x.shape = [B, f] → 0 < B →
        ∃ y y' : NArr K, linCall (withParams m'.modules ⟨[n, f], fun i => M.val [i.getD 1 0 + m.hyper.bias.toNat, i.getD 0 0]⟩
            (if m.hyper.bias then some ⟨[n], fun i => M.val [0, i.getD 0 0]⟩ else Option.none)) (.leaf x) = .ok (.leaf (m.hyper.act.getD id y)) ∧
          AffineTensor.call m.hyper.bias M (.leaf x) = .ok (.leaf y') ∧ y.shape = [B, n] ∧ y'.shape = [B, n] ∧
          ∀ k r, k < B → r < n → y.val [k, r] = y'.val [k, r] := by
  obtain ⟨m', h1, -, -, -, -, -, h2⟩ := C77_linear draw drawB m (s := [f]) (shapes := .leaf [f]) hout trivial rfl rfl hnew
  refine ⟨m', h1, fun x B hx hB => ?_⟩
  obtain ⟨-, h3⟩ := h2 ⟨[n, f], fun i => M.val [i.getD 1 0 + m.hyper.bias.toNat, i.getD 0 0]⟩
    (if m.hyper.bias then some ⟨[n], fun i => M.val [0, i.getD 0 0]⟩ else Option.none) (by simp [ReshapeSpec.count]) (by cases m.hyper.bias <;> rfl)
    (fun b' hb => by
      cases hbb : m.hyper.bias with
      | true => rw [hbb] at hb; cases hb; rfl
      | false => rw [hbb] at hb; cases hb)
  obtain ⟨y, h4, h5, h6⟩ := h3 (.leaf x) B x trivial (by simp [map, hx]) rfl hx hB
  have ht : ∃ y', AffineTensor.tensor m.hyper.bias M x = .ok y' := by
    unfold AffineTensor.tensor
    rw [hM, hx]
    cases m.hyper.bias
    · simp
    · simp
  obtain ⟨y', hy'⟩ := ht
  obtain ⟨⟨ts, hs, hp⟩, hv⟩ := C70_value m.hyper.bias M x y' B f hx hy'
  rw [hM, List.cons.injEq] at hp
  obtain ⟨-, rfl⟩ := hp
  refine ⟨y, y', h4, ?_, h5, hs, fun k r hk hr => ?_⟩
  · change (match AffineTensor.tensor m.hyper.bias M x with
      | .ok y => (.ok (.leaf y) : Except PyErr (Tree (NArr K)))
      | .error e => .error e) = _
    rw [hy']
  have hsam : ReshapeSpec.sample x k = (List.range f).map fun j => x.val [k, j] := by
    simp only [ReshapeSpec.sample, hx, NArr.indices, List.tail_cons, List.map_flatMap, List.map_cons, List.map_nil]
    exact (List.map_eq_flatMap ..).symm
  rw [h6 k r hk hr, hv k [r], linear, hsam, List.length_map, List.length_range]
  have hsum : ∀ g : Nat → K, ∑ j ∈ Finset.range f, g j = ∑ j : Fin f, g j := fun g => Finset.sum_range g
  rw [hsum]
  have hterm : ∀ j : Fin f, ((List.range f).map fun j => x.val [k, j]).getD j.val 0 = x.val [k, j.val] := by
    intro j
    simp [List.getD, j.isLt]
  simp only [hterm]
  cases m.hyper.bias
  · simp [mul_comm]
  · simp [mul_comm, add_comm]

/-! ## Examples -/

/-- Two Hermitian matrices, a bias and one feature. -/
example : (⟨[2, 2, 2], fun i => if i = [1, 0, 1] ∨ i = [1, 1, 0] then 3 else 1⟩ : NArr ℂ).shape = [2, 2, 2] ∧
    ∀ A ∈ matrices 2 (⟨[2, 2, 2], fun i => if i = [1, 0, 1] ∨ i = [1, 1, 0] then 3 else 1⟩ : NArr ℂ), A.IsHermitian := by
  refine ⟨rfl, fun A hA => ?_⟩
  obtain ⟨i, rfl⟩ := (List.mem_ofFn' _ _).1 hA
  ext j k
  fin_cases i <;> fin_cases j <;> fin_cases k <;> simp

/-- Data of three samples with one feature, which both modules accept. -/
example : ∀ q (x : NArr ℂ), At (.leaf ⟨[3, 1], fun i => (i.headD 0 : ℂ)⟩) q x → ∃ b f, x.shape = [b, f] ∧ 0 < b := by
  intro q x h
  cases h
  exact ⟨3, 1, rfl, by omega⟩

open Prebuilt in
/-- A layer with a bias, three features and two outputs. -/
example : (⟨⟨some 2, true, Option.none⟩, linBuild ⟨some 2, true, Option.none⟩, Option.none, Option.none⟩ : Mdl (LinHyper ℤ) (Layers ℤ) (Tree (List Nat))).inShape ≠ some (.leaf [3]) ∧
    ((⟨[4, 2], fun i => (i.headD 0 : ℤ) - 1⟩ : NArr ℤ).shape = [if true then 3 + 1 else 3, 2]) := ⟨by simp, rfl⟩

/-- An operator whose expectation value in the state is 2: the amplitude is 4. -/
example : Observables.ampSingle (fun _ => 0) false (Observables.forceHerm fun (_ : Fin 1) (_ : Fin 1) => (!![2, 0; 0, 5] : Mat 2 2)) !![(1 : ℂ); 0] 0 = 4 := by
  rw [C57_amplitude_value, ← Complex.ofReal_inj]
  simp [herm, Matrix.mul_apply, Fin.sum_univ_two, Complex.normSq_apply]
  norm_num

/-- The identity of size 2 has rank 2: it is not what a module of rank 1 can stand for, and is for rank 2. -/
example : (¬ ∃ (ls : List (Fin 1 → ℂ)) (us : List (Mat 2 1)), ls.length = 1 ∧ us.length = 1 ∧
      ∀ bias s x, lowRankAffine bias s ls us x = affine bias s ([(1 : Mat 2 2)].map hermPart) x) ∧
    ∃ (ls : List (Fin 2 → ℂ)) (us : List (Mat 2 2)), ls.length = 1 ∧ us.length = 1 ∧
      ∀ bias s x, lowRankAffine bias s ls us x = affine bias s ([(1 : Mat 2 2)].map hermPart) x := by
  have h1 : (herm (1 : Mat 2 2)).rank = 2 := by
    rw [herm, ← hermPart_eq, hermPart_self Matrix.isHermitian_one, Matrix.rank_one, Fintype.card_fin]
  refine ⟨fun h => ?_, ?_⟩
  · have := (C118_low_rank (r := 1) [(1 : Mat 2 2)]).1.1 h 1 (List.mem_singleton.2 rfl)
    omega
  · exact (C118_low_rank (r := 2) [(1 : Mat 2 2)]).1.2 ((C118_low_rank (r := 2) [(1 : Mat 2 2)]).2.2 le_rfl)

end Verif.Props
