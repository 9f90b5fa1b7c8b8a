import Verif.Props.NetUniversalActs

/-! # C145: universal approximation with exponentials and waves, and what squares cannot do -/

namespace Verif.Props
open Prebuilt NetworkSpec Network

variable (draw : Nat → List Nat → ℝ) (drawB : List Nat → List Nat → ℝ)

/-- What a network with one hidden layer and one output computes. -/
def Units (φ : ℝ → ℝ) {f : Nat} (h : (Fin f → ℝ) → ℝ) : Prop :=
  ∃ (n : Nat) (c : Fin n → ℝ) (w : Fin n → Fin f → ℝ) (b : Fin n → ℝ) (d : ℝ), ∀ z, h z = d + ∑ i, c i * φ (∑ j, w i j * z j + b i)

theorem units_net (φ : ℝ → ℝ) {f m : Nat} (h : Fin m → (Fin f → ℝ) → ℝ) (hh : ∀ r, Units φ (h r)) : ∃ L M : Layer, L.act = some φ ∧ M.out = m ∧ M.act = Option.none ∧
    ∀ x : Nat → ℝ, ∃ y, predictNet draw drawB f [L, M] x = some y ∧ ∀ r : Fin m, y r = h r fun j => x j := by
  choose n c w b d e using hh
  let ι := Σ r : Fin m, Fin (n r)
  let E : ι ≃ Fin (Fintype.card ι) := Fintype.equivFin ι
  let L : Layer := ⟨Fintype.card ι, fun k j => if hk : k < Fintype.card ι then if hj : j < f then w _ (E.symm ⟨k, hk⟩).2 ⟨j, hj⟩ else 0 else 0,
    some fun k => if hk : k < Fintype.card ι then b _ (E.symm ⟨k, hk⟩).2 else 0, some φ⟩
  let M : Layer := ⟨m, fun r k => if hk : k < Fintype.card ι then if (E.symm ⟨k, hk⟩).1.1 = r then c _ (E.symm ⟨k, hk⟩).2 else 0 else 0,
    some fun r => if hr : r < m then d ⟨r, hr⟩ else 0, Option.none⟩
  refine ⟨L, M, rfl, rfl, rfl, fun x => ?_⟩
  obtain ⟨y, h1, h2⟩ := predictNet_eq draw drawB f [L, M] x
  refine ⟨y, h1, fun r => ?_⟩
  rw [h2 r.1 r.2]
  have hL : ∀ k : Fin (Fintype.card ι), L.at f x k = φ (∑ j, w _ (E.symm k).2 j * x j + b _ (E.symm k).2) := fun k => by
    simp only [L, Layer.at, Layer.fn, Option.getD_some, Option.elim_some, dif_pos k.2]
    rw [Finset.sum_range]
    simp only [dif_pos (Fin.is_lt _), Fin.eta]
  have hM : net f [L, M] x r.1 = ∑ k ∈ Finset.range (Fintype.card ι), M.W r.1 k * L.at f x k + d r := by
    simp only [net]
    show ∑ k ∈ Finset.range (Fintype.card ι), M.W r.1 k * L.at f x k + (if hr : r.1 < m then d ⟨r.1, hr⟩ else 0) = _
    rw [dif_pos r.2]
  rw [hM, Finset.sum_range, e r, add_comm]
  congr 1
  simp only [hL]
  have hW : ∀ k : Fin (Fintype.card ι), M.W r.1 k = if (E.symm k).1 = r then c _ (E.symm k).2 else 0 := fun k => by
    simp only [M, dif_pos k.2, Fin.eta, Fin.val_inj]
  simp only [hW]
  rw [E.symm.sum_comp fun p : ι => (if p.1 = r then c _ p.2 else 0) * φ (∑ j, w _ p.2 j * x j + b _ p.2), Fintype.sum_sigma, Finset.sum_eq_single r]
  · simp
  · intro s _ hs
    simp [hs]
  · simp

/-- Sums of waves. -/
def WaveSum {f : Nat} (h : (Fin f → ℝ) → ℝ) : Prop := ∃ (n : Nat) (c : Fin n → ℝ) (w : Fin n → Fin f → ℝ) (b : Fin n → ℝ), ∀ z, h z = ∑ i, c i * Real.cos (∑ j, w i j * z j + b i)

theorem waveSum_of {f : Nat} {ι : Type} [Fintype ι] (c : ι → ℝ) (w : ι → Fin f → ℝ) (b : ι → ℝ) : WaveSum fun z : Fin f → ℝ => ∑ i, c i * Real.cos (∑ j, w i j * z j + b i) :=
  ⟨Fintype.card ι, fun k => c ((Fintype.equivFin ι).symm k), fun k => w ((Fintype.equivFin ι).symm k), fun k => b ((Fintype.equivFin ι).symm k), fun z =>
    ((Fintype.equivFin ι).symm.sum_comp fun i => c i * Real.cos (∑ j, w i j * z j + b i)).symm⟩

theorem WaveSum.congr {f : Nat} {h h' : (Fin f → ℝ) → ℝ} (hs : WaveSum h) (e : ∀ z, h' z = h z) : WaveSum h' := by
  obtain ⟨n, c, w, b, hh⟩ := hs
  exact ⟨n, c, w, b, fun z => (e z).trans (hh z)⟩

theorem WaveSum.add {f : Nat} {h h' : (Fin f → ℝ) → ℝ} (hs : WaveSum h) (hs' : WaveSum h') : WaveSum fun z => h z + h' z := by
  obtain ⟨n, c, w, b, e⟩ := hs
  obtain ⟨n', c', w', b', e'⟩ := hs'
  refine (waveSum_of (ι := Fin n ⊕ Fin n') (Sum.elim c c') (Sum.elim w w') (Sum.elim b b')).congr fun z => ?_
  rw [e, e', Fintype.sum_sum_type]
  rfl

theorem WaveSum.mul {f : Nat} {h h' : (Fin f → ℝ) → ℝ} (hs : WaveSum h) (hs' : WaveSum h') : WaveSum fun z => h z * h' z := by
  obtain ⟨n, c, w, b, e⟩ := hs
  obtain ⟨n', c', w', b', e'⟩ := hs'
  refine ((waveSum_of (ι := Fin n × Fin n') (fun p => c p.1 * c' p.2 / 2) (fun p j => w p.1 j + w' p.2 j) (fun p => b p.1 + b' p.2)).add
    (waveSum_of (ι := Fin n × Fin n') (fun p => c p.1 * c' p.2 / 2) (fun p j => w p.1 j - w' p.2 j) (fun p => b p.1 - b' p.2))).congr fun z => ?_
  rw [e, e', Finset.sum_mul_sum, Fintype.sum_prod_type, Fintype.sum_prod_type, ← Finset.sum_add_distrib]
  refine Finset.sum_congr rfl fun i _ => ?_
  rw [← Finset.sum_add_distrib]
  refine Finset.sum_congr rfl fun k _ => ?_
  have e1 : ∑ j, (w i j + w' k j) * z j + (b i + b' k) = (∑ j, w i j * z j + b i) + (∑ j, w' k j * z j + b' k) := by
    simp only [add_mul, Finset.sum_add_distrib]; ring
  have e2 : ∑ j, (w i j - w' k j) * z j + (b i - b' k) = (∑ j, w i j * z j + b i) - (∑ j, w' k j * z j + b' k) := by
    simp only [sub_mul, Finset.sum_sub_distrib]; ring
  simp only
  rw [e1, e2]
  generalize ∑ j, w i j * z j + b i = α
  generalize ∑ j, w' k j * z j + b' k = β
  rw [Real.cos_add, Real.cos_sub]
  ring

theorem waveSum_const {f : Nat} (r : ℝ) : WaveSum fun _ : Fin f → ℝ => r := ⟨1, fun _ => r, fun _ _ => 0, fun _ => 0, fun z => by simp⟩

theorem waveSum_dense {f : Nat} (K : Set (Fin f → ℝ)) (hK : IsCompact K) (g : (Fin f → ℝ) → ℝ) (hg : ContinuousOn g K) (ε : ℝ) (hε : 0 < ε) : ∃ h, WaveSum h ∧ ∀ z ∈ K, |h z - g z| < ε := by
  have : CompactSpace K := isCompact_iff_compactSpace.1 hK
  let A : Subalgebra ℝ C(K, ℝ) :=
    { carrier := {φ | ∃ h, WaveSum h ∧ ∀ z : K, φ z = h z.1}
      mul_mem' := by
        rintro φ ψ ⟨h, hs, e⟩ ⟨h', hs', e'⟩
        exact ⟨_, hs.mul hs', fun z => by rw [ContinuousMap.mul_apply, e, e']⟩
      add_mem' := by
        rintro φ ψ ⟨h, hs, e⟩ ⟨h', hs', e'⟩
        exact ⟨_, hs.add hs', fun z => by rw [ContinuousMap.add_apply, e, e']⟩
      algebraMap_mem' := fun r => ⟨_, waveSum_const r, fun z => rfl⟩ }
  have hA : A.SeparatesPoints := by
    intro x y hxy
    obtain ⟨j, hj⟩ : ∃ j, x.1 j ≠ y.1 j := by
      by_contra hc
      push Not at hc
      exact hxy (Subtype.ext (funext hc))
    set R := |x.1 j| + |y.1 j| + 1 with hR
    have hR0 : 0 < R := by positivity
    have hs0 : 0 < Real.pi / 2 / R := div_pos (by linarith [Real.pi_pos]) hR0
    have hin : ∀ v : ℝ, |v| ≤ R → Real.pi / 2 / R * v ∈ Set.Icc (-(Real.pi / 2)) (Real.pi / 2) := fun v hv => by
      have h1 : |Real.pi / 2 / R * v| ≤ Real.pi / 2 := by
        rw [abs_mul, abs_of_pos hs0]
        calc Real.pi / 2 / R * |v| ≤ Real.pi / 2 / R * R := mul_le_mul_of_nonneg_left hv hs0.le
          _ = Real.pi / 2 := div_mul_cancel₀ _ hR0.ne'
      exact abs_le.1 h1
    refine ⟨_, ⟨⟨fun z : K => Real.cos (Real.pi / 2 / R * z.1 j + -(Real.pi / 2)), Real.continuous_cos.comp ((continuous_const.mul ((continuous_apply j).comp continuous_subtype_val)).add continuous_const)⟩,
      ⟨fun z => Real.cos (Real.pi / 2 / R * z j + -(Real.pi / 2)), ⟨1, fun _ => 1, fun _ i => if i = j then Real.pi / 2 / R else 0, fun _ => -(Real.pi / 2), fun z => by simp⟩, fun z => rfl⟩, rfl⟩, ?_⟩
    intro h
    have h' : Real.cos (Real.pi / 2 / R * x.1 j - Real.pi / 2) = Real.cos (Real.pi / 2 / R * y.1 j - Real.pi / 2) := h
    rw [Real.cos_sub_pi_div_two, Real.cos_sub_pi_div_two] at h'
    have := Real.injOn_sin (hin _ (by rw [hR]; linarith [abs_nonneg (y.1 j)])) (hin _ (by rw [hR]; linarith [abs_nonneg (x.1 j)])) h'
    exact hj (mul_left_cancel₀ hs0.ne' this)
  obtain ⟨⟨φ, h, hs, e⟩, hφ⟩ := ContinuousMap.exists_mem_subalgebra_near_continuous_of_separatesPoints A hA (K.domRestrict g) (continuousOn_iff_continuous_domRestrict.1 hg) ε hε
  refine ⟨h, hs, fun z hz => ?_⟩
  have := hφ ⟨z, hz⟩
  rw [Real.norm_eq_abs] at this
  rw [← e ⟨z, hz⟩]
  exact this

/-- **C145 (exponentials and waves).** Networks with one hidden layer of Exp, Sin or Cos and a last layer without activation approximate every continuous function on a compact set, too. -/
theorem C145_universal_waves (a : Act) (ha : a = .exp ∨ a = .sin ∨ a = .cos) (f m : Nat) (K : Set (Fin f → ℝ)) (hK : IsCompact K) (g : Fin m → (Fin f → ℝ) → ℝ) (hg : ∀ r, ContinuousOn (g r) K) (ε : ℝ) (hε : 0 < ε) :
    ∃ L M : Layer, L.act = some a.fn ∧ M.out = m ∧ M.act = Option.none ∧
      ∀ x : Nat → ℝ, (fun j : Fin f => x j) ∈ K → ∃ y, predictNet draw drawB f [L, M] x = some y ∧ ∀ r : Fin m, |y r - g r fun j => x j| ≤ ε := by
  have hu : ∀ r, ∃ h, Units a.fn h ∧ ∀ z ∈ K, |h z - g r z| < ε := fun r => by
    rcases ha with rfl | rfl | rfl
    · obtain ⟨h, ⟨n, c, w, e⟩, hd⟩ := expSum_dense K hK (g r) (hg r) ε hε
      exact ⟨h, ⟨n, c, w, fun _ => 0, 0, fun z => by rw [e z]; simp [Act.fn]⟩, hd⟩
    · obtain ⟨h, ⟨n, c, w, b, e⟩, hd⟩ := waveSum_dense K hK (g r) (hg r) ε hε
      exact ⟨h, ⟨n, c, w, fun i => b i + Real.pi / 2, 0, fun z => by rw [e z]; simp only [Act.fn, ← add_assoc, Real.sin_add_pi_div_two, zero_add]⟩, hd⟩
    · obtain ⟨h, ⟨n, c, w, b, e⟩, hd⟩ := waveSum_dense K hK (g r) (hg r) ε hε
      exact ⟨h, ⟨n, c, w, b, 0, fun z => by rw [e z]; simp only [Act.fn, zero_add]⟩, hd⟩
  choose h hh hd using hu
  obtain ⟨L, M, h1, h2, h3, h4⟩ := units_net draw drawB a.fn h hh
  refine ⟨L, M, h1, h2, h3, fun x hx => ?_⟩
  obtain ⟨y, h5, h6⟩ := h4 x
  exact ⟨y, h5, fun r => by rw [h6 r]; exact (hd r _ hx).le⟩

/-- **C145 (squares).** Not every activation will do: whatever its number of units and its parameters, a network with one hidden layer of Square is off by at least 1/8 somewhere between 0 and 3 if it is to predict `max (x - 2) 0`. -/
theorem C145_squares (L M : Layer) (hL : L.act = some (Act.fn .square)) (hM : M.act = Option.none) (ho : 0 < M.out) :
    ∃ v ∈ Set.Icc (0 : ℝ) 3, ∃ y, predictNet draw drawB 1 [L, M] (fun _ => v) = some y ∧ 1 / 8 ≤ |y 0 - max (v - 2) 0| := by
  obtain ⟨A, B, D, hq⟩ : ∃ A B D : ℝ, ∀ v : ℝ, net 1 [L, M] (fun _ => v) 0 = A * v ^ 2 + B * v + D := by
    refine ⟨∑ k ∈ Finset.range L.out, M.W 0 k * L.W k 0 ^ 2, ∑ k ∈ Finset.range L.out, M.W 0 k * (2 * L.W k 0 * L.b.elim 0 (· k)),
      ∑ k ∈ Finset.range L.out, M.W 0 k * L.b.elim 0 (· k) ^ 2 + M.b.elim 0 (· 0), fun v => ?_⟩
    simp only [net, Layer.at, Layer.fn, hL, hM, Option.getD_some, Option.getD_none, id_eq, Finset.sum_range_one, Act.fn]
    rw [Finset.sum_mul, Finset.sum_mul, ← add_assoc, ← Finset.sum_add_distrib, ← Finset.sum_add_distrib]
    congr 1
    refine Finset.sum_congr rfl fun k _ => by ring
  by_contra hc
  push Not at hc
  have key : ∀ v ∈ Set.Icc (0 : ℝ) 3, |A * v ^ 2 + B * v + D - max (v - 2) 0| < 1 / 8 := fun v hv => by
    obtain ⟨y, h1, h2⟩ := predictNet_eq draw drawB 1 [L, M] fun _ => v
    have := hc v hv y h1
    rwa [h2 0 ho, hq v] at this
  have k0 := abs_lt.1 (key 0 ⟨by norm_num, by norm_num⟩)
  have k1 := abs_lt.1 (key 1 ⟨by norm_num, by norm_num⟩)
  have k2 := abs_lt.1 (key 2 ⟨by norm_num, by norm_num⟩)
  have k3 := abs_lt.1 (key 3 ⟨by norm_num, by norm_num⟩)
  norm_num at k0 k1 k2 k3
  linarith [k0.1, k0.2, k1.1, k1.2, k2.1, k2.2, k3.1, k3.2]

/-- The product of two features on the unit square, with Cos. -/
example : ∃ L M : Layer, L.act = some (Act.fn .cos) ∧ M.out = 1 ∧ M.act = Option.none ∧
    ∀ x : Nat → ℝ, (fun j : Fin 2 => x j) ∈ Set.Icc (0 : Fin 2 → ℝ) 1 → ∃ y, predictNet draw drawB 2 [L, M] x = some y ∧ ∀ r : Fin 1, |y r - x 0 * x 1| ≤ 1 / 100 :=
  C145_universal_waves draw drawB .cos (.inr (.inr rfl)) 2 1 (Set.Icc 0 1) isCompact_Icc (fun _ z => z 0 * z 1) (fun _ => by fun_prop) (1 / 100) (by norm_num)

/-- A layer of five squares and a sum. -/
example : ∃ L M : Layer, L.out = 5 ∧ L.act = some (Act.fn .square) ∧ M.act = Option.none ∧ 0 < M.out :=
  ⟨⟨5, fun k _ => k, some fun k => k, some (Act.fn .square)⟩, ⟨1, fun _ _ => 1, Option.none, Option.none⟩, rfl, rfl, rfl, one_pos⟩

end Verif.Props
