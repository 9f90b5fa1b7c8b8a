import Verif.Props.NetFit
import Mathlib.Topology.ContinuousMap.StoneWeierstrass

/-! # C145: networks approximate continuous functions of any number of features -/

namespace Verif.Props
open Prebuilt NetworkSpec Network

variable (draw : Nat → List Nat → ℝ) (drawB : List Nat → List Nat → ℝ)

/-- Sums of exponentials of linear functions. -/
def ExpSum {f : Nat} (h : (Fin f → ℝ) → ℝ) : Prop := ∃ (n : Nat) (c : Fin n → ℝ) (w : Fin n → Fin f → ℝ), ∀ z, h z = ∑ i, c i * Real.exp (∑ j, w i j * z j)

theorem expSum_of {f : Nat} {ι : Type} [Fintype ι] (c : ι → ℝ) (w : ι → Fin f → ℝ) : ExpSum fun z : Fin f → ℝ => ∑ i, c i * Real.exp (∑ j, w i j * z j) :=
  ⟨Fintype.card ι, fun k => c ((Fintype.equivFin ι).symm k), fun k => w ((Fintype.equivFin ι).symm k), fun z =>
    ((Fintype.equivFin ι).symm.sum_comp fun i => c i * Real.exp (∑ j, w i j * z j)).symm⟩

theorem ExpSum.congr {f : Nat} {h h' : (Fin f → ℝ) → ℝ} (hs : ExpSum h) (e : ∀ z, h' z = h z) : ExpSum h' := by
  obtain ⟨n, c, w, hh⟩ := hs
  exact ⟨n, c, w, fun z => (e z).trans (hh z)⟩

theorem ExpSum.add {f : Nat} {h h' : (Fin f → ℝ) → ℝ} (hs : ExpSum h) (hs' : ExpSum h') : ExpSum fun z => h z + h' z := by
  obtain ⟨n, c, w, e⟩ := hs
  obtain ⟨n', c', w', e'⟩ := hs'
  refine (expSum_of (ι := Fin n ⊕ Fin n') (Sum.elim c c') (Sum.elim w w')).congr fun z => ?_
  rw [e, e', Fintype.sum_sum_type]
  rfl

theorem ExpSum.mul {f : Nat} {h h' : (Fin f → ℝ) → ℝ} (hs : ExpSum h) (hs' : ExpSum h') : ExpSum fun z => h z * h' z := by
  obtain ⟨n, c, w, e⟩ := hs
  obtain ⟨n', c', w', e'⟩ := hs'
  refine (expSum_of (ι := Fin n × Fin n') (fun p => c p.1 * c' p.2) (fun p j => w p.1 j + w' p.2 j)).congr fun z => ?_
  rw [e, e', Finset.sum_mul_sum, Fintype.sum_prod_type]
  refine Finset.sum_congr rfl fun i _ => Finset.sum_congr rfl fun k _ => ?_
  rw [show ∑ j, (w i j + w' k j) * z j = ∑ j, w i j * z j + ∑ j, w' k j * z j by simp only [add_mul, Finset.sum_add_distrib], Real.exp_add]
  ring

theorem expSum_const {f : Nat} (r : ℝ) : ExpSum fun _ : Fin f → ℝ => r := ⟨1, fun _ => r, fun _ _ => 0, fun z => by simp⟩

/-- Sums of exponentials come close to every continuous function on a compact set. -/
theorem expSum_dense {f : Nat} (K : Set (Fin f → ℝ)) (hK : IsCompact K) (g : (Fin f → ℝ) → ℝ) (hg : ContinuousOn g K) (ε : ℝ) (hε : 0 < ε) : ∃ h, ExpSum h ∧ ∀ z ∈ K, |h z - g z| < ε := by
  have : CompactSpace K := isCompact_iff_compactSpace.1 hK
  let A : Subalgebra ℝ C(K, ℝ) :=
    { carrier := {φ | ∃ h, ExpSum h ∧ ∀ z : K, φ z = h z.1}
      mul_mem' := by
        rintro φ ψ ⟨h, hs, e⟩ ⟨h', hs', e'⟩
        exact ⟨_, hs.mul hs', fun z => by rw [ContinuousMap.mul_apply, e, e']⟩
      add_mem' := by
        rintro φ ψ ⟨h, hs, e⟩ ⟨h', hs', e'⟩
        exact ⟨_, hs.add hs', fun z => by rw [ContinuousMap.add_apply, e, e']⟩
      algebraMap_mem' := fun r => ⟨_, expSum_const r, fun z => rfl⟩ }
  have hA : A.SeparatesPoints := by
    intro x y hxy
    obtain ⟨j, hj⟩ : ∃ j, x.1 j ≠ y.1 j := by
      by_contra hc
      push Not at hc
      exact hxy (Subtype.ext (funext hc))
    refine ⟨_, ⟨⟨fun z : K => Real.exp (z.1 j), Real.continuous_exp.comp ((continuous_apply j).comp continuous_subtype_val)⟩, ⟨fun z => Real.exp (z j), ⟨1, fun _ => 1, fun _ i => if i = j then 1 else 0, fun z => by simp⟩, fun z => rfl⟩, rfl⟩, ?_⟩
    exact fun h => hj (Real.exp_injective h)
  obtain ⟨⟨φ, h, hs, e⟩, hφ⟩ := ContinuousMap.exists_mem_subalgebra_near_continuous_of_separatesPoints A hA (K.domRestrict g) (continuousOn_iff_continuous_domRestrict.1 hg) ε hε
  refine ⟨h, hs, fun z hz => ?_⟩
  have := hφ ⟨z, hz⟩
  rw [Real.norm_eq_abs] at this
  rw [← e ⟨z, hz⟩]
  exact this

/-- What a network with one hidden layer of rectifiers and one output computes. -/
def Ramps {f : Nat} (h : (Fin f → ℝ) → ℝ) : Prop :=
  ∃ (n : Nat) (c : Fin n → ℝ) (w : Fin n → Fin f → ℝ) (b : Fin n → ℝ) (d : ℝ), ∀ z, h z = d + ∑ i, c i * max (∑ j, w i j * z j + b i) 0

theorem ramps_of {f : Nat} {ι : Type} [Fintype ι] (c : ι → ℝ) (w : ι → Fin f → ℝ) (b : ι → ℝ) (d : ℝ) : Ramps fun z : Fin f → ℝ => d + ∑ i, c i * max (∑ j, w i j * z j + b i) 0 :=
  ⟨Fintype.card ι, fun k => c ((Fintype.equivFin ι).symm k), fun k => w ((Fintype.equivFin ι).symm k), fun k => b ((Fintype.equivFin ι).symm k), d, fun z =>
    congrArg (d + ·) ((Fintype.equivFin ι).symm.sum_comp fun i => c i * max (∑ j, w i j * z j + b i) 0).symm⟩

theorem ramps_sum {f n : Nat} (C : Fin n → ℝ) (h : Fin n → (Fin f → ℝ) → ℝ) (hr : ∀ i, Ramps (h i)) : Ramps fun z => ∑ i, C i * h i z := by
  choose m c w b d e using hr
  obtain ⟨N, c', w', b', d', e'⟩ := ramps_of (ι := Σ i, Fin (m i)) (fun p => C p.1 * c p.1 p.2) (fun p => w p.1 p.2) (fun p => b p.1 p.2) (∑ i, C i * d i)
  refine ⟨N, c', w', b', d', fun z => ?_⟩
  rw [← e' z]
  simp only
  rw [Fintype.sum_sigma, ← Finset.sum_add_distrib]
  refine Finset.sum_congr rfl fun i _ => ?_
  rw [e i z, mul_add, Finset.mul_sum]
  simp only [mul_assoc]

/-- Rectifiers come close to a continuous function of a linear function, on a compact set. -/
theorem ramps_ridge {f : Nat} (K : Set (Fin f → ℝ)) (hK : IsCompact K) (φ : ℝ → ℝ) (hφ : Continuous φ) (w : Fin f → ℝ) (ε : ℝ) (hε : 0 < ε) :
    ∃ h, Ramps h ∧ ∀ z ∈ K, |h z - φ (∑ j, w j * z j)| ≤ ε := by
  have hc : Continuous fun z : Fin f → ℝ => ∑ j, w j * z j := by fun_prop
  obtain ⟨R, hR⟩ := (hK.image hc).isBounded.exists_norm_le
  have hR' : ∀ z ∈ K, ∑ j, w j * z j ∈ Set.Icc (-(|R| + 1)) (|R| + 1) := fun z hz => by
    have := hR _ (Set.mem_image_of_mem _ hz)
    rw [Real.norm_eq_abs] at this
    have := abs_le.1 (this.trans (le_abs_self R))
    exact ⟨by linarith, by linarith⟩
  obtain ⟨L, M, hL, ho, hM, h⟩ := C145_approximation (fun _ _ => 0) (fun _ _ => 0) (-(|R| + 1)) (|R| + 1) (by linarith [abs_nonneg R]) φ hφ.continuousOn ε hε
  refine ⟨_, ramps_of (ι := Fin L.out) (fun k => M.W 0 k) (fun k j => L.W k 0 * w j) (fun k => L.b.elim 0 (· k.1)) (M.b.elim 0 (· 0)), fun z hz => ?_⟩
  obtain ⟨y, h1, h2⟩ := h (fun _ => ∑ j, w j * z j) (hR' z hz)
  obtain ⟨y', h3, h4⟩ := predictNet_eq (fun _ _ => 0) (fun _ _ => 0) 1 [L, M] fun _ => ∑ j, w j * z j
  rw [h1, Option.some.injEq] at h3
  have e := h4 0 (show 0 < M.out by omega)
  rw [← h3] at e
  rw [e] at h2
  have e2 : net 1 [L, M] (fun _ => ∑ j, w j * z j) 0 = M.b.elim 0 (· 0) + ∑ k : Fin L.out, M.W 0 k * max (∑ j, L.W k 0 * w j * z j + L.b.elim 0 (· k.1)) 0 := by
    simp only [net, Layer.at, Layer.fn, hL, hM, Option.getD_some, Option.getD_none, id_eq, Finset.sum_range_one, Act.fn]
    rw [Finset.sum_range, add_comm]
    simp only [Finset.mul_sum, mul_assoc]
  rw [e2] at h2
  exact h2

theorem ramps_dense {f : Nat} (K : Set (Fin f → ℝ)) (hK : IsCompact K) (g : (Fin f → ℝ) → ℝ) (hg : ContinuousOn g K) (ε : ℝ) (hε : 0 < ε) : ∃ h, Ramps h ∧ ∀ z ∈ K, |h z - g z| ≤ ε := by
  obtain ⟨h, ⟨n, c, w, e⟩, hd⟩ := expSum_dense K hK g hg (ε / 2) (by linarith)
  set S := ∑ i, |c i| with hS
  have hS0 : 0 ≤ S := Finset.sum_nonneg fun i _ => abs_nonneg _
  have hδ : 0 < ε / 2 / (S + 1) := by positivity
  have hr := fun i => ramps_ridge K hK Real.exp Real.continuous_exp (w i) _ hδ
  choose q hq hqe using hr
  refine ⟨_, ramps_sum c q hq, fun z hz => ?_⟩
  have h1 : |∑ i, c i * q i z - h z| ≤ ε / 2 := by
    rw [e z, ← Finset.sum_sub_distrib]
    refine (Finset.abs_sum_le_sum_abs _ _).trans ?_
    calc ∑ i, |c i * q i z - c i * Real.exp (∑ j, w i j * z j)| ≤ ∑ i, |c i| * (ε / 2 / (S + 1)) := by
          refine Finset.sum_le_sum fun i _ => ?_
          rw [← mul_sub, abs_mul]
          exact mul_le_mul_of_nonneg_left (hqe i z hz) (abs_nonneg _)
      _ = S * (ε / 2 / (S + 1)) := by rw [← Finset.sum_mul]
      _ ≤ (S + 1) * (ε / 2 / (S + 1)) := mul_le_mul_of_nonneg_right (by linarith) hδ.le
      _ = ε / 2 := mul_div_cancel₀ _ (by positivity)
  have h2 := (hd z hz).le
  have := abs_sub_le (∑ i, c i * q i z) (h z) (g z)
  linarith

/-- **C145 (universal approximation).** For every continuous function, of any number of features and with any number of outputs, on a compact set, and every error greater than zero there is a network with one hidden layer of rectifiers and
a last layer without activation whose predictions differ from the function by at most this error, everywhere on the set. -/
theorem C145_universal (f m : Nat) (K : Set (Fin f → ℝ)) (hK : IsCompact K) (g : Fin m → (Fin f → ℝ) → ℝ) (hg : ∀ r, ContinuousOn (g r) K) (ε : ℝ) (hε : 0 < ε) :
    ∃ L M : Layer, L.act = some (Act.fn .relu) ∧ M.out = m ∧ M.act = Option.none ∧
      ∀ x : Nat → ℝ, (fun j : Fin f => x j) ∈ K → ∃ y, predictNet draw drawB f [L, M] x = some y ∧ ∀ r : Fin m, |y r - g r fun j => x j| ≤ ε := by
  have hr := fun r => ramps_dense K hK (g r) (hg r) ε hε
  choose h hh he using hr
  choose n c w b d e using hh
  let ι := Σ r : Fin m, Fin (n r)
  let E : ι ≃ Fin (Fintype.card ι) := Fintype.equivFin ι
  let L : Layer := ⟨Fintype.card ι, fun k j => if hk : k < Fintype.card ι then if hj : j < f then w _ (E.symm ⟨k, hk⟩).2 ⟨j, hj⟩ else 0 else 0,
    some fun k => if hk : k < Fintype.card ι then b _ (E.symm ⟨k, hk⟩).2 else 0, some (Act.fn .relu)⟩
  let M : Layer := ⟨m, fun r k => if hk : k < Fintype.card ι then if (E.symm ⟨k, hk⟩).1.1 = r then c _ (E.symm ⟨k, hk⟩).2 else 0 else 0,
    some fun r => if hr : r < m then d ⟨r, hr⟩ else 0, Option.none⟩
  refine ⟨L, M, rfl, rfl, rfl, fun x hx => ?_⟩
  obtain ⟨y, h1, h2⟩ := predictNet_eq draw drawB f [L, M] x
  refine ⟨y, h1, fun r => ?_⟩
  rw [h2 r.1 r.2]
  have key : net f [L, M] x r.1 = h r fun j => x j := by
    have hL : ∀ k : Fin (Fintype.card ι), L.at f x k = max (∑ j, w _ (E.symm k).2 j * x j + b _ (E.symm k).2) 0 := fun k => by
      simp only [L, Layer.at, Layer.fn, Option.getD_some, Option.elim_some, Act.fn, dif_pos k.2]
      rw [Finset.sum_range]
      simp only [dif_pos (Fin.is_lt _), Fin.eta]
    have hM : net f [L, M] x r.1 = ∑ k ∈ Finset.range (Fintype.card ι), M.W r.1 k * L.at f x k + d r := by
      simp only [net]
      show ∑ k ∈ Finset.range (Fintype.card ι), M.W r.1 k * L.at f x k + (if hr : r.1 < m then d ⟨r.1, hr⟩ else 0) = _
      rw [dif_pos r.2]
    rw [hM, Finset.sum_range, e r, add_comm]
    congr 1
    simp only [hL]
    have hW : ∀ k : Fin (Fintype.card ι), M.W r.1 k = if (E.symm k).1 = r then c _ (E.symm k).2 else 0 := fun k => by
      simp only [M, dif_pos k.2, Fin.eta, Fin.val_inj]
    simp only [hW]
    rw [E.symm.sum_comp fun p : ι => (if p.1 = r then c _ p.2 else 0) * max (∑ j, w _ p.2 j * x j + b _ p.2) 0, Fintype.sum_sigma, Finset.sum_eq_single r]
    · simp
    · intro s _ hs
      simp [hs]
    · simp
  rw [key]
  exact he r _ hx

/-- The product of two features on the unit square. -/
example : ∃ L M : Layer, L.act = some (Act.fn .relu) ∧ M.out = 1 ∧ M.act = Option.none ∧
    ∀ x : Nat → ℝ, (fun j : Fin 2 => x j) ∈ Set.Icc (0 : Fin 2 → ℝ) 1 → ∃ y, predictNet draw drawB 2 [L, M] x = some y ∧ ∀ r : Fin 1, |y r - x 0 * x 1| ≤ 1 / 100 :=
  C145_universal draw drawB 2 1 (Set.Icc 0 1) isCompact_Icc (fun _ z => z 0 * z 1) (fun _ => by fun_prop) (1 / 100) (by norm_num)

end Verif.Props
