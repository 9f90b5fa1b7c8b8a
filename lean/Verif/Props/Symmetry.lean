import Verif.Spec.Symmetry
import Verif.Lemmas.HermTrain
import Verif.Props.TrainUnitsPmm

/-! # C127: trainings keep symmetries -/

namespace Verif.Props

open Verif.Batch Verif.Train Verif.Adam Verif.SymmetrySpec
open Verif.HermTrain hiding gradC
open Verif.TrainUnitsSpec (gradC)

variable {ι : Type} {α S K F : Type}

theorem twist_real (b : Bool) (r : ℝ) : twist b (r : ℂ) = r := by
  cases b <;> simp [twist]

theorem twist_twist (b : Bool) (z : ℂ) : twist b (twist b z) = z := by
  cases b <;> simp [twist]

theorem sign_one {σ : Symmetry ι} (i : ι) : σ.sign i = 1 ∨ σ.sign i = -1 := mul_self_eq_one_iff.1 (σ.unit i)

theorem sign_sq (σ : Symmetry ι) (i : ι) (z : ℂ) : (σ.sign i : ℂ) * ((σ.sign i : ℂ) * z) = z := by
  rw [← mul_assoc, ← Complex.ofReal_mul, σ.unit, Complex.ofReal_one, one_mul]

/-- **C127** The gradient of a loss that does not change under a symmetry, at an array that has the symmetry, has it too. Nothing else is
assumed of the loss. -/
theorem C127_gradient [DecidableEq ι] (σ : Symmetry ι) (L : (ι → ℂ) → ℝ) (hL : ∀ Q, L (act σ Q) = L Q) (P : ι → ℂ) (hP : act σ P = P) :
    act σ (gradC L P) = gradC L P := by
  have hb : ∀ (i : ι) (z : ℂ), L (Function.update P (σ.perm i) (P (σ.perm i) + z)) = L (Function.update P i (P i + σ.sign i * twist σ.conj z)) := fun i z => by
    rw [← hL (Function.update P (σ.perm i) (P (σ.perm i) + z))]
    congr 1
    funext k
    by_cases hk : k = i
    · subst hk
      have := congrFun hP k
      simp only [act] at this ⊢
      rw [Function.update_self, Function.update_self, map_add, mul_add, this]
    · have hk' : σ.perm k ≠ σ.perm i := fun h => hk (σ.perm.injective h)
      rw [Function.update_of_ne hk]
      simp only [act]
      rw [Function.update_of_ne hk']
      exact congrFun hP k
  have hd : ∀ (s : ℝ) (f : ℝ → ℝ), deriv (fun t => f (s * t)) 0 = s * deriv f 0 := fun s f => by
    rw [deriv_comp_mul_left, mul_zero, smul_eq_mul]
  funext i
  have h1 : deriv (fun t : ℝ => L (Function.update P (σ.perm i) (P (σ.perm i) + t))) 0 = σ.sign i * deriv (fun t : ℝ => L (Function.update P i (P i + t))) 0 := by
    rw [← hd]
    congr 1
    funext t
    rw [hb, twist_real]
    push_cast
    rfl
  have h2 : ∃ e : ℝ, (e = 1 ∧ σ.conj = false ∨ e = -1 ∧ σ.conj = true) ∧
      deriv (fun t : ℝ => L (Function.update P (σ.perm i) (P (σ.perm i) + t * Complex.I))) 0 =
        e * (σ.sign i * deriv (fun t : ℝ => L (Function.update P i (P i + t * Complex.I))) 0) := by
    cases hc : σ.conj with
    | false =>
      refine ⟨1, .inl ⟨rfl, rfl⟩, ?_⟩
      rw [one_mul, ← hd]
      congr 1
      funext t
      rw [hb, hc]
      simp [twist, mul_assoc]
    | true =>
      refine ⟨-1, .inr ⟨rfl, rfl⟩, ?_⟩
      rw [← hd, ← hd]
      congr 1
      funext t
      rw [hb, hc]
      have e : (σ.sign i : ℂ) * twist true (t * Complex.I) = ((σ.sign i * (-1 * t) : ℝ) : ℂ) * Complex.I := by
        simp only [twist, if_true, map_mul, Complex.conj_ofReal, Complex.conj_I]
        push_cast
        ring
      rw [e]
  obtain ⟨e, he, h2⟩ := h2
  simp only [act, gradC]
  rw [h1, h2]
  generalize deriv (fun t : ℝ => L (Function.update P i (P i + t))) 0 = A
  generalize deriv (fun t : ℝ => L (Function.update P i (P i + t * Complex.I))) 0 = B
  have hs : ((σ.sign i : ℝ) : ℂ) * (σ.sign i : ℝ) = 1 := by rw [← Complex.ofReal_mul, σ.unit, Complex.ofReal_one]
  rcases he with ⟨rfl, hc⟩ | ⟨rfl, hc⟩
  · rw [hc]
    simp only [twist, Bool.false_eq_true, if_false, RingHom.id_apply]
    push_cast
    linear_combination (A - Complex.I * B) * hs
  · rw [hc]
    simp only [twist, if_true, map_sub, map_mul, Complex.conj_ofReal, Complex.conj_I]
    push_cast
    linear_combination (A - Complex.I * B) * hs

theorem clipC_act {c : ℝ} (hc : 0 ≤ c) (σ : Symmetry ι) (i : ι) (z : ℂ) : clipC c (σ.sign i * twist σ.conj z) = σ.sign i * twist σ.conj (clipC c z) := by
  have hneg : ∀ z, clipC c (-z) = -clipC c z := fun z => by
    simp only [clipC, Complex.neg_re, Complex.neg_im, HermTrain.clipR_neg hc]
    push_cast
    ring
  have ht : clipC c (twist σ.conj z) = twist σ.conj (clipC c z) := by
    cases σ.conj with
    | false => simp [twist]
    | true => simp only [twist, if_true]; exact HermTrain.clipC_conj hc z
  rcases sign_one (σ := σ) i with h | h
  · rw [h]; simp [ht]
  · rw [h]
    push_cast
    rw [neg_one_mul, neg_one_mul, hneg, ht]

/-- **C127** A step of the optimiser with a gradient that has the symmetry keeps it. -/
theorem C127_step (lr : Nat → ℝ) (b1 b2 eps clip : ℝ) (hc : 0 ≤ clip) (h0 : 0 ≤ b2) (h1 : b2 < 1) (σ : Symmetry ι) (g : ι → ℂ) (hg : act σ g = g)
    (a : OptState (ι → ℂ)) (ha : HasSymmetry σ a) : HasSymmetry σ (updateC lr b1 b2 eps clip g a) := by
  have hgc : ∀ i, clipC clip (g i) = σ.sign i * twist σ.conj (clipC clip (g (σ.perm i))) := fun i => by
    rw [← clipC_act hc]
    exact congrArg _ (congrFun hg i).symm
  have hm : act σ (updateC lr b1 b2 eps clip g a).m = (updateC lr b1 b2 eps clip g a).m := by
    funext i
    have h := congrFun ha.m i
    simp only [act, updateC] at h ⊢
    rw [hgc i, ← h, map_add, map_mul, map_mul, map_sub, map_one, twist_real]
    ring
  have hr : ∀ i, ∃ r : ℝ, 0 ≤ r ∧ (updateC lr b1 b2 eps clip g a).v i = r := fun i => by
    obtain ⟨w, hw0, hw1⟩ := ha.real i
    refine ⟨b2 * w + (1 - b2) * Complex.normSq (clipC clip (g i)), ?_, ?_⟩
    · have := mul_nonneg (by linarith : 0 ≤ 1 - b2) (Complex.normSq_nonneg (clipC clip (g i)))
      have := mul_nonneg h0 hw0
      linarith
    · simp only [updateC, hw1, Complex.mul_conj]
      push_cast
      trivial
  have hv : ∀ i, (updateC lr b1 b2 eps clip g a).v (σ.perm i) = (updateC lr b1 b2 eps clip g a).v i := fun i => by
    simp only [updateC]
    rw [ha.v i, Complex.mul_conj, Complex.mul_conj, hgc i, Complex.normSq_mul, Complex.normSq_ofReal, σ.unit, one_mul]
    congr 3
    cases σ.conj <;> simp [twist]
  refine ⟨?_, hm, hv, hr⟩
  have e1 : ∀ j, (updateC lr b1 b2 eps clip g a).params j = a.params j - lr a.epoch *
      ((updateC lr b1 b2 eps clip g a).m j / (1 - (b1 : ℂ) ^ (a.epoch + 1))) /
      (((updateC lr b1 b2 eps clip g a).v j / (1 - (b2 : ℂ) ^ (a.epoch + 1))) ^ (1 / 2 : ℂ) + eps) := fun _ => rfl
  have hd : 0 ≤ 1 - b2 ^ (a.epoch + 1) := by
    have := pow_le_one₀ (n := a.epoch + 1) h0 h1.le
    linarith
  funext i
  have hp := congrFun ha.params i
  have hmi := congrFun hm i
  simp only [act] at hp hmi ⊢
  rw [e1, e1, hv i]
  obtain ⟨w, hw0, hw1⟩ := hr i
  have es : ((updateC lr b1 b2 eps clip g a).v i / (1 - (b2 : ℂ) ^ (a.epoch + 1))) ^ (1 / 2 : ℂ) + eps =
      ((((w / (1 - b2 ^ (a.epoch + 1)) : ℝ)) ^ (1 / 2 : ℝ) + eps : ℝ) : ℂ) := by
    rw [hw1]
    have e : (w : ℂ) / (1 - (b2 : ℂ) ^ (a.epoch + 1)) = ((w / (1 - b2 ^ (a.epoch + 1)) : ℝ) : ℂ) := by push_cast; rfl
    have e2 : (1 / 2 : ℂ) = ((1 / 2 : ℝ) : ℂ) := by push_cast; rfl
    rw [e, e2, ← Complex.ofReal_cpow (div_nonneg hw0 hd)]
    push_cast
    rfl
  have eb : (1 - (b1 : ℂ) ^ (a.epoch + 1)) = ((1 - b1 ^ (a.epoch + 1) : ℝ) : ℂ) := by push_cast; rfl
  rw [es, eb, map_sub, map_div₀, map_mul, map_div₀, twist_real, twist_real, twist_real, mul_sub, hp, ← hmi]
  ring

/-- **C127** A training keeps the symmetries of a complex array: if the loss does not change under the symmetry, an array that has it at the beginning has it
after any number of epochs and batches, in the last model and in the best one. -/
theorem C127_training [DecidableEq ι] (c : Cfg α (ι → ℂ) S K F) (j : Nat) (lr : Nat → ℝ) (b1 b2 eps clip : ℝ) (hc : 0 ≤ clip) (h0 : 0 ≤ b2) (h1 : b2 < 1)
    (hu : c.update = updateC lr b1 b2 eps clip) (σ : Symmetry ι) (L : Nat → Data α → S → K → List (ι → ℂ) → ℝ)
    (hL : ∀ e b st k (ps : List (ι → ℂ)) M, L e b st k (ps.set j (act σ M)) = L e b st k (ps.set j M))
    (hg : ∀ e b st k (ps : List (ι → ℂ)) M, ps[j]? = some M → ∀ g, (c.grad e b st k ps).1[(c.flags.take j).count true]? = some g →
      g = gradC (fun Q => L e b st k (ps.set j Q)) M)
    (hcb : ∀ k e (ps : List (ι → ℂ)), (c.callback k e ps).2[j]? = ps[j]?) (k : K) (adam : List (OptState (ι → ℂ))) (st : S) (rng : K)
    (t : TState (ι → ℂ) S K F) (hl : c.flags.length = adam.length) (h : run c k adam st rng = .ok t) (a : OptState (ι → ℂ)) (ha : adam[j]? = some a)
    (hs : HasSymmetry σ a) :
    (∃ x, t.inner.adam[j]? = some x ∧ HasSymmetry σ x) ∧ ∃ x, t.best.inner.adam[j]? = some x ∧ HasSymmetry σ x := by
  refine run_kept ⟨?_, fun a n h => ⟨h.params, h.m, h.v, h.real⟩, hcb⟩ hl h ⟨a, ha, hs⟩
  intro epoch b i x g hx _ hI hd
  have hp : (i.adam.map (·.params))[j]? = some x.params := by rw [List.getElem?_map, hx]; rfl
  rw [hg _ _ _ _ _ _ hp g hd, hu]
  exact C127_step lr b1 b2 eps clip hc h0 h1 σ _ (C127_gradient σ _ (fun Q => hL _ _ _ _ _ Q) _ hI.params) x hI

/-- **C127** New optimiser states have the symmetries of the array. -/
theorem C127_fresh (σ : Symmetry ι) (M : ι → ℂ) (hM : act σ M = M) : HasSymmetry σ (initC M) :=
  ⟨hM, by funext i; simp [act, initC], fun _ => rfl, fun _ => ⟨0, le_rfl, by simp [initC]⟩⟩

end Verif.Props
