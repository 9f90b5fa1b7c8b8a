import Verif.Props.Adam
import Verif.Props.Schedule
import Verif.Lemmas.TrainRun

/-! # C123: how far training steps can move a parameter -/

namespace Verif.Props

open Verif.Batch Verif.BatchSpec Verif.Train Verif.TrainSpec Verif.Adam

variable {ι : Type} {α P S K F : Type}

/-- The averages of an optimiser state of a real array fit together: the average of the gradients is not large where the average of their
squares is small. -/
def BalancedR (b1 b2 : ℝ) (s : OptState (ι → ℝ)) : Prop :=
  ∀ j, 0 ≤ s.v j ∧ (b2 - b1 ^ 2) * (1 - b2) * |s.m j| ^ 2 ≤ b2 * (1 - b1) ^ 2 * s.v j

/-- The same of a complex array. -/
def BalancedC (b1 b2 : ℝ) (s : OptState (ι → ℂ)) : Prop :=
  ∀ j, ∃ r : ℝ, 0 ≤ r ∧ s.v j = r ∧ (b2 - b1 ^ 2) * (1 - b2) * ‖s.m j‖ ^ 2 ≤ b2 * (1 - b1) ^ 2 * r

/-- How far a step can go, in units of the learning rate. -/
noncomputable def reach (b1 b2 : ℝ) : ℝ := Real.sqrt (b2 / ((b2 - b1 ^ 2) * (1 - b2)))

/-- How far a step can go when the counter is `e`, in units of the learning rate. -/
noncomputable def reachAt (b1 b2 : ℝ) (e : Nat) : ℝ :=
  (1 - b1) / (1 - b1 ^ (e + 1)) * Real.sqrt (b2 * (1 - b2 ^ (e + 1)) / ((b2 - b1 ^ 2) * (1 - b2)))

theorem balance_step {b1 b2 m g v : ℝ} (h1 : 0 ≤ b1) (h1' : b1 < 1) (h12 : b1 ^ 2 < b2) (h2 : b2 < 1) (hm : 0 ≤ m) (hg : 0 ≤ g)
    (h : (b2 - b1 ^ 2) * (1 - b2) * m ^ 2 ≤ b2 * (1 - b1) ^ 2 * v) {x : ℝ} (hx : 0 ≤ x) (hxm : x ≤ b1 * m + (1 - b1) * g) :
    (b2 - b1 ^ 2) * (1 - b2) * x ^ 2 ≤ b2 * (1 - b1) ^ 2 * (b2 * v + (1 - b2) * g ^ 2) := by
  have hb2 : 0 < b2 := lt_of_le_of_lt (sq_nonneg b1) h12
  have hx2 : x ^ 2 ≤ (b1 * m + (1 - b1) * g) ^ 2 := pow_le_pow_left₀ hx hxm 2
  have hk : 0 ≤ (b2 - b1 ^ 2) * (1 - b2) := mul_nonneg (by linarith) (by linarith)
  have e1 := mul_le_mul_of_nonneg_left hx2 hk
  have e2 := mul_le_mul_of_nonneg_left h hb2.le
  have e3 : 0 ≤ (1 - b2) * ((b2 - b1 ^ 2) * m - b1 * (1 - b1) * g) ^ 2 := mul_nonneg (by linarith) (sq_nonneg _)
  nlinarith [e1, e2, e3]

theorem pow_succ_le_self {b : ℝ} (h : 0 ≤ b) (h' : b ≤ 1) (e : Nat) : b ^ (e + 1) ≤ b := by
  rw [pow_succ]
  exact mul_le_of_le_one_left h (pow_le_one₀ h h')

theorem step_reach {b1 b2 m v eps : ℝ} (h1 : 0 ≤ b1) (h1' : b1 < 1) (h12 : b1 ^ 2 < b2) (h2 : b2 < 1) (he : 0 ≤ eps) (hm : 0 ≤ m) (hv : 0 ≤ v)
    (h : (b2 - b1 ^ 2) * (1 - b2) * m ^ 2 ≤ b2 * (1 - b1) ^ 2 * v) (e : Nat) :
    m / (1 - b1 ^ (e + 1)) / (Real.sqrt (v / (1 - b2 ^ (e + 1))) + eps) ≤ reachAt b1 b2 e := by
  have hb2 : 0 < b2 := lt_of_le_of_lt (sq_nonneg b1) h12
  have hk : 0 < (b2 - b1 ^ 2) * (1 - b2) := mul_pos (by linarith) (by linarith)
  have hp : 0 < 1 - b1 ^ (e + 1) := by linarith [pow_succ_le_self h1 h1'.le e]
  have hq : 0 < 1 - b2 ^ (e + 1) := by linarith [pow_succ_le_self hb2.le h2.le e]
  have hw : 0 ≤ v / (1 - b2 ^ (e + 1)) := div_nonneg hv hq.le
  set w := v / (1 - b2 ^ (e + 1)) with hwd
  have hvw : v = w * (1 - b2 ^ (e + 1)) := by rw [hwd]; field_simp
  have hmb : m ≤ (1 - b1) * Real.sqrt (b2 * (1 - b2 ^ (e + 1)) / ((b2 - b1 ^ 2) * (1 - b2))) * Real.sqrt w := by
    rw [mul_assoc, ← Real.sqrt_mul (div_nonneg (mul_nonneg hb2.le hq.le) hk.le)]
    have hs : 0 ≤ (1 - b1) * Real.sqrt (b2 * (1 - b2 ^ (e + 1)) / ((b2 - b1 ^ 2) * (1 - b2)) * w) :=
      mul_nonneg (by linarith) (Real.sqrt_nonneg _)
    refine le_of_sq_le_sq ?_ hs
    rw [mul_pow, Real.sq_sqrt (mul_nonneg (div_nonneg (mul_nonneg hb2.le hq.le) hk.le) hw)]
    rw [hvw] at h
    have : (1 - b1) ^ 2 * (b2 * (1 - b2 ^ (e + 1)) / ((b2 - b1 ^ 2) * (1 - b2)) * w) =
        b2 * (1 - b1) ^ 2 * (w * (1 - b2 ^ (e + 1))) / ((b2 - b1 ^ 2) * (1 - b2)) := by field_simp
    rw [this, le_div_iff₀ hk]
    linarith
  have hr : 0 ≤ reachAt b1 b2 e := mul_nonneg (div_nonneg (by linarith) hp.le) (Real.sqrt_nonneg _)
  refine div_le_of_le_mul₀ (add_nonneg (Real.sqrt_nonneg _) he) hr ?_
  rw [div_le_iff₀ hp]
  have e1 : reachAt b1 b2 e * (Real.sqrt w + eps) * (1 - b1 ^ (e + 1)) =
      (1 - b1) * Real.sqrt (b2 * (1 - b2 ^ (e + 1)) / ((b2 - b1 ^ 2) * (1 - b2))) * Real.sqrt w +
      reachAt b1 b2 e * eps * (1 - b1 ^ (e + 1)) := by
    unfold reachAt
    field_simp
  rw [e1]
  have := mul_nonneg (mul_nonneg hr he) hp.le
  linarith

theorem reachAt_nonneg {b1 b2 : ℝ} (h1 : 0 ≤ b1) (h1' : b1 < 1) (e : Nat) : 0 ≤ reachAt b1 b2 e :=
  mul_nonneg (div_nonneg (by linarith) (by linarith [pow_succ_le_self h1 h1'.le e])) (Real.sqrt_nonneg _)

theorem reachAt_le {b1 b2 : ℝ} (h1 : 0 ≤ b1) (h1' : b1 < 1) (h12 : b1 ^ 2 < b2) (h2 : b2 < 1) (e : Nat) : reachAt b1 b2 e ≤ reach b1 b2 := by
  have hb2 : 0 < b2 := lt_of_le_of_lt (sq_nonneg b1) h12
  have hk : 0 < (b2 - b1 ^ 2) * (1 - b2) := mul_pos (by linarith) (by linarith)
  have hp : 0 < 1 - b1 ^ (e + 1) := by linarith [pow_succ_le_self h1 h1'.le e]
  have a : (1 - b1) / (1 - b1 ^ (e + 1)) ≤ 1 := by
    rw [div_le_one hp]; linarith [pow_succ_le_self h1 h1'.le e]
  have b : Real.sqrt (b2 * (1 - b2 ^ (e + 1)) / ((b2 - b1 ^ 2) * (1 - b2))) ≤ reach b1 b2 := by
    refine Real.sqrt_le_sqrt (div_le_div_of_nonneg_right ?_ hk.le)
    have := pow_nonneg hb2.le (e + 1)
    nlinarith
  exact (mul_le_of_le_one_left (Real.sqrt_nonneg _) a).trans b

/-- **C123** A step of the real optimiser moves every entry of a parameter by at most the learning rate times a number that depends only on
`b1`, `b2` and the counter - not on the gradients, not on `clip` and not on `eps`; and it leaves a state of which the same holds. -/
theorem C123_step_real (lr : Nat → ℝ) (b1 b2 eps clip : ℝ) (h1 : 0 ≤ b1) (h1' : b1 < 1) (h12 : b1 ^ 2 < b2) (h2 : b2 < 1) (he : 0 ≤ eps)
    (g : ι → ℝ) (s : OptState (ι → ℝ)) (hs : BalancedR b1 b2 s) :
    BalancedR b1 b2 (update lr b1 b2 eps clip g s) ∧
    ∀ j, |(update lr b1 b2 eps clip g s).params j - s.params j| ≤ |lr s.epoch| * reachAt b1 b2 s.epoch := by
  have hb2 : 0 < b2 := lt_of_le_of_lt (sq_nonneg b1) h12
  have hb : BalancedR b1 b2 (update lr b1 b2 eps clip g s) := fun j => by
    refine ⟨add_nonneg (mul_nonneg hb2.le (hs j).1) (mul_nonneg (by linarith) (sq_nonneg _)), ?_⟩
    simp only [update]
    rw [← sq_abs (clipR clip (g j))]
    refine balance_step h1 h1' h12 h2 (abs_nonneg _) (abs_nonneg _) (hs j).2 (abs_nonneg _) ?_
    refine (abs_add_le _ _).trans ?_
    rw [abs_mul, abs_mul, abs_of_nonneg h1, abs_of_pos (by linarith : 0 < 1 - b1)]
  refine ⟨hb, fun j => ?_⟩
  have hp : 0 < 1 - b1 ^ (s.epoch + 1) := by linarith [pow_succ_le_self h1 h1'.le s.epoch]
  have := step_reach (eps := eps) h1 h1' h12 h2 he (abs_nonneg _) (hb j).1 (hb j).2 s.epoch
  simp only [update] at this ⊢
  rw [sub_sub_cancel_left, abs_neg, mul_div_assoc, abs_mul]
  refine mul_le_mul_of_nonneg_left ?_ (abs_nonneg _)
  rw [abs_div, abs_div, abs_of_pos hp, abs_of_nonneg (add_nonneg (Real.sqrt_nonneg _) he)]
  exact this

/-- **C123** The same for a step of the complex optimiser. -/
theorem C123_step_complex (lr : Nat → ℝ) (b1 b2 eps clip : ℝ) (h1 : 0 ≤ b1) (h1' : b1 < 1) (h12 : b1 ^ 2 < b2) (h2 : b2 < 1) (he : 0 ≤ eps)
    (g : ι → ℂ) (s : OptState (ι → ℂ)) (hs : BalancedC b1 b2 s) :
    BalancedC b1 b2 (updateC lr b1 b2 eps clip g s) ∧
    ∀ j, ‖(updateC lr b1 b2 eps clip g s).params j - s.params j‖ ≤ |lr s.epoch| * reachAt b1 b2 s.epoch := by
  have hb2 : 0 < b2 := lt_of_le_of_lt (sq_nonneg b1) h12
  have key : ∀ j, ∃ r : ℝ, 0 ≤ r ∧ (updateC lr b1 b2 eps clip g s).v j = r ∧
      (b2 - b1 ^ 2) * (1 - b2) * ‖(updateC lr b1 b2 eps clip g s).m j‖ ^ 2 ≤ b2 * (1 - b1) ^ 2 * r := fun j => by
    obtain ⟨r, hr, hv, hbal⟩ := hs j
    refine ⟨b2 * r + (1 - b2) * ‖clipC clip (g j)‖ ^ 2, add_nonneg (mul_nonneg hb2.le hr) (mul_nonneg (by linarith) (sq_nonneg _)), ?_, ?_⟩
    · simp only [updateC]
      rw [hv, Complex.mul_conj, Complex.normSq_eq_norm_sq]
      push_cast
      rfl
    · simp only [updateC]
      refine balance_step h1 h1' h12 h2 (norm_nonneg _) (norm_nonneg _) hbal (norm_nonneg _) ?_
      refine (norm_add_le _ _).trans ?_
      have : (1 - (b1 : ℂ)) = ((1 - b1 : ℝ) : ℂ) := by push_cast; rfl
      rw [norm_mul, norm_mul, this, Complex.norm_of_nonneg h1, Complex.norm_of_nonneg (by linarith : 0 ≤ 1 - b1)]
  refine ⟨key, fun j => ?_⟩
  have hp : 0 < 1 - b1 ^ (s.epoch + 1) := by linarith [pow_succ_le_self h1 h1'.le s.epoch]
  have hq : 0 < 1 - b2 ^ (s.epoch + 1) := by linarith [pow_succ_le_self hb2.le h2.le s.epoch]
  obtain ⟨r, hr, hv, hbal⟩ := key j
  have := step_reach (eps := eps) h1 h1' h12 h2 he (norm_nonneg _) hr hbal s.epoch
  have hsq : ((updateC lr b1 b2 eps clip g s).v j / (1 - (b2 : ℂ) ^ (s.epoch + 1))) ^ (1 / 2 : ℂ) =
      ((Real.sqrt (r / (1 - b2 ^ (s.epoch + 1))) : ℝ) : ℂ) := by
    rw [hv]
    have : (r : ℂ) / (1 - (b2 : ℂ) ^ (s.epoch + 1)) = ((r / (1 - b2 ^ (s.epoch + 1)) : ℝ) : ℂ) := by push_cast; rfl
    rw [this, Real.sqrt_eq_rpow, Complex.ofReal_cpow (div_nonneg hr hq.le)]
    push_cast
    rfl
  have hd : (updateC lr b1 b2 eps clip g s).params j - s.params j = -((lr s.epoch : ℂ) * ((updateC lr b1 b2 eps clip g s).m j /
      ((1 - b1 ^ (s.epoch + 1) : ℝ) : ℂ) / ((Real.sqrt (r / (1 - b2 ^ (s.epoch + 1))) + eps : ℝ) : ℂ))) := by
    have e0 : (updateC lr b1 b2 eps clip g s).params j = s.params j - lr s.epoch * ((updateC lr b1 b2 eps clip g s).m j /
      (1 - (b1 : ℂ) ^ (s.epoch + 1))) / (((updateC lr b1 b2 eps clip g s).v j / (1 - (b2 : ℂ) ^ (s.epoch + 1))) ^ (1 / 2 : ℂ) + eps) := rfl
    rw [e0, hsq]
    push_cast
    ring
  rw [hd, norm_neg, norm_mul, Complex.norm_real, Real.norm_eq_abs]
  refine mul_le_mul_of_nonneg_left ?_ (abs_nonneg _)
  rw [norm_div, norm_div, Complex.norm_of_nonneg hp.le, Complex.norm_of_nonneg (add_nonneg (Real.sqrt_nonneg _) he)]
  exact this

/-- **C123** New optimiser states qualify, and so do all that an optimiser reaches from them. -/
theorem C123_reachable (lr : Nat → ℝ) (b1 b2 eps clip : ℝ) (h1 : 0 ≤ b1) (h1' : b1 < 1) (h12 : b1 ^ 2 < b2) (h2 : b2 < 1) (he : 0 ≤ eps) :
    (∀ (x0 : ι → ℝ) (gs : List (ι → ℝ)), BalancedR b1 b2 (updates (update lr b1 b2 eps clip) gs (Adam.init x0)) ∧
      BalancedR b1 b2 (updates (updateRinC lr b1 b2 eps clip) gs (Adam.init x0))) ∧
    ∀ (x0 : ι → ℂ) (gs : List (ι → ℂ)), BalancedC b1 b2 (updates (updateC lr b1 b2 eps clip) gs (initC x0)) := by
  have i0 : ∀ x0 : ι → ℝ, BalancedR b1 b2 (Adam.init x0) := fun x0 j => by simp [Adam.init]
  have go : ∀ {A : Type} (u : A → OptState A → OptState A) (I : OptState A → Prop), (∀ g s, I s → I (u g s)) → ∀ (gs : List A) s, I s → I (updates u gs s) := by
    intro A u I h gs
    induction gs with
    | nil => intro s hs; exact hs
    | cons g gs ih => intro s hs; exact ih _ (h g s hs)
  refine ⟨fun x0 gs => ⟨?_, ?_⟩, fun x0 gs => ?_⟩
  · exact go _ _ (fun g s hs => (C123_step_real lr b1 b2 eps clip h1 h1' h12 h2 he g s hs).1) gs _ (i0 x0)
  · exact go (updateRinC lr b1 b2 eps clip) _ (fun g s hs j => (C123_step_real lr b1 b2 eps clip h1 h1' h12 h2 he g s hs).1 j) gs _ (i0 x0)
  · exact go _ _ (fun g s hs => (C123_step_complex lr b1 b2 eps clip h1 h1' h12 h2 he g s hs).1) gs _
      (fun j => ⟨0, le_rfl, by simp [initC], by simp [initC]⟩)

/-! ### Whole trainings -/

/-- Every parameter of `bs` is within `r` of the one of `as`, as measured by `d`, and fulfils `I`. -/
def Near (I : OptState P → Prop) (d : P → P → ℝ) (r : ℝ) (as bs : List (OptState P)) : Prop :=
  bs.length = as.length ∧ ∀ (k : Nat) (a b : OptState P), as[k]? = some a → bs[k]? = some b → I b ∧ d b.params a.params ≤ r

theorem near_trans {I : OptState P → Prop} {d : P → P → ℝ} (tri : ∀ x y z, d x z ≤ d x y + d y z) {r q : ℝ} {as bs cs : List (OptState P)}
    (h : Near I d r as bs) (h' : Near I d q bs cs) : Near I d (r + q) as cs := by
  refine ⟨h'.1.trans h.1, fun k a c ha hc => ?_⟩
  have hk : k < bs.length := by rw [h.1]; exact (List.getElem?_eq_some_iff.1 ha).1
  have hb : bs[k]? = some bs[k] := List.getElem?_eq_getElem hk
  have := (h.2 k a _ ha hb).2
  have h3 := h'.2 k _ c hb hc
  exact ⟨h3.1, by linarith [tri c.params bs[k].params a.params]⟩

theorem near_steps {c : Cfg α P S K F} {I : OptState P → Prop} {d : P → P → ℝ} (d0 : ∀ x, d x x = 0) (tri : ∀ x y z, d x z ≤ d x y + d y z) {B : ℝ}
    (hB : 0 ≤ B) (hu : ∀ g a, I a → I (c.update g a) ∧ d (c.update g a).params a.params ≤ B) {epoch : Nat} {bs : List (Data α)} {i i' : Inner P S K}
    (hl : c.flags.length = i.adam.length) (hI : ∀ a ∈ i.adam, I a) (h : Steps c epoch bs i i') : Near I d (bs.length * B) i.adam i'.adam := by
  induction h with
  | nil i =>
    refine ⟨rfl, fun k a b ha hb => ?_⟩
    rw [ha] at hb
    cases hb
    exact ⟨hI _ (List.mem_of_getElem? ha), by simp [d0]⟩
  | @cons b bs i i' adam ha _ ih =>
    obtain ⟨l1, l2⟩ := applyGrads_inv hl ha
    have n1 : Near I d B i.adam adam := by
      refine ⟨l1, fun k a b hk hb => ?_⟩
      obtain ⟨f, t⟩ := l2 k a hk
      have hIa := hI a (List.mem_of_getElem? hk)
      have hkl : k < c.flags.length := by rw [hl]; exact (List.getElem?_eq_some_iff.1 hk).1
      cases hf : c.flags[k] with
      | false =>
        rw [f (by rw [List.getElem?_eq_getElem hkl, hf])] at hb
        cases hb
        exact ⟨hIa, by rw [d0]; exact hB⟩
      | true =>
        obtain ⟨g, -, hg⟩ := t (by rw [List.getElem?_eq_getElem hkl, hf])
        rw [hg] at hb
        cases hb
        exact hu g a hIa
    have hI' : ∀ a ∈ adam, I a := fun a ha' => by
      obtain ⟨k, hk⟩ := List.mem_iff_getElem?.1 ha'
      have hkl : k < i.adam.length := by rw [← l1]; exact (List.getElem?_eq_some_iff.1 hk).1
      exact (n1.2 k _ a (List.getElem?_eq_getElem hkl) hk).1
    have := near_trans tri n1 (ih (by simp [l1, hl]) hI')
    have e : B + bs.length * B = ((b :: bs).length : ℝ) * B := by push_cast [List.length_cons]; ring
    rw [← e]
    exact this

theorem near_mono {I : OptState P → Prop} {d : P → P → ℝ} {r q : ℝ} (hrq : r ≤ q) {as bs : List (OptState P)} (h : Near I d r as bs) : Near I d q as bs :=
  ⟨h.1, fun k a b ha hb => ⟨(h.2 k a b ha hb).1, (h.2 k a b ha hb).2.trans hrq⟩⟩

theorem near_inv {I : OptState P → Prop} {d : P → P → ℝ} {r : ℝ} {as bs : List (OptState P)} (h : Near I d r as bs) : ∀ b ∈ bs, I b := fun b hb => by
  obtain ⟨k, hk⟩ := List.mem_iff_getElem?.1 hb
  have hkl : k < as.length := by rw [← h.1]; exact (List.getElem?_eq_some_iff.1 hk).1
  exact (h.2 k _ b (List.getElem?_eq_getElem hkl) hk).1

theorem near_history {c : Cfg α P S K F} {I : OptState P → Prop} {d : P → P → ℝ} (d0 : ∀ x, d x x = 0) (tri : ∀ x y z, d x z ≤ d x y + d y z) {B : ℝ}
    (hB : 0 ≤ B) (hu : ∀ g a, I a → I (c.update g a) ∧ d (c.update g a).params a.params ≤ B) (hI : ∀ (a : OptState P) (e : Nat), I a → I { a with epoch := e })
    (hcb : ∀ k e ps, (c.callback k e ps).2 = ps) {n : Nat} (hperm : ∀ k n, (c.perm k n).Perm (List.range n)) (hd : DataUniform n c.train)
    (hs : 0 < c.batchSize) (as : List (OptState P)) (hl : c.flags.length = as.length) {s t : TState P S K F} {l : List (Snap P S K F)}
    (h : History c s l t) {N : Nat} (hN : N = n / c.batchSize + if n % c.batchSize > 0 then 1 else 0)
    (h0 : Near I d ((s.epoch * N : Nat) * B) as s.inner.adam) (h0' : Near I d (((s.best.epoch + 1) * N : Nat) * B) as s.best.inner.adam) :
    Near I d ((t.epoch * N : Nat) * B) as t.inner.adam ∧ Near I d (((t.best.epoch + 1) * N : Nat) * B) as t.best.inner.adam := by
  induction h with
  | stop _ => exact ⟨h0, h0'⟩
  | @epoch s k snap s' l t _ ht hf _ ih =>
    obtain ⟨bs, hb, hst, hep, -⟩ := epochTrain_inv ht
    have hlen : bs.length = N := by
      rw [batches_ok (shuffle_uniform hperm c.splitN _ hd) hs] at hb
      cases hb
      rw [hN, cuts]
      split <;> simp
    have hl' : c.flags.length = s.inner.adam.length := by rw [hl, h0.1]
    have n1 := near_trans tri h0 (near_steps d0 tri hB hu hl' (near_inv h0) hst)
    have e1 : ((s.epoch * N : Nat) : ℝ) * B + bs.length * B = (((s.epoch + 1) * N : Nat) : ℝ) * B := by rw [hlen]; push_cast; ring
    rw [e1] at n1
    obtain ⟨hc1, hc2⟩ := epochFinish_inv hf
    refine ih ?_ ?_
    · rw [hc2]
      refine ⟨?_, fun k a b ha hb => ?_⟩
      · simp only [List.length_zipWith, hcb, List.length_map]
        rw [n1.1, hl]
        simp
      · simp only [hcb, List.getElem?_zipWith, List.getElem?_map] at hb
        have hkl : k < snap.inner.adam.length := by rw [n1.1]; exact (List.getElem?_eq_some_iff.1 ha).1
        have hkf : k < c.flags.length := by rw [hl]; exact (List.getElem?_eq_some_iff.1 ha).1
        rw [List.getElem?_eq_getElem hkl, List.getElem?_eq_getElem hkf] at hb
        simp only [Option.map_some, Option.some.injEq] at hb
        have := n1.2 k a _ ha (List.getElem?_eq_getElem hkl)
        rw [← hb]
        exact ⟨hI _ _ this.1, this.2⟩
    · rw [hc2]
      simp only
      split
      · rw [hep]; exact n1
      · exact h0'

theorem near_run {c : Cfg α P S K F} {I : OptState P → Prop} {d : P → P → ℝ} (d0 : ∀ x, d x x = 0) (tri : ∀ x y z, d x z ≤ d x y + d y z) {B : ℝ}
    (hB : 0 ≤ B) (hu : ∀ g a, I a → I (c.update g a) ∧ d (c.update g a).params a.params ≤ B) (hI : ∀ (a : OptState P) (e : Nat), I a → I { a with epoch := e })
    (hcb : ∀ k e ps, (c.callback k e ps).2 = ps) {n : Nat} (hperm : ∀ k n, (c.perm k n).Perm (List.range n)) (hd : DataUniform n c.train)
    (hs : 0 < c.batchSize) {as : List (OptState P)} (hl : c.flags.length = as.length) (has : ∀ a ∈ as, I a) {k : K} {st : S} {rng : K} {t : TState P S K F}
    (h : run c k as st rng = .ok t) {N : Nat} (hN : N = n / c.batchSize + if n % c.batchSize > 0 then 1 else 0) :
    Near I d ((t.epoch * N : Nat) * B) as t.inner.adam ∧ Near I d (((t.best.epoch + 1) * N : Nat) * B) as t.best.inner.adam := by
  obtain ⟨s, l, hi, hh⟩ := run_inv h
  obtain ⟨i1, i2, i3, -⟩ := initial_inv hi
  have n0 : ∀ r : ℝ, 0 ≤ r → Near I d r as as := fun r hr => by
    refine ⟨rfl, fun k a b ha hb => ?_⟩
    rw [ha] at hb
    cases hb
    exact ⟨has _ (List.mem_of_getElem? ha), by rw [d0]; exact hr⟩
  refine near_history d0 tri hB hu hI hcb hperm hd hs as hl hh hN ?_ ?_
  · rw [i2]; exact n0 _ (mul_nonneg (Nat.cast_nonneg _) hB)
  · rw [i3, i2]; exact n0 _ (mul_nonneg (Nat.cast_nonneg _) hB)

/-- How many batches of at most `size` samples `n` samples make. -/
def batchCount (n size : Nat) : Nat := n / size + if n % size > 0 then 1 else 0

/-- **C123** A training of real parameters with learning rates up to `L` moves no entry of a parameter farther than `L` times the number of its
steps times `reach b1 b2`, whatever the data, the loss and the gradients are. The number of steps is the number of batches per epoch times the
number of epochs; for the parameters that are kept, of the epochs up to the one they are from. -/
theorem C123_training_real (c : Cfg α (ι → ℝ) S K F) (lr : Nat → ℝ) (b1 b2 eps clip L : ℝ) (h1 : 0 ≤ b1) (h1' : b1 < 1) (h12 : b1 ^ 2 < b2) (h2 : b2 < 1)
    (he : 0 ≤ eps) (hlr : ∀ e, |lr e| ≤ L) (hu : c.update = update lr b1 b2 eps clip ∨ c.update = updateRinC lr b1 b2 eps clip)
    (hcb : ∀ k e ps, (c.callback k e ps).2 = ps) (n : Nat) (hperm : ∀ k n, (c.perm k n).Perm (List.range n)) (hd : DataUniform n c.train)
    (hs : 0 < c.batchSize) (adam : List (OptState (ι → ℝ))) (hl : c.flags.length = adam.length) (hb : ∀ a ∈ adam, BalancedR b1 b2 a) (k : K) (st : S) (rng : K)
    (t : TState (ι → ℝ) S K F) (h : run c k adam st rng = .ok t) (i : Nat) (a : OptState (ι → ℝ)) (ha : adam[i]? = some a) (j : ι) :
    (∃ x, t.inner.adam[i]? = some x ∧ |x.params j - a.params j| ≤ ((t.epoch * batchCount n c.batchSize : Nat) : ℝ) * (L * reach b1 b2)) ∧
    ∃ x, t.best.inner.adam[i]? = some x ∧ |x.params j - a.params j| ≤ (((t.best.epoch + 1) * batchCount n c.batchSize : Nat) : ℝ) * (L * reach b1 b2) := by
  have hL : 0 ≤ L := (abs_nonneg _).trans (hlr 0)
  have hone : ∀ (g : ι → ℝ) (a : OptState (ι → ℝ)), BalancedR b1 b2 a → BalancedR b1 b2 (update lr b1 b2 eps clip g a) ∧
      |(update lr b1 b2 eps clip g a).params j - a.params j| ≤ L * reach b1 b2 := fun g a hba => by
    obtain ⟨q1, q2⟩ := C123_step_real lr b1 b2 eps clip h1 h1' h12 h2 he g a hba
    exact ⟨q1, (q2 j).trans (mul_le_mul (hlr _) (reachAt_le h1 h1' h12 h2 _) (reachAt_nonneg h1 h1' _) hL)⟩
  have key := near_run (c := c) (I := BalancedR b1 b2) (d := fun x y => |x j - y j|) (fun x => by simp) (fun x y z => abs_sub_le _ _ _)
    (B := L * reach b1 b2) (mul_nonneg hL (Real.sqrt_nonneg _)) (fun g a hba => by
      rcases hu with hu | hu
      · rw [hu]; exact hone g a hba
      · rw [hu]; exact hone g a hba) (fun a e hba => hba) hcb hperm hd hs hl hb h (N := batchCount n c.batchSize) rfl
  have hi : i < adam.length := (List.getElem?_eq_some_iff.1 ha).1
  exact ⟨⟨_, List.getElem?_eq_getElem (by rw [key.1.1]; exact hi), (key.1.2 i a _ ha (List.getElem?_eq_getElem _)).2⟩,
    ⟨_, List.getElem?_eq_getElem (by rw [key.2.1]; exact hi), (key.2.2 i a _ ha (List.getElem?_eq_getElem _)).2⟩⟩

/-- **C123** The same for a training of complex parameters. -/
theorem C123_training_complex (c : Cfg α (ι → ℂ) S K F) (lr : Nat → ℝ) (b1 b2 eps clip L : ℝ) (h1 : 0 ≤ b1) (h1' : b1 < 1) (h12 : b1 ^ 2 < b2) (h2 : b2 < 1)
    (he : 0 ≤ eps) (hlr : ∀ e, |lr e| ≤ L) (hu : c.update = updateC lr b1 b2 eps clip)
    (hcb : ∀ k e ps, (c.callback k e ps).2 = ps) (n : Nat) (hperm : ∀ k n, (c.perm k n).Perm (List.range n)) (hd : DataUniform n c.train)
    (hs : 0 < c.batchSize) (adam : List (OptState (ι → ℂ))) (hl : c.flags.length = adam.length) (hb : ∀ a ∈ adam, BalancedC b1 b2 a) (k : K) (st : S) (rng : K)
    (t : TState (ι → ℂ) S K F) (h : run c k adam st rng = .ok t) (i : Nat) (a : OptState (ι → ℂ)) (ha : adam[i]? = some a) (j : ι) :
    (∃ x, t.inner.adam[i]? = some x ∧ ‖x.params j - a.params j‖ ≤ ((t.epoch * batchCount n c.batchSize : Nat) : ℝ) * (L * reach b1 b2)) ∧
    ∃ x, t.best.inner.adam[i]? = some x ∧ ‖x.params j - a.params j‖ ≤ (((t.best.epoch + 1) * batchCount n c.batchSize : Nat) : ℝ) * (L * reach b1 b2) := by
  have hL : 0 ≤ L := (abs_nonneg _).trans (hlr 0)
  have key := near_run (c := c) (I := BalancedC b1 b2) (d := fun x y => ‖x j - y j‖) (fun x => by simp) (fun x y z => norm_sub_le_norm_sub_add_norm_sub _ _ _)
    (mul_nonneg hL (Real.sqrt_nonneg _)) (fun g a hba => by
      rw [hu]
      obtain ⟨q1, q2⟩ := C123_step_complex lr b1 b2 eps clip h1 h1' h12 h2 he g a hba
      exact ⟨q1, (q2 j).trans (mul_le_mul (hlr _) (reachAt_le h1 h1' h12 h2 _) (reachAt_nonneg h1 h1' _) hL)⟩)
    (fun a e hba => hba) hcb hperm hd hs hl hb h (N := batchCount n c.batchSize) rfl
  have hi : i < adam.length := (List.getElem?_eq_some_iff.1 ha).1
  exact ⟨⟨_, List.getElem?_eq_getElem (by rw [key.1.1]; exact hi), (key.1.2 i a _ ha (List.getElem?_eq_getElem _)).2⟩,
    ⟨_, List.getElem?_eq_getElem (by rw [key.2.1]; exact hi), (key.2.2 i a _ ha (List.getElem?_eq_getElem _)).2⟩⟩

/-- **C123** The default `b1 = 0.9`, `b2 = 0.999` qualify; a step never goes farther than 73 times the learning rate. -/
theorem C123_default : (0 : ℝ) ≤ 0.9 ∧ (0.9 : ℝ) < 1 ∧ (0.9 : ℝ) ^ 2 < 0.999 ∧ (0.999 : ℝ) < 1 ∧ reach 0.9 0.999 ≤ 73 := by
  refine ⟨by norm_num, by norm_num, by norm_num, by norm_num, ?_⟩
  unfold reach
  rw [show (73 : ℝ) = Real.sqrt (73 ^ 2) from (Real.sqrt_sq (by norm_num)).symm]
  exact Real.sqrt_le_sqrt (by norm_num)

/-- **C123** A step can go farther than the learning rate. -/
theorem C123_farther : ∃ s : OptState (Unit → ℝ), BalancedR 0 (3 / 4) s ∧
    1 < |(update (fun _ => 1) 0 (3 / 4) (1 / 100) 1 (fun _ => 1) s).params () - s.params ()| := by
  refine ⟨⟨fun _ => 0, fun _ => 0, fun _ => 0, 1⟩, fun j => by simp, ?_⟩
  have e : clipR 1 1 = 1 := by norm_num [clipR]
  simp only [update, e]
  have h : Real.sqrt ((3 / 4 * 0 + (1 - 3 / 4) * 1 ^ 2) / (1 - (3 / 4 : ℝ) ^ (1 + 1))) ≤ 98 / 100 := by
    rw [show (98 / 100 : ℝ) = Real.sqrt ((98 / 100) ^ 2) from (Real.sqrt_sq (by norm_num)).symm]
    exact Real.sqrt_le_sqrt (by norm_num)
  have h0 := Real.sqrt_nonneg ((3 / 4 * 0 + (1 - 3 / 4) * 1 ^ 2) / (1 - (3 / 4 : ℝ) ^ (1 + 1)))
  set q := Real.sqrt ((3 / 4 * 0 + (1 - 3 / 4) * 1 ^ 2) / (1 - (3 / 4 : ℝ) ^ (1 + 1)))
  have hq : 0 < q + 1 / 100 := by linarith
  norm_num
  rw [abs_of_pos hq, one_lt_inv₀ hq]
  linarith

/-- **C123** Without `b1² < b2` there is no such number: with `b1 = 0.9` and `b2 = 0`, after a gradient of one a gradient of zero moves the
parameter as far as one likes, if `eps` is small. -/
theorem C123_needs_b2 (B : ℝ) : ∃ eps > 0, B < |(updates (update (fun _ => 1) (9 / 10) 0 eps 1) [fun _ : Unit => 1, fun _ => 0] (Adam.init fun _ => 0)).params () -
    (update (fun _ => 1) (9 / 10) 0 eps 1 (fun _ => 1) (Adam.init fun _ : Unit => 0)).params ()| := by
  refine ⟨(9 / 10) / (|B| + 1), by positivity, ?_⟩
  have e : clipR 1 1 = 1 ∧ clipR 1 0 = 0 := by constructor <;> norm_num [clipR]
  simp only [updates, List.foldl_cons, List.foldl_nil, update, Adam.init, e.1, e.2]
  norm_num
  have : |B| + 1 ≠ 0 := by positivity
  rw [show (-(1 + 9 / 10 / (|B| + 1))⁻¹ - (|B| + 1) + (1 + 9 / 10 / (|B| + 1))⁻¹ : ℝ) = -(|B| + 1) by ring, abs_neg, abs_of_pos (by positivity)]
  linarith [le_abs_self B]

example : BalancedR (ι := Unit) 0.9 0.999 (Adam.init fun _ => 3) ∧ BalancedC (ι := Unit) 0.9 0.999 (initC fun _ => 3) :=
  ⟨fun j => by simp [Adam.init], fun j => ⟨0, le_rfl, by simp [initC], by simp [initC]⟩⟩

/-- The default optimiser in a training of two steps meets the hypotheses of `C123_training_real`; its parameter ends within `2 * 73` of its start. -/
example : ∃ t, run (rateCfg (update (fun _ => 1) 0.9 0.999 1e-8 1e3)) 0 rateAdam () 0 = .ok t ∧ t.epoch = 1 ∧
    ∃ x, t.inner.adam[0]? = some x ∧ |x.params ()| ≤ 2 * 73 := by
  obtain ⟨t, ht, hte⟩ : ∃ t, run (rateCfg (update (fun _ => 1) 0.9 0.999 1e-8 1e3)) 0 rateAdam () 0 = .ok t ∧ t.epoch = 1 := ⟨_, rfl, rfl⟩
  obtain ⟨d1, d2, d3, d4, d5⟩ := C123_default
  have hu : DataUniform 2 (rateCfg (update (fun _ => 1) 0.9 0.999 1e-8 1e3)).train :=
    ⟨⟨by simp [rateCfg], by simp [rateCfg]⟩, fun y hy => (by cases hy), fun y hy => (by cases hy)⟩
  obtain ⟨⟨x, hx, hb⟩, -⟩ := C123_training_real (rateCfg (update (fun _ => 1) 0.9 0.999 1e-8 1e3)) (fun _ => 1) 0.9 0.999 1e-8 1e3 1 d1 d2 d3 d4 (by norm_num)
    (fun _ => by simp) (.inl rfl) (fun _ _ _ => rfl) 2 (fun _ n => List.Perm.refl _) hu (by simp [rateCfg]) rateAdam rfl
    (fun a ha => by
      rw [rateAdam, List.mem_singleton] at ha
      rw [ha]
      exact fun j => by simp [Adam.init]) 0 () 0 t ht 0 _ rfl ()
  refine ⟨t, ht, hte, x, hx, ?_⟩
  rw [hte] at hb
  have e : batchCount 2 (rateCfg (update (fun _ => 1) 0.9 0.999 1e-8 1e3)).batchSize = 2 := rfl
  rw [e] at hb
  simp only [Adam.init, sub_zero, one_mul, Nat.cast_ofNat] at hb
  linarith

end Verif.Props
