import Verif.Spec.HermTrain
import Verif.Lemmas.Training
import Mathlib.Analysis.Calculus.Deriv.Mul
import Mathlib.Analysis.Calculus.Deriv.Comp
import Mathlib.Analysis.Calculus.Deriv.Shift
import Mathlib.Tactic.Ring

namespace Verif.HermTrain
open Train TrainSpec Adam
open scoped ComplexConjugate

/-! ## gradients -/

theorem index_ne {k l : List Nat} {a b c d : Nat} : k ++ [a, b] = l ++ [c, d] ↔ k = l ∧ a = c ∧ b = d := by
  constructor
  · intro h
    have := List.append_inj' h rfl
    exact ⟨this.1, by simpa using this.2⟩
  · rintro ⟨rfl, rfl, rfl⟩; rfl

theorem bump_flip (M : List Nat → ℂ) (k : List Nat) (a b : Nat) (z : ℂ) :
    SameHermitian (bump M (k ++ [a, b]) z) (bump M (k ++ [b, a]) (conj z)) := by
  intro l c d
  simp only [bump, index_ne]
  by_cases h1 : l = k ∧ c = a ∧ d = b
  · obtain ⟨rfl, rfl, rfl⟩ := h1
    by_cases h2 : c = d
    · subst h2
      simp only [and_self, if_true, map_add, Complex.conj_conj]
      ring
    · have h3 : ¬ d = c := fun h => h2 h.symm
      simp only [true_and, and_self, if_true, h2, h3, and_false, if_false, map_add, Complex.conj_conj]
      ring
  · by_cases h2 : l = k ∧ c = b ∧ d = a
    · obtain ⟨rfl, rfl, rfl⟩ := h2
      have h3 : ¬ (c = d ∧ d = c) := fun h => h1 ⟨rfl, h.1, h.2⟩
      simp only [true_and, and_self, if_true, h3, if_false, map_add, if_neg (show ¬ (c = d ∧ d = c) from h3), if_neg (show ¬ (d = c ∧ c = d) from fun h => h3 ⟨h.2, h.1⟩)]
      ring
    · have h3 : ¬ (l = k ∧ d = a ∧ c = b) := fun h => h2 ⟨h.1, h.2.2, h.2.1⟩
      have h4 : ¬ (l = k ∧ d = b ∧ c = a) := fun h => h1 ⟨h.1, h.2.2, h.2.1⟩
      simp only [h1, h2, h3, h4, if_false]

theorem gradC_hermitian {L : (List Nat → ℂ) → ℝ} (hL : SeesHermitian L) (M : List Nat → ℂ) : AllHermitian (gradC L M) := by
  intro k a b
  have e : ∀ z, L (bump M (k ++ [b, a]) z) = L (bump M (k ++ [a, b]) (conj z)) := fun z => hL _ _ (bump_flip M k b a z)
  have e1 : (fun t : ℝ => L (bump M (k ++ [b, a]) (t : ℂ))) = fun t : ℝ => L (bump M (k ++ [a, b]) (t : ℂ)) := by
    funext t; rw [e, Complex.conj_ofReal]
  have e2 : (fun t : ℝ => L (bump M (k ++ [b, a]) (t * Complex.I))) =
      fun t : ℝ => (fun s : ℝ => L (bump M (k ++ [a, b]) (s * Complex.I))) (-t) := by
    funext t; rw [e]; simp
  have e3 : deriv (fun t : ℝ => (fun s : ℝ => L (bump M (k ++ [a, b]) (s * Complex.I))) (-t)) 0 =
      - deriv (fun s : ℝ => L (bump M (k ++ [a, b]) (s * Complex.I))) 0 := by
    have := deriv_comp_neg (fun s : ℝ => L (bump M (k ++ [a, b]) (s * Complex.I))) (0 : ℝ)
    simpa using this
  simp only [gradC]
  rw [e1, e2, e3]
  simp

theorem gradR_symmetric {L : (List Nat → ℝ) → ℝ} (hL : SeesSymmetric L) (M : List Nat → ℝ) : AllSymmetric (gradR L M) := by
  intro k a b
  have e : ∀ z, L (bump M (k ++ [b, a]) z) = L (bump M (k ++ [a, b]) z) := by
    intro z
    refine hL _ _ fun l c d => ?_
    simp only [bump, index_ne]
    by_cases h1 : l = k ∧ c = a ∧ d = b
    · obtain ⟨rfl, rfl, rfl⟩ := h1
      by_cases h2 : c = d
      · subst h2; simp
      · have h3 : ¬ d = c := fun h => h2 h.symm
        simp only [true_and, and_self, if_true, h2, h3, and_false, if_false]
        ring
    · by_cases h2 : l = k ∧ c = b ∧ d = a
      · obtain ⟨rfl, rfl, rfl⟩ := h2
        have h3 : ¬ (c = d ∧ d = c) := fun h => h1 ⟨rfl, h.1, h.2⟩
        have h4 : ¬ (d = c ∧ c = d) := fun h => h3 ⟨h.2, h.1⟩
        simp only [true_and, and_self, if_true, h3, h4, if_false]
        ring
      · have h3 : ¬ (l = k ∧ d = a ∧ c = b) := fun h => h2 ⟨h.1, h.2.2, h.2.1⟩
        have h4 : ¬ (l = k ∧ d = b ∧ c = a) := fun h => h1 ⟨h.1, h.2.2, h.2.1⟩
        simp only [h1, h2, h3, h4, if_false]
  simp only [gradR]
  congr 1
  funext t
  exact e t

/-! ## one update -/

theorem clipR_neg {c : ℝ} (hc : 0 ≤ c) (x : ℝ) : clipR c (-x) = - clipR c x := by
  unfold clipR
  rcases le_total x (-c) with h | h
  · rw [max_eq_right h, max_eq_left (by linarith), min_eq_right (by linarith), min_eq_left (by linarith)]; ring
  · rcases le_total x c with h' | h'
    · rw [max_eq_left h, min_eq_left h', max_eq_left (by linarith), min_eq_left (by linarith)]
    · rw [max_eq_left h, min_eq_right h']
      rcases le_total (-x) (-c) with h'' | h''
      · rw [max_eq_right h'', min_eq_left (by linarith)]
      · rw [max_eq_left h'', min_eq_left (by linarith)]; linarith

theorem clipC_conj {c : ℝ} (hc : 0 ≤ c) (z : ℂ) : clipC c (conj z) = conj (clipC c z) := by
  simp [clipC, clipR_neg hc]

theorem hermC {lr : Nat → ℝ} {b1 b2 eps clip : ℝ} (hc : 0 ≤ clip) (h0 : 0 ≤ b2) (h1 : b2 < 1) {g : List Nat → ℂ}
    (hg : AllHermitian g) {s : OptState (List Nat → ℂ)} (hm : GoodMoments s.m s.v) :
    SameRest (updateC lr b1 b2 eps clip g s).params s.params ∧
      GoodMoments (updateC lr b1 b2 eps clip g s).m (updateC lr b1 b2 eps clip g s).v := by
  obtain ⟨hm, hv, hw⟩ := hm
  have hgc : AllHermitian fun j => clipC clip (g j) := fun k a b => by simp only [hg k a b, clipC_conj hc]
  have hm' : AllHermitian (updateC lr b1 b2 eps clip g s).m := by
    intro k a b
    simp only [updateC, hm k a b, hgc k a b, map_add, map_mul, map_sub, map_one, Complex.conj_ofReal]
  have hv' : AllHermitian (updateC lr b1 b2 eps clip g s).v := by
    intro k a b
    simp only [updateC, hv k a b, hgc k a b, map_add, map_mul, map_sub, map_one, Complex.conj_ofReal, Complex.conj_conj]
  have hw' : ∀ i, ∃ w : ℝ, 0 ≤ w ∧ (updateC lr b1 b2 eps clip g s).v i = w := by
    intro i
    obtain ⟨w, hw0, hw1⟩ := hw i
    refine ⟨b2 * w + (1 - b2) * Complex.normSq (clipC clip (g i)), ?_, ?_⟩
    · have := Complex.normSq_nonneg (clipC clip (g i))
      have := mul_nonneg (by linarith : 0 ≤ 1 - b2) this
      have := mul_nonneg h0 hw0
      linarith
    · simp only [updateC, hw1, Complex.mul_conj]
      push_cast
      trivial
  refine ⟨?_, hm', hv', hw'⟩
  intro k a b
  have hsq : ∀ k a b, conj (((updateC lr b1 b2 eps clip g s).v (k ++ [b, a]) / (1 - (b2 : ℂ) ^ (s.epoch + 1))) ^ (1 / 2 : ℂ)) =
      ((updateC lr b1 b2 eps clip g s).v (k ++ [a, b]) / (1 - (b2 : ℂ) ^ (s.epoch + 1))) ^ (1 / 2 : ℂ) := by
    intro k a b
    obtain ⟨w, hw0, hw1⟩ := hw' (k ++ [a, b])
    rw [hv' k a b, hw1, Complex.conj_ofReal]
    have hd : 0 ≤ 1 - b2 ^ (s.epoch + 1) := by
      have := pow_le_one₀ (n := s.epoch + 1) h0 h1.le
      linarith
    have e : (w : ℂ) / (1 - (b2 : ℂ) ^ (s.epoch + 1)) = ((w / (1 - b2 ^ (s.epoch + 1)) : ℝ) : ℂ) := by push_cast; rfl
    have e2 : (1 / 2 : ℂ) = ((1 / 2 : ℝ) : ℂ) := by push_cast; rfl
    rw [e, e2, ← Complex.ofReal_cpow (div_nonneg hw0 hd), Complex.conj_ofReal]
  have hmk := hm' k a b
  have hsk := hsq k a b
  have e1 : ∀ j, (updateC lr b1 b2 eps clip g s).params j = s.params j - lr s.epoch *
      ((updateC lr b1 b2 eps clip g s).m j / (1 - (b1 : ℂ) ^ (s.epoch + 1))) /
      (((updateC lr b1 b2 eps clip g s).v j / (1 - (b2 : ℂ) ^ (s.epoch + 1))) ^ (1 / 2 : ℂ) + eps) := fun _ => rfl
  rw [e1, e1]
  simp only [map_sub, map_div₀, map_mul, map_add, Complex.conj_ofReal, map_pow, map_one]
  rw [hsk, hmk, Complex.conj_conj]
  ring

theorem symR {lr : Nat → ℝ} {b1 b2 eps clip : ℝ} {g : List Nat → ℝ}
    (hg : AllSymmetric g) {s : OptState (List Nat → ℝ)} (hm : AllSymmetric s.m) (hv : AllSymmetric s.v) :
    (∀ k a b, (Adam.update lr b1 b2 eps clip g s).params (k ++ [a, b]) - (Adam.update lr b1 b2 eps clip g s).params (k ++ [b, a]) =
      s.params (k ++ [a, b]) - s.params (k ++ [b, a])) ∧
      AllSymmetric (Adam.update lr b1 b2 eps clip g s).m ∧ AllSymmetric (Adam.update lr b1 b2 eps clip g s).v := by
  refine ⟨fun k a b => ?_, fun k a b => ?_, fun k a b => ?_⟩
  · simp only [Adam.update, hg k a b, hm k a b, hv k a b]; ring
  · simp only [Adam.update, hg k a b, hm k a b]
  · simp only [Adam.update, hg k a b, hv k a b]

/-! ## the run -/

variable {α P S K F : Type} {c : Cfg α P S K F}

/-- A property of array `j` that every update, the counters and the callback keep. -/
structure Kept (c : Cfg α P S K F) (j : Nat) (I : OptState P → Prop) : Prop where
  update : ∀ epoch b (i : Inner P S K) (a : OptState P) g, i.adam[j]? = some a → c.flags[j]? = some true → I a →
    (c.grad epoch b i.mstate (c.split i.mrng).2 (i.adam.map (·.params))).1[(c.flags.take j).count true]? = some g → I (c.update g a)
  counter : ∀ (a : OptState P) n, I a → I { a with epoch := n }
  callback : ∀ k e (ps : List P), (c.callback k e ps).2[j]? = ps[j]?

theorem steps_kept {I : OptState P → Prop} {j : Nat} (hI : Kept c j I) {epoch : Nat} {bs : List (Data α)} {i i' : Inner P S K}
    (hl : c.flags.length = i.adam.length) (h : Steps c epoch bs i i') (ha : ∃ a, i.adam[j]? = some a ∧ I a) :
    ∃ a, i'.adam[j]? = some a ∧ I a := by
  induction h with
  | nil i => exact ha
  | @cons b bs i i' adam hg _ ih =>
    obtain ⟨h1, h2⟩ := applyGrads_inv hl hg
    refine ih (by simp [h1, hl]) ?_
    obtain ⟨a, ha, hIa⟩ := ha
    have hjl : j < c.flags.length := by rw [hl]; exact (List.getElem?_eq_some_iff.1 ha).1
    have e : c.flags[j]? = some c.flags[j] := List.getElem?_eq_getElem hjl
    cases hf : c.flags[j] with
    | false => rw [hf] at e; exact ⟨a, (h2 j a ha).1 e, hIa⟩
    | true =>
      rw [hf] at e
      obtain ⟨d, hd, ho⟩ := (h2 j a ha).2 e
      exact ⟨_, ho, hI.update epoch b i a d ha e hIa hd⟩

theorem finish_kept {I : OptState P → Prop} {j : Nat} (hI : Kept c j I) {s s' : TState P S K F} {k : K} {snap : Snap P S K F}
    (hl : c.flags.length = snap.inner.adam.length) (h : epochFinish c s k snap = .ok s')
    (ha : ∃ a, snap.inner.adam[j]? = some a ∧ I a) : ∃ a, s'.inner.adam[j]? = some a ∧ I a := by
  obtain ⟨h1, rfl⟩ := epochFinish_inv h
  obtain ⟨a, ha, hIa⟩ := ha
  have hjl : j < c.flags.length := by rw [hl]; exact (List.getElem?_eq_some_iff.1 ha).1
  have e : c.flags[j]? = some c.flags[j] := List.getElem?_eq_getElem hjl
  have hp := hI.callback k s.epoch (snap.inner.adam.map (·.params))
  rw [List.getElem?_map, ha] at hp
  refine ⟨{ a with epoch := a.epoch + (c.flags[j]).toNat }, ?_, hI.counter a _ hIa⟩
  simp only [List.getElem?_zipWith, e, hp, ha, Option.map_some]

theorem history_kept {I : OptState P → Prop} {j : Nat} (hI : Kept c j I) {s t : TState P S K F} {l : List (Snap P S K F)}
    (h : History c s l t) (hl : c.flags.length = s.inner.adam.length)
    (ha : ∃ a, s.inner.adam[j]? = some a ∧ I a) (hb : ∃ a, s.best.inner.adam[j]? = some a ∧ I a) :
    (∃ a, t.inner.adam[j]? = some a ∧ I a) ∧ (∃ a, t.best.inner.adam[j]? = some a ∧ I a) ∧
      ∀ x ∈ l, ∃ a, x.inner.adam[j]? = some a ∧ I a := by
  induction h with
  | stop _ => exact ⟨ha, hb, by simp⟩
  | @epoch s k snap s' l t _ ht hf _ ih =>
    obtain ⟨bs, -, h2, -, -⟩ := epochTrain_inv ht
    have a1 := (steps_frozen hl h2).1
    have b1 := (finish_frozen (c := c) (by omega) hf).1
    have hs := steps_kept hI hl h2 ha
    have hbest : s'.best = if c.lt snap.loss s.best.loss then snap else s.best := by rw [(epochFinish_inv hf).2]
    have hb' : ∃ a, s'.best.inner.adam[j]? = some a ∧ I a := by
      rw [hbest]
      split
      · exact hs
      · exact hb
    obtain ⟨r1, r2, r3⟩ := ih (by omega) (finish_kept hI (by omega) hf hs) hb'
    refine ⟨r1, r2, ?_⟩
    intro x hx
    rcases List.mem_cons.1 hx with rfl | hx
    · exact hs
    · exact r3 x hx

theorem run_kept {I : OptState P → Prop} {j : Nat} (hI : Kept c j I) {k : K} {adam : List (OptState P)} {st : S} {rng : K}
    {t : TState P S K F} (hl : c.flags.length = adam.length) (h : run c k adam st rng = .ok t)
    (ha : ∃ a, adam[j]? = some a ∧ I a) :
    (∃ a, t.inner.adam[j]? = some a ∧ I a) ∧ ∃ a, t.best.inner.adam[j]? = some a ∧ I a := by
  obtain ⟨s, l, hs, hh⟩ := run_inv h
  obtain ⟨-, hi, hb, -⟩ := initial_inv hs
  have hbi : s.best.inner = s.inner := by rw [hb]
  have hadam : s.inner.adam = adam := by rw [hi]
  obtain ⟨r1, r2, -⟩ := history_kept hI hh (by rw [hadam, hl]) (by rw [hadam]; exact ha) (by rw [hbi, hadam]; exact ha)
  exact ⟨r1, r2⟩

/-! ## the modules -/

theorem swapLast_append (k : List Nat) (a b : Nat) : swapLast (k ++ [a, b]) = k ++ [b, a] := by
  induction k with
  | nil => rfl
  | cons x k ih =>
    have : swapLast (x :: (k ++ [a, b])) = x :: swapLast (k ++ [a, b]) := by
      cases k with
      | nil => rfl
      | cons y k => cases k <;> rfl
    rw [List.cons_append, this, ih]; rfl

theorem swapLast_short {i : List Nat} (h : i.length < 2) : swapLast i = i := by
  match i, h with
  | [], _ => rfl
  | [a], _ => rfl

theorem index_cases (i : List Nat) : i.length < 2 ∨ ∃ k a b, i = k ++ [a, b] := by
  rcases Nat.lt_or_ge i.length 2 with h | h
  · exact .inl h
  · refine .inr ?_
    obtain ⟨l, b, rfl⟩ : ∃ l b, i = l ++ [b] := by
      rcases List.eq_nil_or_concat i with rfl | ⟨l, b, rfl⟩
      · simp at h
      · exact ⟨l, b, by simp⟩
    obtain ⟨k, a, rfl⟩ : ∃ k a, l = k ++ [a] := by
      rcases List.eq_nil_or_concat l with rfl | ⟨k, a, rfl⟩
      · simp at h
      · exact ⟨k, a, by simp⟩
    exact ⟨k, a, b, by simp⟩

end Verif.HermTrain
