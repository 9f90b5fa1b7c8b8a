import Verif.Lemmas.Loss
import Verif.Lemmas.TrainLoop
import Mathlib.Tactic.Ring
import Mathlib.Tactic.FieldSimp

/-! # Properties of the loss functions and of the validation loss (C36, C37) -/

namespace Verif.Props

open Verif.Batch Verif.BatchSpec Verif.Loss Verif.Train Verif.TrainSpec

variable {𝕜 : Type} [RCLike 𝕜]

/-- Predictions, targets and uncertainties of the entries `T`, as trees of arrays. -/
def preds (T : Leaves (𝕜 × 𝕜 × 𝕜)) : Leaves (Option 𝕜) := map1 (fun t => some t.1) T
/-- Targets. -/
def targets (T : Leaves (𝕜 × 𝕜 × 𝕜)) : Leaves (Option 𝕜) := map1 (fun t => some t.2.1) T
/-- Uncertainties. -/
def uncs (T : Leaves (𝕜 × 𝕜 × 𝕜)) : Leaves (Option 𝕜) := map1 (fun t => some t.2.2) T

/-! ## C36 -/

/-- **C36** Whenever a built-in loss has a value, that value is nonnegative, and it is zero exactly when every prediction
equals its target. -/
theorem C36_nonneg (k : Kind) (T : Leaves (𝕜 × 𝕜 × 𝕜)) (hk : ∀ δ, k = .huber δ → T.length = 1) (r : ℝ)
    (h : loss k (preds T) (targets T) (uncs T) = .ok (some r)) :
    0 ≤ r ∧ (r = 0 ↔ ∀ t ∈ T.flatten, t.1 = t.2.1) := by
  unfold preds targets uncs at h
  rw [loss_eq k T hk] at h
  obtain ⟨hne, g, hg, rfl⟩ := (mean_iff T _ r).1 (Except.ok.inj h)
  have hall : ∀ t ∈ T.flatten, 0 ≤ g t ∧ (g t = 0 ↔ t.1 = t.2.1) := by
    intro t ht
    have hd : divisor k t ≠ 0 := by
      intro h0
      have := hg t ht
      rw [entryErr_none k t h0] at this
      exact absurd this (by simp)
    obtain ⟨v, hv, h1, h2⟩ := entryErr_def k t hd
    rw [hg t ht] at hv
    cases hv
    exact ⟨h1, h2⟩
  have hnn : ∀ x ∈ T.flatten.map g, 0 ≤ x := by
    intro x hx
    obtain ⟨t, ht, rfl⟩ := List.mem_map.1 hx
    exact (hall t ht).1
  constructor
  · exact div_nonneg (List.sum_nonneg hnn) (by positivity)
  · have hz := mean_zero (l := T.flatten.map g) (by simpa using hne) hnn
    rw [List.length_map] at hz
    rw [hz]
    constructor
    · intro h0 t ht
      exact (hall t ht).2.1 (h0 _ (List.mem_map.2 ⟨t, ht, rfl⟩))
    · intro h0 x hx
      obtain ⟨t, ht, rfl⟩ := List.mem_map.1 hx
      exact (hall t ht).2.2 (h0 t ht)

/-- **C36** A built-in loss has a value exactly if there is at least one entry and no entry is divided by zero: the
uncertainties are nonzero, and for the relative losses the shifted target (`Y + 1e-4`, or `2 (Y + Y_pred) + 1e-4`) is not
zero. In particular the loss of an exact prediction is then zero. -/
theorem C36_defined (k : Kind) (T : Leaves (𝕜 × 𝕜 × 𝕜)) (hk : ∀ δ, k = .huber δ → T.length = 1) :
    (∃ r, loss k (preds T) (targets T) (uncs T) = .ok (some r)) ↔
      T.flatten ≠ [] ∧ ∀ t ∈ T.flatten, divisor k t ≠ 0 := by
  unfold preds targets uncs
  rw [loss_eq k T hk]
  constructor
  · rintro ⟨r, h⟩
    obtain ⟨hne, g, hg, -⟩ := (mean_iff T _ r).1 (Except.ok.inj h)
    refine ⟨hne, fun t ht h0 => ?_⟩
    have := hg t ht
    rw [entryErr_none k t h0] at this
    exact absurd this (by simp)
  · rintro ⟨hne, hd⟩
    refine ⟨_, congrArg Except.ok ((mean_iff T _ _).2 ⟨hne, fun t => (entryErr k t).getD 0, fun t ht => ?_, rfl⟩)⟩
    obtain ⟨v, hv, -⟩ := entryErr_def k t (hd t ht)
    simp only [hv, Option.getD_some]

/-- **C36** The losses by their formulas: mean of `|p - y|²`, of `|p - y|`, of `|(p - y)/(y + 1e-4)|`, ... -/
theorem C36_values (T : Leaves (𝕜 × 𝕜 × 𝕜)) (hne : T.flatten ≠ []) :
    loss .mse (preds T) (targets T) (uncs T) =
      .ok (some ((T.flatten.map fun t => ‖t.1 - t.2.1‖ ^ 2).sum / T.flatten.length)) ∧
    loss .mae (preds T) (targets T) (uncs T) =
      .ok (some ((T.flatten.map fun t => ‖t.1 - t.2.1‖).sum / T.flatten.length)) ∧
    ((∀ t ∈ T.flatten, t.2.2 ≠ 0) → loss .mseUnc (preds T) (targets T) (uncs T) =
      .ok (some ((T.flatten.map fun t => ‖(t.1 - t.2.1) / t.2.2‖ ^ 2).sum / T.flatten.length))) ∧
    ((∀ t ∈ T.flatten, t.2.1 + ((1e-4 : ℝ) : 𝕜) ≠ 0) → loss .mre (preds T) (targets T) (uncs T) =
      .ok (some ((T.flatten.map fun t => ‖(t.1 - t.2.1) / (t.2.1 + ((1e-4 : ℝ) : 𝕜))‖).sum / T.flatten.length))) := by
  unfold preds targets uncs
  refine ⟨?_, ?_, fun hu => ?_, fun hu => ?_⟩
  · rw [loss_eq _ _ (by simp)]
    exact congrArg Except.ok (mean_some T _ hne)
  · rw [loss_eq _ _ (by simp)]
    exact congrArg Except.ok (mean_some T _ hne)
  · rw [loss_eq _ _ (by simp)]
    refine congrArg Except.ok ((mean_iff T _ _).2 ⟨hne, _, fun t ht => ?_, rfl⟩)
    simp only [entryErr, fdiv_ne (hu t ht)]; rfl
  · rw [loss_eq _ _ (by simp)]
    refine congrArg Except.ok ((mean_iff T _ _).2 ⟨hne, _, fun t ht => ?_, rfl⟩)
    simp only [entryErr, tiny, fdiv_ne (hu t ht)]; rfl

/-- **C36** With all uncertainties equal to one, each uncertainty-weighted loss is the unweighted one. -/
theorem C36_unit_uncertainty (T : Leaves (𝕜 × 𝕜 × 𝕜)) (h : ∀ t ∈ T.flatten, t.2.2 = 1) :
    loss .mseUnc (preds T) (targets T) (uncs T) = loss .mse (preds T) (targets T) (uncs T) ∧
    loss .maeUnc (preds T) (targets T) (uncs T) = loss .mae (preds T) (targets T) (uncs T) ∧
    loss .mreUnc (preds T) (targets T) (uncs T) = loss .mre (preds T) (targets T) (uncs T) ∧
    loss .mrdUnc (preds T) (targets T) (uncs T) = loss .mrd (preds T) (targets T) (uncs T) := by
  have key : ∀ k k' : Kind, (∀ δ, k ≠ .huber δ) → (∀ δ, k' ≠ .huber δ) →
      (∀ t : 𝕜 × 𝕜 × 𝕜, t.2.2 = 1 → entryErr k t = entryErr k' t) →
      loss k (preds T) (targets T) (uncs T) = loss k' (preds T) (targets T) (uncs T) := by
    intro k k' h1 h2 he
    unfold preds targets uncs
    rw [loss_eq k T (fun δ hδ => absurd hδ (h1 δ)), loss_eq k' T (fun δ hδ => absurd hδ (h2 δ))]
    congr 2
    unfold map1
    exact List.map_congr_left fun x hx => List.map_congr_left fun t ht => he t (h t (List.mem_flatten.2 ⟨x, hx, ht⟩))
  have h1 : (1 : 𝕜) ≠ 0 := one_ne_zero
  refine ⟨key _ _ (by simp) (by simp) ?_, key _ _ (by simp) (by simp) ?_, key _ _ (by simp) (by simp) ?_,
    key _ _ (by simp) (by simp) ?_⟩
  · intro t ht; simp only [entryErr, ht, fdiv_ne h1, div_one]; rfl
  · intro t ht; simp only [entryErr, ht, fdiv_ne h1, div_one]; rfl
  · intro t ht; simp only [entryErr, ht, mul_one]
  · intro t ht; simp only [entryErr, ht, mul_one]

/-- **C36** The mean relative difference treats prediction and target alike. -/
theorem C36_mrd_symmetric (T : Leaves (𝕜 × 𝕜 × 𝕜)) :
    loss .mrd (preds T) (targets T) (uncs T) = loss .mrd (targets T) (preds T) (uncs T) := by
  have h2 : loss .mrd (targets T) (preds T) (uncs T) =
      .ok (mean (map1 (entryErr .mrd) (map1 (fun t => (t.2.1, t.1, t.2.2)) T))) := by
    rw [← loss_eq .mrd (map1 (fun t => (t.2.1, t.1, t.2.2)) T) (by simp)]
    unfold targets preds uncs
    simp only [map1_map1]
  rw [h2]
  unfold preds targets uncs
  rw [loss_eq .mrd T (by simp), map1_map1]
  congr 3
  funext t
  simp only [entryErr]
  rw [add_comm t.2.1 t.1]
  by_cases h0 : (t.1 + t.2.1) * 2 + tiny = 0
  · simp [fdiv, h0]
  · rw [fdiv_ne h0, fdiv_ne h0]
    simp only [Option.map_some, norm_div, norm_sub_rev]

/-- **C36, defect**: the relative loss of an exact prediction is not a number if a target is `-1e-4` (0/0). -/
theorem C36_mre_undefined :
    loss (𝕜 := ℝ) .mre [[some (-1e-4)]] [[some (-1e-4)]] [[some 1]] = .ok none := by
  have := loss_eq (𝕜 := ℝ) .mre [[(-1e-4, -1e-4, 1)]] (by simp)
  simp only [map1, List.map_cons, List.map_nil] at this
  rw [this, ← mean_none [[((-1e-4 : ℝ), (-1e-4 : ℝ), (1 : ℝ))]] (entryErr .mre)
    ⟨_, List.mem_singleton.2 rfl, entryErr_none _ _ (by norm_num [divisor, tiny])⟩]
  rfl

/-- **C36, defect**: `pseudo_huber` works for a single array only. -/
theorem C36_huber_single_array (δ : ℝ) (T : Leaves (𝕜 × 𝕜 × 𝕜)) (h : T.length ≠ 1) :
    loss (.huber δ) (preds T) (targets T) (uncs T) = .error .typeError := by
  unfold loss fsub preds targets
  simp only [map2_aligned, bind, Except.bind, throw, throwThe, MonadExceptOf.throw]
  rw [if_pos (by simpa [map1] using h)]

/-- **C36** The pseudo-Huber error of an entry lies below half the squared error, and below `|δ|` times the error. -/
theorem C36_huber_bounds (δ : ℝ) (hδ : δ ≠ 0) (t : 𝕜 × 𝕜 × 𝕜) :
    ∃ v, entryErr (.huber δ) t = some v ∧ v ≤ ‖t.1 - t.2.1‖ ^ 2 / 2 ∧ v ≤ |δ| * ‖t.1 - t.2.1‖ := by
  have hd : ((δ : ℝ) : 𝕜) ≠ 0 := by simpa using hδ
  refine ⟨_, by simp only [entryErr, fdiv_ne hd]; rfl, ?_, ?_⟩
  · have hn : ‖(t.1 - t.2.1) / ((δ : ℝ) : 𝕜)‖ ^ 2 = ‖t.1 - t.2.1‖ ^ 2 / δ ^ 2 := by
      rw [norm_div, div_pow, RCLike.norm_ofReal, sq_abs]
    simp only [hn]
    have hs : Real.sqrt (1 + ‖t.1 - t.2.1‖ ^ 2 / δ ^ 2) ≤ 1 + ‖t.1 - t.2.1‖ ^ 2 / δ ^ 2 / 2 := by
      rw [Real.sqrt_le_left (by positivity)]
      nlinarith [sq_nonneg (‖t.1 - t.2.1‖ ^ 2 / δ ^ 2)]
    have h2 : 0 < δ ^ 2 := by positivity
    calc δ ^ 2 * (Real.sqrt (1 + ‖t.1 - t.2.1‖ ^ 2 / δ ^ 2) - 1) ≤ δ ^ 2 * (‖t.1 - t.2.1‖ ^ 2 / δ ^ 2 / 2) :=
          mul_le_mul_of_nonneg_left (by linarith) h2.le
      _ = ‖t.1 - t.2.1‖ ^ 2 / 2 := by field_simp
  · have hn : ‖(t.1 - t.2.1) / ((δ : ℝ) : 𝕜)‖ = ‖t.1 - t.2.1‖ / |δ| := by
      rw [norm_div, RCLike.norm_ofReal]
    simp only [hn]
    set x := ‖t.1 - t.2.1‖ / |δ| with hx
    have hx0 : 0 ≤ x := by positivity
    have hs : Real.sqrt (1 + x ^ 2) ≤ 1 + x := by
      rw [Real.sqrt_le_left (by positivity)]
      nlinarith
    have hab : 0 < |δ| := abs_pos.2 hδ
    calc δ ^ 2 * (Real.sqrt (1 + x ^ 2) - 1) ≤ δ ^ 2 * x := mul_le_mul_of_nonneg_left (by linarith) (by positivity)
      _ = |δ| * ‖t.1 - t.2.1‖ := by rw [hx, ← sq_abs]; field_simp

/-- **C36** Exactly the documented names are accepted, and each selects its own loss. -/
theorem C36_names (parse : Str → Except PyErr ℝ) (name : Str) (r : Kind × Bool) (h : kindOf parse name = .ok r) :
    (name, r) ∈ [("mse".toList, (Kind.mse, false)), ("mae".toList, (.mae, false)), ("mse_unc".toList, (.mseUnc, false)),
      ("mae_unc".toList, (.maeUnc, false)), ("mre".toList, (.mre, false)), ("mre_unc".toList, (.mreUnc, false)),
      ("mrd".toList, (.mrd, false)), ("mrd_unc".toList, (.mrdUnc, false)), ("mse_unsupervised".toList, (.mse, true)),
      ("mae_unsupervised".toList, (.mae, true)), ("mre_unsupervised".toList, (.mre, true))] ∨
    ("pseudo_huber".toList.isPrefixOf name = true ∧ ((':' ∉ name ∧ r = (.huber 1, false)) ∨
      ∃ a d δ, splitOn ':' name = [a, d] ∧ parse d = .ok δ ∧ r = (.huber δ, false))) := by
  unfold kindOf at h
  generalize "mse".toList = s1 at *
  generalize "mae".toList = s2 at *
  generalize "pseudo_huber".toList = s3 at *
  generalize "mse_unc".toList = s4 at *
  generalize "mae_unc".toList = s5 at *
  generalize "mre".toList = s6 at *
  generalize "mre_unc".toList = s7 at *
  generalize "mrd".toList = s8 at *
  generalize "mrd_unc".toList = s9 at *
  generalize "mse_unsupervised".toList = s10 at *
  generalize "mae_unsupervised".toList = s11 at *
  generalize "mre_unsupervised".toList = s12 at *
  by_cases h1 : name = s1
  · rw [if_pos h1] at h; cases h; left; subst h1; simp
  rw [if_neg h1] at h
  by_cases h2 : name = s2
  · rw [if_pos h2] at h; cases h; left; subst h2; simp
  rw [if_neg h2] at h
  by_cases h3 : s3.isPrefixOf name = true
  · rw [if_pos h3] at h
    right
    refine ⟨h3, ?_⟩
    by_cases hc : ':' ∈ name
    · rw [if_pos hc] at h
      right
      generalize splitOn ':' name = w at *
      match w, h with
      | [a, d], h =>
        simp only at h
        cases hp : parse d with
        | ok δ => rw [hp] at h; exact ⟨a, d, δ, rfl, hp, (Except.ok.inj h).symm⟩
        | error e => rw [hp] at h; cases h
    · rw [if_neg hc] at h
      exact Or.inl ⟨hc, (Except.ok.inj h).symm⟩
  rw [if_neg h3] at h
  left
  by_cases h4 : name = s4
  · rw [if_pos h4] at h; cases h; subst h4; simp
  rw [if_neg h4] at h
  by_cases h5 : name = s5
  · rw [if_pos h5] at h; cases h; subst h5; simp
  rw [if_neg h5] at h
  by_cases h6 : name = s6
  · rw [if_pos h6] at h; cases h; subst h6; simp
  rw [if_neg h6] at h
  by_cases h7 : name = s7
  · rw [if_pos h7] at h; cases h; subst h7; simp
  rw [if_neg h7] at h
  by_cases h8 : name = s8
  · rw [if_pos h8] at h; cases h; subst h8; simp
  rw [if_neg h8] at h
  by_cases h9 : name = s9
  · rw [if_pos h9] at h; cases h; subst h9; simp
  rw [if_neg h9] at h
  by_cases h10 : name = s10
  · rw [if_pos h10] at h; cases h; subst h10; simp
  rw [if_neg h10] at h
  by_cases h11 : name = s11
  · rw [if_pos h11] at h; cases h; subst h11; simp
  rw [if_neg h11] at h
  by_cases h12 : name = s12
  · rw [if_pos h12] at h; cases h; subst h12; simp
  rw [if_neg h12] at h
  cases h

example : kindOf (fun _ => .ok 3) "pseudo_huber:3".toList = .ok (.huber 3, false) := rfl
example : kindOf (fun _ => .ok 3) "mre_unsupervised".toList = .ok (.mre, true) := rfl

/-- Two leaves with predictions, targets and uncertainties; every loss except pseudo-Huber has a value on them. -/
example : ∀ k : Kind, (∀ δ, k ≠ .huber δ) →
    ∃ r, loss k (preds (𝕜 := ℝ) [[(1, 2, 1), (3, 3, 2)], [(5, 4, 1)]]) (targets [[(1, 2, 1), (3, 3, 2)], [(5, 4, 1)]])
      (uncs [[(1, 2, 1), (3, 3, 2)], [(5, 4, 1)]]) = .ok (some r) := by
  intro k hk
  rw [C36_defined k _ (fun δ h => absurd h (hk δ))]
  refine ⟨by simp, fun t ht => ?_⟩
  simp only [List.flatten_cons, List.flatten_nil, List.append_nil, List.cons_append, List.nil_append, List.mem_cons,
    List.not_mem_nil, or_false] at ht
  rcases ht with rfl | rfl | rfl <;> cases k <;> norm_num [divisor, tiny] <;> exact absurd rfl (hk _)

/-! ## C37 -/

variable {α P S K : Type}

/-- **C37 (partial)** If the validation batch size divides the number of validation samples (in particular if it is the
whole set, the default), and the loss of a batch is the mean of the losses `ℓ` of its samples, then the validation loss is
the mean of `ℓ` over all validation samples, whatever the shuffling. Missing: other batch sizes, where it is false
(`C37_remainder_refuted`). -/
theorem C37_mean_partial (c : Cfg α P S K ℝ) (hperm : ∀ k n, (c.perm k n).Perm (List.range n)) (nv : Nat)
    (hv : DataUniform nv c.val) (hs : 0 < c.valBatchSize) (hdvd : c.valBatchSize ∣ nv) (hadd : c.add = (· + ·))
    (hdiv : c.divNat = fun (x : ℝ) (n : ℕ) => x / (n : ℝ)) (hzero : c.zero = 0)
    (ℓ : List (Option α) × Option (List (Option α)) × Option (List (Option α)) → ℝ) (i : Inner P S K) (e : Nat)
    (hloss : ∀ b m, DataUniform m b → c.valLoss e b i.mstate i.mrng (i.adam.map (·.params)) =
      ((triples m b).map ℓ).sum / m) (k : K) :
    batchedValLoss c i k e = .ok (((triples nv c.val).map ℓ).sum / nv) := by
  have hu := shuffle_uniform hperm c.splitN k hv
  have hmod : nv % c.valBatchSize = 0 := Nat.mod_eq_zero_of_dvd hdvd
  have hdm := div_mod nv c.valBatchSize
  unfold batchedValLoss
  simp only [bind, Except.bind, pure, Except.pure, batches_ok hu hs, numSamples_uniform hv.X, hmod, hadd, hdiv, hzero]
  congr 1
  set d := c.val.shuffle c.perm c.splitN k with hd
  have hfold : ∀ (bs : List (Data α)) (a : ℝ) (f : Data α → ℝ), bs.foldl (fun acc b => acc + f b) a = a + (bs.map f).sum := by
    intro bs
    induction bs with
    | nil => intro a f; simp
    | cons b bs ih => intro a f; rw [List.foldl_cons, ih, List.map_cons, List.sum_cons, add_assoc]
  rw [hfold]
  have hsz : ∀ b ∈ cuts nv c.valBatchSize d, DataUniform c.valBatchSize b ∧ count b = c.valBatchSize := by
    intro b hb
    unfold cuts at hb
    rw [hmod] at hb
    simp only [gt_iff_lt, lt_irrefl, if_false, List.append_nil] at hb
    obtain ⟨j, hj, rfl⟩ := List.mem_map.1 hb
    have := cutData_uniform hu (mul_div_le' nv c.valBatchSize j (List.mem_range.1 hj))
    exact ⟨this, count_uniform this⟩
  have hb : (cuts nv c.valBatchSize d).map (fun b => c.valLoss e b i.mstate i.mrng (i.adam.map (·.params)) /
      ((nv / c.valBatchSize + (if (0 : ℕ) > 0 then 1 else 0) : ℕ) : ℝ)) =
      (cuts nv c.valBatchSize d).map (fun b => ((triples (count b) b).map ℓ).sum / nv) := by
    refine List.map_congr_left fun b hb => ?_
    obtain ⟨h1, h2⟩ := hsz b hb
    rw [hloss b _ h1, h2]
    simp only [gt_iff_lt, lt_irrefl, if_false, Nat.add_zero]
    rw [div_div]
    congr 1
    rw [← Nat.cast_mul, Nat.mul_div_cancel' hdvd]
  rw [hb, zero_add]
  have hsum : ∀ bs : List (Data α), (bs.map fun b => ((triples (count b) b).map ℓ).sum / (nv : ℝ)).sum =
      ((bs.flatMap fun b => triples (count b) b).map ℓ).sum / nv := by
    intro bs
    induction bs with
    | nil => simp
    | cons b bs ih => rw [List.map_cons, List.sum_cons, ih, List.flatMap_cons, List.map_append, List.sum_append, add_div]
  rw [hsum, cuts_triples hu]
  congr 1
  exact ((shuffle_triples hperm c.splitN k hv).map ℓ).sum_eq

/-- A validation run on real losses: the loss of a sample is its feature value. -/
noncomputable def valCfg (size : Nat) : Cfg ℝ Unit Unit Unit ℝ where
  perm _ n := List.range n
  splitN _ _ := []
  split k := (k, k)
  grad _ _ s _ _ := ([], s)
  valLoss _ b _ _ _ := (((b.X.headD []).map id).sum) / (b.X.headD []).length
  update _ a := a
  callback k _ ps := (k, ps)
  verbose := false
  interrupted _ := false
  flags := []
  train := ⟨[[]], none, none⟩
  val := ⟨[[0, 0, 3]], none, none⟩
  batchSize := 1
  valBatchSize := size
  epochs := 0
  target := 0
  patience := 1
  minDelta := 0
  lt _ _ := false
  le _ _ := false
  sub := (· - ·)
  add := (· + ·)
  divNat x n := x / n
  zero := 0

/-- **C37, refuted**: three validation samples with losses 0, 0, 3 in batches of two give 3/2, not their mean 1: the last,
smaller batch has the same weight as the full ones. -/
theorem C37_remainder_refuted :
    batchedValLoss (valCfg 2) ⟨[], (), ()⟩ () 0 = .ok (3 / 2) ∧ batchedValLoss (valCfg 3) ⟨[], (), ()⟩ () 0 = .ok 1 := by
  have hu : DataUniform 3 (valCfg 2).val := ⟨⟨by simp [valCfg], by simp [valCfg]⟩, by simp [valCfg], by simp [valCfg]⟩
  have hu' : DataUniform 3 (valCfg 3).val := ⟨⟨by simp [valCfg], by simp [valCfg]⟩, by simp [valCfg], by simp [valCfg]⟩
  constructor
  · unfold batchedValLoss
    rw [batches_ok (shuffle_uniform (perm := (valCfg 2).perm) (fun _ _ => List.Perm.refl _) _ () hu) (by simp [valCfg])]
    simp [bind, Except.bind, pure, Except.pure, valCfg, numSamples, cuts, cutData, cut, Data.shuffle, permuteLeaves,
      permuteLeaf, List.range_succ]
  · unfold batchedValLoss
    rw [batches_ok (shuffle_uniform (perm := (valCfg 3).perm) (fun _ _ => List.Perm.refl _) _ () hu') (by simp [valCfg])]
    simp [bind, Except.bind, pure, Except.pure, valCfg, numSamples, cuts, cutData, cut, Data.shuffle, permuteLeaves,
      permuteLeaf, List.range_succ]

/-- **C37** What the code computes when the batch size does not divide the number of samples: with `full` the samples of the full
batches and `last` those of the last, smaller batch of the shuffled validation set, the reported loss is the mean of the batch means.
It is off from the mean over all samples by an exact amount, and as soon as there is a full batch it is right only if both parts have
the same mean loss. -/
theorem C37_remainder (c : Cfg α P S K ℝ) (hperm : ∀ k n, (c.perm k n).Perm (List.range n)) (nv : Nat)
    (hv : DataUniform nv c.val) (hs : 0 < c.valBatchSize) (hrem : 0 < nv % c.valBatchSize) (hadd : c.add = (· + ·))
    (hdiv : c.divNat = fun (x : ℝ) (n : ℕ) => x / (n : ℝ)) (hzero : c.zero = 0)
    (ℓ : List (Option α) × Option (List (Option α)) × Option (List (Option α)) → ℝ) (i : Inner P S K) (e : Nat)
    (hloss : ∀ b m, DataUniform m b → c.valLoss e b i.mstate i.mrng (i.adam.map (·.params)) =
      ((triples m b).map ℓ).sum / m) (k : K) :
    ∃ (full last : List (List (Option α) × Option (List (Option α)) × Option (List (Option α)))) (v : ℝ),
      batchedValLoss c i k e = .ok v ∧ (full ++ last).Perm (triples nv c.val) ∧
      full.length = nv / c.valBatchSize * c.valBatchSize ∧ last.length = nv % c.valBatchSize ∧
      v = ((full.map ℓ).sum / c.valBatchSize + (last.map ℓ).sum / last.length) / ((nv / c.valBatchSize : ℕ) + 1) ∧
      (c.valBatchSize ≤ nv →
        v - ((triples nv c.val).map ℓ).sum / nv = (nv / c.valBatchSize : ℕ) * (c.valBatchSize - (nv % c.valBatchSize : ℕ)) *
          ((last.map ℓ).sum / last.length - (full.map ℓ).sum / full.length) / (((nv / c.valBatchSize : ℕ) + 1) * nv) ∧
        (v = ((triples nv c.val).map ℓ).sum / nv ↔ (full.map ℓ).sum / full.length = (last.map ℓ).sum / last.length)) := by
  have hu := shuffle_uniform hperm c.splitN k hv
  have hdm := div_mod nv c.valBatchSize
  set d := c.val.shuffle c.perm c.splitN k with hd
  set s := c.valBatchSize with hsd
  set q := nv / s with hq
  set r := nv % s with hr
  have hrs : r < s := Nat.mod_lt _ hs
  set fulls := (List.range q).map fun i => cutData (i * s) s d with hfulls
  set tail := cutData (q * s) r d with htail
  have hcuts : cuts nv s d = fulls ++ [tail] := by
    unfold cuts
    rw [if_pos hrem]
  have hfu : ∀ b ∈ fulls, DataUniform s b := by
    intro b hb
    obtain ⟨j, hj, rfl⟩ := List.mem_map.1 hb
    exact cutData_uniform hu (mul_div_le' nv s j (List.mem_range.1 hj))
  have htu : DataUniform r tail := cutData_uniform hu (by omega)
  have hfold : ∀ (bs : List (Data α)) (a : ℝ) (f : Data α → ℝ), bs.foldl (fun acc b => acc + f b) a = a + (bs.map f).sum := by
    intro bs
    induction bs with
    | nil => intro a f; simp
    | cons b bs ih => intro a f; rw [List.foldl_cons, ih, List.map_cons, List.sum_cons, add_assoc]
  have hlen : ∀ bs : List (Data α), (bs.flatMap fun b => triples s b).length = bs.length * s := by
    intro bs
    induction bs with
    | nil => simp
    | cons b bs ih => rw [List.flatMap_cons, List.length_append, ih, List.length_cons, triples]; simp; ring
  have hsum : ∀ (bs : List (Data α)) (t : ℝ), (∀ b ∈ bs, DataUniform s b) →
      (bs.map fun b => c.valLoss e b i.mstate i.mrng (i.adam.map (·.params)) / t).sum =
      ((bs.flatMap fun b => triples s b).map ℓ).sum / s / t := by
    intro bs t
    induction bs with
    | nil => intro _; simp
    | cons b bs ih =>
      intro hb
      rw [List.map_cons, List.sum_cons, ih (fun b' h => hb b' (List.mem_cons_of_mem _ h)), List.flatMap_cons, List.map_append,
        List.sum_append, hloss b s (hb b (by simp))]
      ring
  have hp : ((fulls.flatMap fun b => triples s b) ++ triples r tail).Perm (triples nv c.val) := by
    refine List.Perm.trans (List.Perm.of_eq ?_) (shuffle_triples hperm c.splitN k hv)
    rw [← hd, ← cuts_triples (size := s) hu, hcuts, List.flatMap_append]
    congr 1
    · have : ∀ bs : List (Data α), (∀ b ∈ bs, DataUniform s b) →
          (bs.flatMap fun b => triples s b) = bs.flatMap fun b => triples (count b) b := by
        intro bs
        induction bs with
        | nil => intro _; rfl
        | cons b bs ih =>
          intro hb
          rw [List.flatMap_cons, List.flatMap_cons, ih (fun b' h => hb b' (List.mem_cons_of_mem _ h)), count_uniform (hb b (by simp))]
      exact this fulls hfu
    · simp [count_uniform htu]
  have hl1 : (fulls.flatMap fun b => triples s b).length = q * s := by rw [hlen]; simp [hfulls]
  have hl2 : (triples r tail).length = r := by simp [triples]
  have hsplit : ((triples nv c.val).map ℓ).sum = ((fulls.flatMap fun b => triples s b).map ℓ).sum + ((triples r tail).map ℓ).sum := by
    rw [← (hp.map ℓ).sum_eq, List.map_append, List.sum_append]
  refine ⟨fulls.flatMap fun b => triples s b, triples r tail, _, ?_, hp, hl1, hl2, rfl, ?_⟩
  · unfold batchedValLoss
    rw [← hsd, ← hd, batches_ok hu hs, numSamples_uniform hv.X]
    simp only [bind, Except.bind, pure, Except.pure, hadd, hdiv, hzero]
    congr 1
    rw [hfold, hcuts, List.map_append, List.sum_append, ← hr, ← hq, if_pos hrem, hsum fulls _ hfu, zero_add, List.map_singleton,
      List.sum_singleton, hloss tail r htu, hl2]
    push_cast
    ring
  · intro hle
    have hq0 : 0 < q := Nat.div_pos hle hs
    have hqr : (0 : ℝ) < q := by exact_mod_cast hq0
    have hsr : (0 : ℝ) < s := by exact_mod_cast hs
    have hrr : (0 : ℝ) < r := by exact_mod_cast hrem
    have hlt : (r : ℝ) < s := by exact_mod_cast hrs
    have hn : (nv : ℝ) = q * s + r := by exact_mod_cast hdm.symm
    have hnr : (0 : ℝ) < nv := by rw [hn]; positivity
    rw [hsplit, hl1, hl2]
    set F := ((fulls.flatMap fun b => triples s b).map ℓ).sum
    set L := ((triples r tail).map ℓ).sum
    have key : (F / s + L / r) / ((q : ℝ) + 1) - (F + L) / nv =
        (q : ℝ) * (s - (r : ℝ)) * (L / r - F / ((q * s : ℕ) : ℝ)) / (((q : ℝ) + 1) * nv) := by
      rw [hn]
      push_cast
      field_simp
      ring
    refine ⟨key, ?_⟩
    rw [← sub_eq_zero, key, div_eq_zero_iff]
    have h1 : ((q : ℝ) + 1) * nv ≠ 0 := by positivity
    have h2 : (q : ℝ) * (s - (r : ℝ)) ≠ 0 := mul_ne_zero hqr.ne' (sub_pos.2 hlt).ne'
    constructor
    · rintro (h | h)
      · exact (sub_eq_zero.1 ((mul_eq_zero.1 h).resolve_left h2)).symm
      · exact absurd h h1
    · intro h
      exact Or.inl (by rw [h, sub_self, mul_zero])

/-- The hypotheses of `C37_remainder` hold for three samples in batches of two. -/
example : (∀ k n, ((valCfg 2).perm k n).Perm (List.range n)) ∧ 0 < 3 % (valCfg 2).valBatchSize ∧ (valCfg 2).valBatchSize ≤ 3 ∧
    DataUniform 3 (valCfg 2).val ∧ (valCfg 2).add = (· + ·) ∧ (valCfg 2).zero = 0 :=
  ⟨fun _ _ => List.Perm.refl _, by simp [valCfg], by simp [valCfg],
    ⟨⟨by simp [valCfg], by simp [valCfg]⟩, by simp [valCfg], by simp [valCfg]⟩, rfl, rfl⟩

/-- The hypotheses of `C37_mean_partial` hold for the example with one batch. -/
example : (∀ k n, ((valCfg 3).perm k n).Perm (List.range n)) ∧ (valCfg 3).valBatchSize ∣ 3 ∧ 0 < (valCfg 3).valBatchSize :=
  ⟨fun _ _ => List.Perm.refl _, by simp [valCfg], by simp [valCfg]⟩

end Verif.Props
