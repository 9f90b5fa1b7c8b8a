import Verif.Lemmas.TrainArgs

/-! # Properties of argument validation (C35) -/

namespace Verif.Props
open Verif.TrainArgs

variable {σ : Type} [DecidableEq σ]

/-- **C35 (partial)** For data that consists of arrays with at least one axis, `train` accepts the arguments exactly if they
are `Consistent`. Missing: `Consistent` does not demand that all feature arrays have the same number of samples when there
are no targets, and does not forbid validation targets without validation features; the code accepts both, see
`C35_ragged_accepted` and `C35_ignored_targets`. -/
theorem C35_validation_partial (a : Args σ) (hw : WellFormed a) : (∃ p, validate a = .ok p) ↔ Consistent a := by
  obtain ⟨n, hn, -⟩ := numSamples_ok hw.X
  have hXv : IsData (a.Xval.getD a.X) := by
    cases h : a.Xval with
    | none => exact hw.X
    | some x => exact hw.Xval x h
  obtain ⟨nv, hnv, -⟩ := numSamples_ok hXv
  constructor
  · rintro ⟨p, hp⟩
    exact ((validate_iff hw hn hnv p).1 hp).1
  · intro h
    exact ⟨_, (validate_iff hw hn hnv _).2 ⟨h, rfl⟩⟩

/-- **C35** Inconsistent arguments are reported as `ValueError`. -/
theorem C35_rejects (a : Args σ) (hw : WellFormed a) (h : ¬ Consistent a) : validate a = .error .valueError := by
  cases hv : validate a with
  | ok p => exact absurd ((C35_validation_partial a hw).1 ⟨p, hv⟩) h
  | error e => rw [validate_onlyValue hw e hv]

/-- **C35** The batch sizes of an accepted call are at least one, if at least one was asked for, and at most the number of
samples; a validation batch size that is not positive means the whole validation set. -/
theorem C35_batch_sizes (a : Args σ) (hw : WellFormed a) (p : Plan σ) (hp : validate a = .ok p) (n nv : Nat)
    (hn : ∃ s ss, a.X.shapes = (n :: s) :: ss) (hnv : ∃ s ss, p.Xval.shapes = (nv :: s) :: ss) :
    p.batchSize = min a.batchSize n ∧ p.valBatchSize = (if a.valBatchSize ≤ 0 then nv else min a.valBatchSize.toNat nv) := by
  obtain ⟨k, hk, sk, ssk, hks⟩ := numSamples_ok hw.X
  have hXv : IsData (a.Xval.getD a.X) := by
    cases h : a.Xval with
    | none => exact hw.X
    | some x => exact hw.Xval x h
  obtain ⟨kv, hkv, sv, ssv, hkvs⟩ := numSamples_ok hXv
  obtain ⟨-, rfl⟩ := (validate_iff hw hk hkv p).1 hp
  obtain ⟨s, ss, hs⟩ := hn
  obtain ⟨s', ss', hs'⟩ := hnv
  simp only at hs' ⊢
  rw [hks] at hs
  rw [hkvs] at hs'
  simp only [List.cons.injEq] at hs hs'
  obtain ⟨⟨rfl, -⟩, -⟩ := hs
  obtain ⟨⟨rfl, -⟩, -⟩ := hs'
  constructor
  · split <;> omega
  · split
    · rw [if_neg (by omega)]; omega
    · split
      · rfl
      · omega

/-- **C35** Validation uses the given validation data, or the training data if there is none; uncertainties are dropped
when training has none. -/
theorem C35_validation_data (a : Args σ) (hw : WellFormed a) (p : Plan σ) (hp : validate a = .ok p) :
    (a.Xval = none → p.Xval = a.X ∧ p.Yval = a.Y ∧ p.YvalUnc = a.Yunc) ∧
    (∀ x, a.Xval = some x → p.Xval = x ∧ p.Yval = a.Yval ∧ (p.YvalUnc.isSome = true ↔ a.Yunc.isSome = true) ∧
      ∀ u, p.YvalUnc = some u → a.YvalUnc = some u) := by
  obtain ⟨k, hk, -⟩ := numSamples_ok hw.X
  have hXv : IsData (a.Xval.getD a.X) := by
    cases h : a.Xval with
    | none => exact hw.X
    | some x => exact hw.Xval x h
  obtain ⟨kv, hkv, -⟩ := numSamples_ok hXv
  obtain ⟨hc, rfl⟩ := (validate_iff hw hk hkv p).1 hp
  refine ⟨fun hx => by simp [hx], fun x hx => ?_⟩
  simp only [hx, Option.getD_some, Option.isNone_some, Bool.false_eq_true, if_false, true_and]
  cases hu : a.Yunc with
  | some u =>
    simp only [Option.isNone_some, Bool.false_and, Bool.false_eq_true, if_false, Option.isSome_some, iff_true]
    refine ⟨?_, fun u h => h⟩
    obtain ⟨y, hy⟩ := Option.isSome_iff_exists.1 (hc.yunc (by rw [hu]; rfl))
    obtain ⟨yv, hyv, -⟩ := hc.xyval x y hx hy
    exact hc.yvalunc' (by rw [hu]; rfl) (by rw [hyv]; rfl)
  | none =>
    cases hv : a.Yval with
    | some v => simp
    | none =>
      have : a.YvalUnc = none := by
        cases h : a.YvalUnc with
        | none => rfl
        | some w => have := hc.yvalunc (by rw [h]; rfl); rw [hv] at this; cases this
      simp [this]

/-- Supervised training on four samples with uncertainties and validation data. -/
def demoArgs : Args Nat where
  resume := false
  adam := none
  params := some 7
  flags := 7
  X := ⟨0, [[4, 3], [4]]⟩
  Y := some ⟨1, [[4, 2]]⟩
  Yunc := some ⟨1, [[4, 2]]⟩
  Xval := some ⟨0, [[2, 3], [2]]⟩
  Yval := some ⟨1, [[2, 2]]⟩
  YvalUnc := some ⟨1, [[2, 2]]⟩
  batchSize := 10
  valBatchSize := -1

theorem demoArgs_wellFormed : WellFormed demoArgs := by
  refine ⟨?_, ?_, ?_, ?_, ?_, ?_, ?_⟩
  · simp [IsData, demoArgs]
  all_goals first
    | (intro d hd; cases hd; simp [IsData]; done)
    | skip
  intro d hd e he x y hx hy hs
  simp only [demoArgs, List.mem_cons, List.not_mem_nil, or_false] at hd he
  rcases hd with rfl | rfl | rfl | rfl | rfl | rfl <;> cases hx <;>
    rcases he with rfl | rfl | rfl | rfl | rfl | rfl <;> cases hy <;> simp_all

/-- Accepted, with both batches the full data. -/
example : (validate demoArgs).toOption.map (fun p => (p.batchSize, p.valBatchSize)) = some (4, 2) := by decide

/-- Rejected: the targets have one sample too many. -/
example : WellFormed demoArgs ∧ ¬ Consistent { demoArgs with Y := some ⟨1, [[5, 2]]⟩, Yunc := none } := by
  refine ⟨demoArgs_wellFormed, fun h => ?_⟩
  obtain ⟨n, h1, h2⟩ := h.samples _ rfl
  have e1 := h1 [4, 3] (by simp [demoArgs])
  have e2 := h2 [5, 2] (by simp)
  simp at e1 e2
  omega

/-- The code as it is: without targets, feature arrays with different numbers of samples are accepted. (Each is then
shuffled and cut by its own length, so rows stop belonging together.) -/
theorem C35_ragged_accepted : ∃ (a : Args Nat) (s t : List Nat), WellFormed a ∧ s ∈ a.X.shapes ∧ t ∈ a.X.shapes ∧
    s.head? ≠ t.head? ∧ ∃ p, validate a = .ok p := by
  refine ⟨⟨false, none, some 7, 7, ⟨0, [[4], [3]]⟩, none, none, none, none, none, 2, 0⟩, [4], [3], ?_, by simp, by simp,
    by simp, ⟨_, rfl⟩⟩
  refine ⟨by simp [IsData], ?_, ?_, ?_, ?_, ?_, ?_⟩
  all_goals first
    | (intro d hd; cases hd; done)
    | skip
  intro d hd e he x y hx hy hs
  simp only [List.mem_cons, List.not_mem_nil, or_false] at hd he
  rcases hd with rfl | rfl | rfl | rfl | rfl | rfl <;> cases hx
  rcases he with rfl | rfl | rfl | rfl | rfl | rfl <;> cases hy
  rfl

/-- The code as it is: validation targets given without validation features are accepted and ignored, whatever their
shape. -/
theorem C35_ignored_targets (a : Args σ) (hx : a.Xval = none) (y d : Shaped σ) (hy : a.Y = some y)
    (hu : a.Yunc = none) (hvu : a.YvalUnc = none) (hv : a.Yval = none) : validate { a with Yval := some d } = validate a := by
  unfold validate
  simp only [hx, hy, hu, hvu, hv, Option.isNone_none, if_true, Option.isSome_none, Option.isSome_some, Bool.false_and,
    Option.isNone_some]

/-- Nine validation targets of another shape, no validation features. -/
example : (validate { demoArgs with Yunc := none, YvalUnc := none, Xval := none, Yval := some ⟨5, [[9, 1, 1]]⟩ }).toOption.isSome
    = true := by decide

end Verif.Props
