import Verif.Lemmas.Shuffle

/-! # Properties of batching, automatic batching and shuffling (C14-C17) -/

namespace Verif.Props

open Verif.Batch Verif.BatchSpec

variable {α γ S : Type}

/-- Two leaves with five samples. -/
def demoData : Leaves Nat := [[1, 2, 3, 4, 5], [10, 20, 30, 40, 50]]

example : Uniform 5 demoData := ⟨by decide, by decide⟩

/-! ## C14 -/

/-- **C14** Splitting `n` samples into batches of `size` gives for every leaf `n / size` batches of exactly `size` samples
and, if `size` does not divide `n`, a remainder of `n % size` samples (fewer than `size`); put together in order they are
the leaf again. -/
theorem C14_split (X : Leaves α) (n size : Nat) (hX : Uniform n X) (hs : 0 < size) (hle : size ≤ n) :
    ∃ parts rem, pytreeSplit X size = .ok (parts, rem) ∧ parts.length = X.length ∧ (rem = none ↔ size ∣ n) ∧
      (∀ R, rem = some R → R.length = X.length) ∧
      ∀ (k : Nat) (x : List α), X[k]? = some x → ∃ bs, parts[k]? = some bs ∧ bs.length = n / size ∧
        (∀ b ∈ bs, b.length = size) ∧
        (∀ R, rem = some R → ∃ r, R[k]? = some r ∧ r.length = n % size ∧ r.length < size ∧ bs.flatten ++ r = x) ∧
        (rem = none → bs.flatten = x) := by
  refine ⟨_, _, split_ok hX hs hle, by simp, ?_, ?_, ?_⟩
  · rw [Nat.dvd_iff_mod_eq_zero]
    split
    · rename_i h; simp; omega
    · rename_i h; simp; omega
  · intro R hR
    split at hR
    · cases hR; simp
    · simp at hR
  · intro k x hx
    have hxl : x.length = n := hX.2 x (List.mem_of_getElem? hx)
    refine ⟨leafBatches size (n / size) x, by simp [hx], by simp [leafBatches], ?_, ?_, ?_⟩
    · intro b hb
      obtain ⟨i, hi, rfl⟩ := List.mem_map.1 hb
      have := mul_div_le' n size i (List.mem_range.1 hi)
      rw [List.length_take, List.length_drop]; omega
    · intro R hR
      split at hR
      · cases hR
        have := div_mod n size
        have hmod := Nat.mod_lt n hs
        have hl : (x.drop (n / size * size)).length = n % size := by rw [List.length_drop]; omega
        exact ⟨x.drop (n / size * size), by simp [hx], hl, by omega, leaf_rejoin x hxl⟩
      · simp at hR
    · intro h
      split at h
      · simp at h
      · rename_i hr
        have := leaf_rejoin (size := size) x hxl
        rwa [rem_empty hxl hr, List.append_nil] at this

/-- **C14** `concatenate` of the batches and the remainder (as trees, in order) returns the data set. -/
theorem C14_concatenate_split (X : Leaves α) (n size : Nat) (hX : Uniform n X) (hs : 0 < size) (hle : size ≤ n)
    (parts : List (List (List α))) (rem : Option (Leaves α)) (h : pytreeSplit X size = .ok (parts, rem)) :
    concatenate (((List.range (n / size)).map fun j => parts.map fun p => (p[j]?).getD []) ++ rem.toList) = .ok X := by
  rw [split_ok hX hs hle] at h
  simp only [Except.ok.injEq, Prod.mk.injEq] at h
  obtain ⟨rfl, rfl⟩ := h
  rw [batches_eq]
  have hnb : 0 < n / size := Nat.div_pos hle hs
  have hj : JoinOf (fullBatches size (n / size) X ++
      (if n % size > 0 then some (X.map fun x => x.drop (n / size * size)) else none).toList) X := by
    split
    · exact join_append (join_take_drop X (n / size * size)) (join_full _ _ X) (join_self _)
    · rename_i hr
      have hj := join_full size (n / size) X
      have : (X.map fun x => x.take (n / size * size)) = X := by
        conv => rhs; rw [← List.map_id X]
        refine List.map_congr_left fun x hx => ?_
        have := div_mod n size
        rw [List.take_of_length_le (by rw [hX.2 x hx]; omega)]; rfl
      rw [this] at hj
      simpa using hj
  obtain ⟨out, ho, hl, hjo⟩ := concatenate_ok (w := X.length) (ts := fullBatches size (n / size) X ++
      (if n % size > 0 then some (X.map fun x => x.drop (n / size * size)) else none).toList) (by
      intro e
      have := congrArg List.length (List.append_eq_nil_iff.1 e).1
      simp [fullBatches] at this
      omega) hj.1
  rw [ho, join_unique hl hjo hj]

/-- **C14** A single batch is the requested slice of every leaf. -/
theorem C14_batch_leaves (X : Leaves α) (n size idx : Nat) (len : Option Nat) (hX : Uniform n X)
    (hle : idx * size + len.getD size ≤ n) :
    ∃ B, batchLeaves X size idx len = .ok B ∧ ∀ i, i < len.getD size → sampleAt B i = sampleAt X (idx * size + i) := by
  refine ⟨X.map fun x => (x.drop (idx * size)).take (len.getD size), mapM_ok' _ _ _ fun x hx => ?_, fun i hi => ?_⟩
  · exact dynSlice_ok (by rw [hX.2 x hx]; exact hle)
  · unfold sampleAt
    rw [List.map_map]
    refine List.map_congr_left fun x _ => ?_
    simp only [Function.comp, List.getElem?_take, List.getElem?_drop, hi, if_true]

/-- **C14** Impossible requests raise. -/
theorem C14_errors (X : Leaves α) (n : Nat) (hX : Uniform n X) :
    pytreeSplit X 0 = .error .zeroDivision ∧ ∀ size, n < size → pytreeSplit X size = .error .typeError := by
  have hn : numSamples X = .ok n := by
    obtain ⟨hne, hlen⟩ := hX
    cases X with
    | nil => exact absurd rfl hne
    | cons x X => simp [numSamples, hlen x (by simp)]
  constructor
  · simp [pytreeSplit, hn, bind, Except.bind, throw, throwThe, MonadExceptOf.throw]
  · intro size hs
    have : X.any (fun x => x.length < size) = true := by
      obtain ⟨x, hx⟩ := List.exists_mem_of_ne_nil _ hX.1
      exact List.any_eq_true.2 ⟨x, hx, by simp [hX.2 x hx, hs]⟩
    have h0 : size ≠ 0 := by omega
    simp [pytreeSplit, hn, bind, Except.bind, throw, throwThe, MonadExceptOf.throw, this, h0]

example : pytreeSplit demoData 2 = .ok ([[[1, 2], [3, 4]], [[10, 20], [30, 40]]], some [[5], [50]]) := rfl
example : Uniform 4 [[1, 2, 3, 4]] ∧ pytreeSplit [[1, 2, 3, 4]] 2 = .ok ([[[1, 2], [3, 4]]], none) :=
  ⟨⟨by decide, by decide⟩, rfl⟩

/-! ## C15, C16 -/

/-- **C16** Automatic batching calls the function on consecutive, nonempty batches of at most `m` samples that together are
the data set; each call gets the state returned by the previous call, the final state is the last one, and the outputs are
joined in order. This holds for both recompilation modes; the mode without recompilation needs leaves whose samples are not
scalars (see `C15_scalar_leaf_raises`). -/
theorem C16_state_threaded (isScalar : α → Bool) (f : Leaves α → S → Leaves γ × S) (hf : StaticWidth f) (n m : Nat)
    (hn : 0 < n) (hm : 0 < m) (avoid : Bool) (X : Leaves α) (hX : Uniform n X)
    (hsc : avoid = true → ∀ x ∈ X, ∀ a ∈ x, isScalar a = false) (s : S) :
    ∃ bs ys s' out, autobatch isScalar f (some m) avoid X s = .ok (out, s') ∧
      JoinOf bs X ∧ (∀ b ∈ bs, ∃ k, 0 < k ∧ k ≤ m ∧ Uniform k b) ∧ Runs f bs s ys s' ∧ JoinOf ys out := by
  obtain ⟨bs, ys, s', out, h1, h2, h3, h4, -, h6, -⟩ := autobatch_run isScalar hf hm avoid hX hsc s
  exact ⟨bs, ys, s', out, h1, h2, fun b hb => by obtain ⟨k, a, b', c⟩ := h6 b hb; exact ⟨k, b' hn, a, c⟩, h3, h4⟩

/-- **C16** Without a limit the function is called once. -/
theorem C16_no_limit (isScalar : α → Bool) (f : Leaves α → S → Leaves γ × S) (avoid : Bool) (X : Leaves α) (hX : X ≠ [])
    (s : S) : autobatch isScalar f none avoid X s = .ok (f X s) := by
  cases X with
  | nil => exact absurd rfl hX
  | cons x X => rfl

/-- **C15** For a per-sample function with constant state, automatic batching with any limit and in either mode gives
exactly the result of one call. -/
theorem C15_autobatch_eq (isScalar : α → Bool) (f : Leaves α → S → Leaves γ × S) (hf : StaticWidth f) (hps : PerSample f)
    (n m : Nat) (hn : 0 < n) (hm : 0 < m) (avoid : Bool) (X : Leaves α) (hX : Uniform n X)
    (hsc : avoid = true → ∀ x ∈ X, ∀ a ∈ x, isScalar a = false) (s : S) :
    autobatch isScalar f (some m) avoid X s = .ok (f X s) := by
  obtain ⟨bs, ys, s', out, h1, h2, h3, h4, h5, h6, h7⟩ := autobatch_run isScalar hf hm avoid hX hsc s
  rw [h1]
  have hs := runs_state hps h3
  have hj := perSample_join hps h5 (fun b hb => by obtain ⟨k, -, b', c⟩ := h6 b hb; exact ⟨k, b' hn, c⟩) h3 h2
  rw [join_unique h7 h4 hj, hs]
  congr 1
  exact Prod.ext rfl (hps.state X s).symm

/-- A function that doubles every entry is a per-sample function. -/
example : StaticWidth (fun (X : Leaves Nat) (s : Unit) => (X.map (·.map (2 * ·)), s)) ∧
    PerSample (fun (X : Leaves Nat) (s : Unit) => (X.map (·.map (2 * ·)), s)) := by
  refine ⟨fun X Y s s' h => by simp [h], fun X s => rfl, ?_⟩
  intro X Y Z s n m _ _ _ _ h
  have l1 := h.1 Y (by simp)
  have l2 := h.1 Z (by simp)
  refine ⟨by simp [l1, l2], fun k x hx => ?_⟩
  simp only [List.getElem?_map, Option.map_eq_some_iff] at hx
  obtain ⟨x', hx', rfl⟩ := hx
  have hk := (List.getElem?_eq_some_iff.1 hx').1
  have h1 : Y[k]? = some Y[k] := List.getElem?_eq_getElem (by omega)
  have h2 : Z[k]? = some Z[k] := List.getElem?_eq_getElem (by omega)
  rw [h.2 k x' hx']
  simp [h1, h2]

/-- Summation with a running state: five samples, batches of two. -/
example : autobatch (fun _ => false) (fun (X : Leaves Nat) (s : Nat) => (X.map (·.map (· + s)), s + 100)) (some 2) false
    demoData 0 = .ok ([[1, 2, 103, 104, 205], [10, 20, 130, 140, 250]], 300) := rfl

example : autobatch (fun _ => false) (fun (X : Leaves Nat) (s : Nat) => (X.map (·.map (· + s)), s + 100)) (some 3) true
    demoData 0 = .ok ([[1, 2, 3, 104, 205], [10, 20, 30, 140, 250]], 300) := rfl

/-- **C15, defect**: in the mode without recompilation, data with a one-dimensional leaf (scalar samples) raises whenever
there is a remainder, although the same call in the other mode succeeds. -/
theorem C15_scalar_leaf_raises :
    autobatch (fun _ => true) (fun (X : Leaves Nat) (s : Unit) => (X, s)) (some 2) true [[1, 2, 3]] () = .error .indexError ∧
    autobatch (fun _ => true) (fun (X : Leaves Nat) (s : Unit) => (X, s)) (some 2) false [[1, 2, 3]] () =
      .ok ([[1, 2, 3]], ()) := ⟨rfl, rfl⟩

/-! ## C17 -/

/-- **C17** Shuffling `X`, `Y` and `U` with one key applies one permutation `π` of the samples to all of them. -/
theorem C17_aligned {K : Type} (perm : K → Nat → List Nat) (hperm : ∀ k n, (perm k n).Perm (List.range n))
    (split : K → Nat → List K) (key : K) (n : Nat) (X Y U : Leaves α) (hX : Uniform n X) (hY : Uniform n Y)
    (hU : Uniform n U) :
    Uniform n (permuteLeaves perm split X key false) ∧ ∃ π : List Nat, π.Perm (List.range n) ∧
      ∀ (j i : Nat), π[j]? = some i →
        sampleAt (permuteLeaves perm split X key false) j = sampleAt X i ∧
        sampleAt (permuteLeaves perm split Y key false) j = sampleAt Y i ∧
        sampleAt (permuteLeaves perm split U key false) j = sampleAt U i :=
  ⟨permute_uniform hperm split key hX, perm key n, hperm key n, fun j i h =>
    ⟨permute_sample hperm split key hX.2 j i h, permute_sample hperm split key hY.2 j i h,
      permute_sample hperm split key hU.2 j i h⟩⟩

/-- **C17** Hence every triple survives exactly once. -/
theorem C17_triples {K : Type} (perm : K → Nat → List Nat) (hperm : ∀ k n, (perm k n).Perm (List.range n))
    (split : K → Nat → List K) (key : K) (n : Nat) (X Y U : Leaves α) (hX : Uniform n X) (hY : Uniform n Y)
    (hU : Uniform n U) :
    ((List.range n).map fun i => (sampleAt (permuteLeaves perm split X key false) i,
        sampleAt (permuteLeaves perm split Y key false) i, sampleAt (permuteLeaves perm split U key false) i)).Perm
      ((List.range n).map fun i => (sampleAt X i, sampleAt Y i, sampleAt U i)) :=
  map_range_perm (hperm key n) fun j i h => by
    rw [permute_sample hperm split key hX.2 j i h, permute_sample hperm split key hY.2 j i h,
      permute_sample hperm split key hU.2 j i h]

/-- Reversal is a possible generator. -/
example : (∀ (_ : Unit) n, ((fun (_ : Unit) n => (List.range n).reverse) () n).Perm (List.range n)) ∧
    permuteLeaves (fun (_ : Unit) n => (List.range n).reverse) (fun k n => List.replicate n k) demoData () false
      = [[5, 4, 3, 2, 1], [50, 40, 30, 20, 10]] :=
  ⟨fun _ n => List.reverse_perm _, by decide⟩

/-- **C17, contrast**: with one key per leaf (`independent_leaves=True`) the leaves of one sample are torn apart. -/
theorem C17_independent_not_aligned :
    ∃ (perm : Bool → Nat → List Nat), (∀ k n, (perm k n).Perm (List.range n)) ∧
      permuteLeaves perm (fun _ _ => [true, false]) [[1, 2], [10, 20]] true true = [[2, 1], [10, 20]] :=
  ⟨fun k n => if k then (List.range n).reverse else List.range n, fun k n => by
    cases k
    · exact List.Perm.refl _
    · exact List.reverse_perm _, by decide⟩

end Verif.Props
