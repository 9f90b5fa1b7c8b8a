import Verif.Props.BatchArr
import Verif.Spec.BatchArr

/-!
# C15, the state: batches are processed one after the other
-/

namespace Verif.Props
open Tree Forward Samplewise DataflowSpec ForwardSpec BatchArr BatchArrSpec

variable {M P S K V : Type}

theorem threaded_run {f : Tree (NArr V) → S → Except PyErr (Tree (NArr V) × S)} : ∀ {bs ys : List (Tree (NArr V))} {s s' : S},
    runBatches f bs s = .ok (ys, s') → Threaded f bs s ys s'
  | [], ys, s, s', h => by
    simp only [runBatches, Except.ok.injEq, Prod.mk.injEq] at h
    obtain ⟨rfl, rfl⟩ := h
    exact .nil _
  | b :: bs, ys, s, s', h => by
    simp only [runBatches] at h
    split at h
    · cases h
    · next y s1 h1 =>
      split at h
      · cases h
      · next ys' s2 h2 =>
        simp only [Except.ok.injEq, Prod.mk.injEq] at h
        obtain ⟨rfl, rfl⟩ := h
        exact .cons h1 (threaded_run h2)

theorem threaded_append {f : Tree (NArr V) → S → Except PyErr (Tree (NArr V) × S)} {bs bs' ys ys' : List (Tree (NArr V))} {s s' s'' : S}
    (h : Threaded f bs s ys s') (h' : Threaded f bs' s' ys' s'') : Threaded f (bs ++ bs') s (ys ++ ys') s'' := by
  induction h with
  | nil => exact h'
  | cons h1 _ ih => exact .cons h1 (ih h')

theorem blocks_append {n : Nat} {d : Tree (NArr V)} : ∀ {ls ls' : List Nat} {a : Nat} {bs bs' : List (Tree (NArr V))},
    Blocks n d a ls bs → Blocks n d (a + ls.sum) ls' bs' → Blocks n d a (ls ++ ls') (bs ++ bs')
  | [], ls', a, [], bs', _, h' => by simpa using h'
  | l :: ls, ls', a, b :: bs, bs', h, h' => by
    refine ⟨h.1, blocks_append h.2 ?_⟩
    rwa [List.sum_cons, ← Nat.add_assoc] at h'

theorem blocks_chain {n : Nat} {d : Tree (NArr V)} : ∀ {ls : List Nat} {a : Nat} {bs : List (Tree (NArr V))},
    Chain (fun a l t => Related (Piece n a l) d t) a ls bs → Blocks n d a ls bs
  | [], _, [], _ => trivial
  | _ :: _, _, _ :: _, h => ⟨h.1, blocks_chain h.2⟩

/-- **C15**, the state: whatever the function does with its state, automatic batching calls it on consecutive blocks of the samples, each call with the
state that the one before returned, and returns the last state. -/
theorem C15_threads [Inhabited V] (avoid : Bool) (f : Tree (NArr V) → S → Except PyErr (Tree (NArr V) × S)) (s s' : S) (d y : Tree (NArr V)) (n m : Nat)
    (hd : ∀ x ∈ d.jaxLeaves, ∃ t, x.shape = n :: t) (hne : d.jaxLeaves ≠ []) (hkd : KeysOk d) (hm : 0 < m)
    (h : autobatch avoid f (some m) d s = .ok (y, s')) :
    (n ≤ m ∧ jit f d s = .ok (y, s')) ∨
    (m < n ∧ ∃ bs ys, Blocks n d.norm 0 (sizes avoid n m) bs ∧ Threaded (jit f) bs s ys s') := by
  have h' := h
  unfold autobatch at h
  rw [numSamples_uniform hd hne] at h
  simp only at h
  split at h
  · next hnm => exact .inl ⟨hnm, h⟩
  · next hnm =>
    refine .inr ⟨by omega, ?_⟩
    obtain ⟨parts, hp, hsplit⟩ := split_uniform hd hne hm
    have hsum : 0 + (List.replicate (n / m) m).sum = n / m * m := by simp
    rcases hsplit with ⟨hr0, hsp⟩ | ⟨hrpos, X, hsp, hX⟩
    · rw [hsp] at h
      simp only at h
      split at h
      · cases h
      · next ys s1 hrun =>
        split at h
        · cases h
        · simp only [Except.ok.injEq, Prod.mk.injEq] at h
          obtain ⟨rfl, rfl⟩ := h
          refine ⟨parts, ys, ?_, threaded_run hrun⟩
          rw [sizes, if_pos hr0, List.append_nil]
          exact blocks_chain hp
    · rw [hsp] at h
      simp only at h
      split at h
      · cases h
      · next ys s1 hrun =>
        split at h
        · cases h
        · split at h
          · cases h
          · next out' s2 hrem =>
            split at h
            · cases h
            · simp only [Except.ok.injEq, Prod.mk.injEq] at h
              obtain ⟨rfl, rfl⟩ := h
              rw [sizes, if_neg (by omega)]
              cases avoid with
              | false =>
                simp only [runRemainder, Bool.false_eq_true, if_false] at hrem
                refine ⟨parts ++ [X], ys ++ [out'], ?_, threaded_append (threaded_run hrun) (.cons hrem (.nil _))⟩
                refine blocks_append (blocks_chain hp) ?_
                rw [hsum]
                exact ⟨hX, trivial⟩
              | true =>
                have hsc : ∀ x ∈ Tree.flat d.norm, x.shape.length ≠ 1 := fun x hx hx1 =>
                  C15_scalar_samples_refuted f s d n m hd hkd hm hrpos (by omega) ⟨x, hx, hx1⟩ _ h'
                simp only [runRemainder, if_true] at hrem
                obtain ⟨bs, hb1, hb2⟩ := singles_chain (sorted_norm d hkd) hsc hX (n % m) 0 (by omega)
                rw [← List.range_eq_range'] at hb1
                rw [hb1] at hrem
                simp only at hrem
                split at hrem
                · cases hrem
                · next ys' s3 hrun' =>
                  split at hrem
                  · cases hrem
                  · simp only [Except.ok.injEq, Prod.mk.injEq] at hrem
                    obtain ⟨rfl, rfl⟩ := hrem
                    refine ⟨parts ++ bs, ys ++ ys', ?_, threaded_append (threaded_run hrun) (threaded_run hrun')⟩
                    refine blocks_append (blocks_chain hp) ?_
                    rw [hsum]
                    exact blocks_chain hb2

/-- Counts the samples it has seen; the result is the samples with the count before added. -/
def counting (x : Tree (NArr Int)) (s : Nat) : Except PyErr (Tree (NArr Int) × Nat) :=
  .ok (x.map fun a => ⟨a.shape, fun i => a.val i + s⟩, s + ((x.jaxLeaves.head?.map fun a => a.shape.headD 0).getD 0))

example : ((autobatch true counting (some 2) (.leaf ⟨[5, 1], fun i => 100 * i.getD 0 0⟩) 7).toOption.map fun r => (r.1.map fun a => (a.shape, (List.range 5).map fun i => a.val [i, 0]), r.2)) =
    some (.leaf ([5, 1], [7, 107, 209, 309, 411]), 12) ∧ sizes true 5 2 = [2, 2, 1] ∧ sizes true 8 3 = [3, 3, 1, 1] ∧ sizes false 8 3 = [3, 3, 2] := by
  decide +kernel

end Verif.Props
