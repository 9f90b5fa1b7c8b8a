import Verif.Lemmas.Edit
import Verif.Model.EditHeap
import Mathlib.Data.List.Induction

/-! Lemmas: permutation of leaves, edit histories, readiness. -/

namespace Verif.Edit
open EditSpec

variable {α M S : Type}

/-! ### JAX's leaf order is a permutation of the container order -/

theorem insKv_flat (k : Str) (t : Tree α) (kvs : List (Str × Tree α)) :
    (Tree.flatD (Tree.insKv k t kvs)).Perm (t.flat ++ Tree.flatD kvs) := by
  induction kvs with
  | nil => simp [Tree.insKv, Tree.flatD]
  | cons q r ih =>
    obtain ⟨k', t'⟩ := q
    unfold Tree.insKv
    split
    · rw [Tree.flatD, Tree.flatD]
      refine (List.Perm.append_left _ ih).trans ?_
      rw [← List.append_assoc, ← List.append_assoc]
      exact List.Perm.append_right _ List.perm_append_comm
    · simp [Tree.flatD]

theorem sortKvs_flat (kvs : List (Str × Tree α)) : (Tree.flatD (Tree.sortKvs kvs)).Perm (Tree.flatD kvs) := by
  induction kvs with
  | nil => simp [Tree.sortKvs]
  | cons q r ih =>
    obtain ⟨k, t⟩ := q
    have : Tree.sortKvs ((k, t) :: r) = Tree.insKv k t (Tree.sortKvs r) := rfl
    rw [this, Tree.flatD]
    exact (insKv_flat k t _).trans (List.Perm.append_left _ ih)

mutual
theorem norm_perm : ∀ t : Tree α, (t.norm.flat).Perm t.flat
  | .leaf _ => by simp [Tree.norm]
  | .none => by simp [Tree.norm]
  | .list ts => by simp only [Tree.norm, Tree.flat]; exact normL_perm ts
  | .tuple ts => by simp only [Tree.norm, Tree.flat]; exact normL_perm ts
  | .dict kvs => by
    simp only [Tree.norm, Tree.flat]
    exact (sortKvs_flat _).trans (normD_perm kvs)
theorem normL_perm : ∀ ts : List (Tree α), (Tree.flatL (Tree.normL ts)).Perm (Tree.flatL ts)
  | [] => by simp [Tree.normL]
  | t :: ts => by
    simp only [Tree.normL, Tree.flatL]
    exact List.Perm.append (norm_perm t) (normL_perm ts)
theorem normD_perm : ∀ kvs : List (Str × Tree α), (Tree.flatD (Tree.normD kvs)).Perm (Tree.flatD kvs)
  | [] => by simp [Tree.normD]
  | (k, t) :: ts => by
    simp only [Tree.normD, Tree.flatD]
    exact List.Perm.append (norm_perm t) (normD_perm ts)
end

theorem jaxLeaves_perm (t : Tree α) : t.jaxLeaves.Perm t.flat := norm_perm t

theorem jaxLeaves_holds {t : Tree α} {xs : List α} (h : Holds t xs) : t.jaxLeaves.Perm xs := by
  rw [holds_unique h]; exact jaxLeaves_perm t

theorem jaxLeaves_length_list (l : List (Tree α)) (h : ∀ t ∈ l, ∃ a, t = .leaf a) :
    (Tree.list l).jaxLeaves.length = l.length := by
  rw [(jaxLeaves_perm _).length_eq, Tree.flat]
  induction l with
  | nil => simp [Tree.flatL]
  | cons t l ih =>
    obtain ⟨a, rfl⟩ := h t (by simp)
    rw [Tree.flatL, Tree.flat, List.length_append, ih fun t ht => h t (by simp [ht])]
    simp; omega

/-! ### Path assignment -/

theorem getKey_setKey {t v t' : Tree Nat} {k : Key} (h : setKey t k v = .ok t') : getKey t' k = .ok v := by
  unfold setKey at h
  split at h
  · rename_i kvs s
    cases h
    have : List.lookup s (dictSet kvs s v) = some v := by
      induction kvs with
      | nil => simp [dictSet]
      | cons q r ih =>
        obtain ⟨k', t'⟩ := q
        by_cases hk : k' = s
        · simp [dictSet, hk]
        · have hb : (s == k') = false := by simpa using fun e => hk e.symm
          simp [dictSet, hk, List.lookup, hb, ih]
    simp [getKey, this]
  · rename_i ts i
    split at h
    · rename_i ts' he
      cases h
      unfold pySet at he
      split at he
      · cases he
      · rename_i p hp
        cases he
        have hlt : p < ts.length := ((refers_iff _ _ _).1 hp).1
        simp [getKey, hp, hlt]
    · cases h
  · cases h

theorem getKey_putChild {t c c' : Tree Nat} {k : Key} (h : getKey t k = .ok c) : getKey (putChild t k c') k = .ok c' := by
  unfold getKey at h
  split at h
  · rename_i kvs s
    have : List.lookup s (dictSet kvs s c') = some c' := by
      clear h
      induction kvs with
      | nil => simp [dictSet]
      | cons q r ih =>
        obtain ⟨k', t'⟩ := q
        by_cases hk : k' = s
        · simp [dictSet, hk]
        · have hb : (s == k') = false := by simpa using fun e => hk e.symm
          simp [dictSet, hk, List.lookup, hb, ih]
    simp [getKey, putChild, this]
  · cases h
  · rename_i ts i
    split at h
    · rename_i p hp
      have hlt : p < ts.length := ((refers_iff _ _ _).1 hp).1
      simp [getKey, putChild, hp, hlt]
    · cases h
  · rename_i ts i
    split at h
    · rename_i p hp
      have hlt : p < ts.length := ((refers_iff _ _ _).1 hp).1
      simp [getKey, putChild, hp, hlt]
    · cases h
  · cases h

theorem getKeys_setKeys {v : Tree Nat} :
    ∀ (ks : List Key) (t t' : Tree Nat), setKeys t ks v = .ok t' → getKeys t' ks = .ok v
  | [], _, _, h => by simp [setKeys] at h
  | [k], t, t', h => by
    have := getKey_setKey (t := t) (k := k) (v := v) h
    simp [getKeys, this]
  | k :: k' :: ks, t, t', h => by
    rw [setKeys] at h
    split at h
    · cases h
    · rename_i c hc
      split at h
      · cases h
      · rename_i c' hc'
        cases h
        have h1 := getKeys_setKeys (k' :: ks) c c' hc'
        rw [getKeys, getKey_putChild hc]
        exact h1

/-! ### Readiness -/

/-- Does the operation drop the compiled state? -/
def clears : Op S → Bool
  | .edit _ | .reset => true
  | _ => false

theorem edit_reset (m : Mdl S) (o : EditOp) : ∃ t, (edit m o).1 = { reset m with modules := t } := by
  unfold edit
  split
  · exact ⟨_, rfl⟩
  · exact ⟨m.modules, rfl⟩

theorem step_clears (sig : Sig M S) (kind : Kind) (w : World M S) (o : Op S) (h : clears o = true) :
    ∃ t, step sig kind w o = { w with mdl := { reset w.mdl with modules := t } } := by
  cases o with
  | edit o => obtain ⟨t, ht⟩ := edit_reset w.mdl o; exact ⟨t, by simp [step, ht]⟩
  | reset => exact ⟨w.mdl.modules, by simp [step, reset]⟩
  | compile s => cases h
  | call s => cases h

theorem call_mdl (sig : Sig M S) (kind : Kind) (w : World M S) (s : S) :
    (call sig kind w s).1.heap = w.heap ∧ (call sig kind w s).1.mdl.inShape = w.mdl.inShape ∧
    (call sig kind w s).1.mdl.outShape = w.mdl.outShape ∧ (call sig kind w s).1.mdl.modules = w.mdl.modules ∧
    (call sig kind w s).1.mdl.order = w.mdl.order ∧
    ((call sig kind w s).1.mdl.callable = w.mdl.callable ∨ (call sig kind w s).1.mdl.callable = some w.mdl.modules) := by
  unfold call
  split
  · simp
  · split
    · simp
    · split
      · simp
      · split <;> simp

theorem compile_mdl (sig : Sig M S) (kind : Kind) (w : World M S) (s : S) :
    (compile sig kind w s).1.mdl.modules = w.mdl.modules ∧ (compile sig kind w s).1.mdl.callable = w.mdl.callable := by
  cases kind with
  | sequential =>
    simp only [compile, seqCompile]
    split <;> simp
  | nonSequential =>
    simp only [compile, nsCompile]
    split
    · split
      · split <;> simp
      · simp
    · split
      · simp
      · split
        · simp
        · split <;> simp

theorem ready_outShape {sig : Sig M S} {kind : Kind} {w : World M S} (h : isReady sig kind w = true) :
    ∃ s, w.mdl.outShape = some s := by
  cases kind with
  | sequential =>
    simp only [isReady, Bool.and_eq_true] at h
    exact Option.isSome_iff_exists.1 h.2
  | nonSequential =>
    simp only [isReady] at h
    split at h
    · cases h
    · simp only [Bool.and_eq_true] at h
      exact Option.isSome_iff_exists.1 h.2

/-- The last clearing operation of a history is followed by a compilation with property `P`. -/
def SinceClear (P : List (Op S) → S → Prop) (ops : List (Op S)) : Prop :=
  ∃ pre s post, ops = pre ++ .compile s :: post ∧ (∀ o ∈ post, clears o = false) ∧ P pre s

theorem SinceClear.snoc {P : List (Op S) → S → Prop} {ops : List (Op S)} (h : SinceClear P ops) {o : Op S}
    (ho : clears o = false) : SinceClear P (ops ++ [o]) := by
  obtain ⟨pre, s, post, e, hp, hP⟩ := h
  exact ⟨pre, s, post ++ [o], by simp [e], by
    intro x hx
    rcases List.mem_append.1 hx with hx | hx
    · exact hp x hx
    · simp at hx; subst hx; exact ho, hP⟩

theorem run_snoc (sig : Sig M S) (kind : Kind) (w : World M S) (ops : List (Op S)) (o : Op S) :
    run sig kind w (ops ++ [o]) = step sig kind (run sig kind w ops) o := by simp [run, List.foldl_append]

theorem outShape_compiled (sig : Sig M S) (kind : Kind) (w : World M S) (hw : w.mdl.outShape = none) (ops : List (Op S)) :
    (run sig kind w ops).mdl.outShape = none ∨ SinceClear (fun _ _ => True) ops := by
  induction ops using List.reverseRecOn with
  | nil => exact .inl hw
  | append_singleton ops o ih =>
    rw [run_snoc]
    cases hc : clears o with
    | true =>
      obtain ⟨t, ht⟩ := step_clears sig kind (run sig kind w ops) o hc
      left; rw [ht]; rfl
    | false =>
      cases o with
      | edit o => cases hc
      | reset => cases hc
      | compile s => exact .inr ⟨ops, s, [], rfl, by simp, trivial⟩
      | call s =>
        rcases ih with ih | ih
        · left; simp only [step]; rw [(call_mdl sig kind _ s).2.2.1]; exact ih
        · exact .inr (ih.snoc hc)

theorem seq_outShape_compiled (sig : Sig M S) (hs : ∀ s, sig.scalar s = false) (w : World M S) (hw : w.mdl.outShape = none)
    (ops : List (Op S)) :
    (run sig .sequential w ops).mdl.outShape = none ∨
    SinceClear (fun pre s => (compile sig .sequential (run sig .sequential w pre) s).2 = .ok ()) ops := by
  induction ops using List.reverseRecOn with
  | nil => exact .inl hw
  | append_singleton ops o ih =>
    rw [run_snoc]
    cases hc : clears o with
    | true =>
      obtain ⟨t, ht⟩ := step_clears sig .sequential (run sig .sequential w ops) o hc
      left; rw [ht]; rfl
    | false =>
      cases o with
      | edit o => cases hc
      | reset => cases hc
      | compile s =>
        by_cases hok : (compile sig .sequential (run sig .sequential w ops) s).2 = .ok ()
        · exact .inr ⟨ops, s, [], rfl, by simp, hok⟩
        · rcases ih with ih | ih
          · left
            simp only [step]
            simp only [compile, seqCompile] at hok ⊢
            split
            · exact ih
            · rename_i h s' he
              rw [he] at hok
              simp [hs] at hok
          · exact .inr (ih.snoc hc)
      | call s =>
        rcases ih with ih | ih
        · left; simp only [step]; rw [(call_mdl sig .sequential _ s).2.2.1]; exact ih
        · exact .inr (ih.snoc hc)

theorem callable_current (sig : Sig M S) (kind : Kind) (w : World M S) (hw : w.mdl.callable = none) (ops : List (Op S)) :
    (run sig kind w ops).mdl.callable = none ∨ (run sig kind w ops).mdl.callable = some (run sig kind w ops).mdl.modules := by
  induction ops using List.reverseRecOn with
  | nil => exact .inl hw
  | append_singleton ops o ih =>
    rw [run_snoc]
    cases o with
    | edit o =>
      obtain ⟨t, ht⟩ := step_clears sig kind (run sig kind w ops) (.edit o) rfl
      left; rw [ht]; rfl
    | reset => left; rfl
    | compile s =>
      simp only [step]
      rw [(compile_mdl sig kind _ s).1, (compile_mdl sig kind _ s).2]; exact ih
    | call s =>
      simp only [step]
      have h := call_mdl sig kind (run sig kind w ops) s
      rw [h.2.2.2.1]
      rcases h.2.2.2.2.2 with h' | h'
      · rw [h']; exact ih
      · exact .inr h'

theorem numFloats_some {sig : Sig M S} {h : Nat → M} {t : Tree Nat} {c : Nat → Nat}
    (hc : ∀ i ∈ t.flat, sig.numFloats (h i) = some (c i)) : numFloats sig h t = some (t.flat.map c).sum := by
  unfold numFloats
  have e : t.jaxLeaves.map (fun i => sig.numFloats (h i)) = t.jaxLeaves.map fun i => some (c i) := by
    apply List.map_congr_left
    intro i hi
    exact hc i ((jaxLeaves_perm t).mem_iff.1 hi)
  simp only [e]
  have : ((t.jaxLeaves.map fun i => some (c i)).any Option.isNone) = false := by simp
  rw [this]
  simp only [Bool.false_eq_true, if_false, List.map_map]
  have e2 : t.jaxLeaves.map ((fun n : Option Nat => n.getD 0) ∘ fun i => some (c i)) = t.jaxLeaves.map c := by
    apply List.map_congr_left; intro i _; rfl
  rw [e2, ((jaxLeaves_perm t).map c).sum_nat]

theorem numFloats_none {sig : Sig M S} {h : Nat → M} {t : Tree Nat} :
    numFloats sig h t = none ↔ ∃ i ∈ t.flat, sig.numFloats (h i) = none := by
  unfold numFloats
  simp only
  constructor
  · intro hn
    split at hn
    · rename_i ha
      rw [List.any_map, List.any_eq_true] at ha
      obtain ⟨i, hi, hi'⟩ := ha
      exact ⟨i, (jaxLeaves_perm t).mem_iff.1 hi, by simpa using hi'⟩
    · cases hn
  · rintro ⟨i, hi, hi'⟩
    rw [if_pos]
    rw [List.any_map, List.any_eq_true]
    exact ⟨i, (jaxLeaves_perm t).mem_iff.2 hi, by simp [hi']⟩

end Verif.Edit
