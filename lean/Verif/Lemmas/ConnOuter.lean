import Verif.Lemmas.Conn
import Verif.Lemmas.Graph

namespace Verif.Conn
open TreeSpec ConnSpec GraphSpec

theorem dictSet_keys {γ : Type} (d : List (Str × γ)) (k : Str) (v : γ) :
    (dictSet d k v).map Prod.fst = if k ∈ d.map Prod.fst then d.map Prod.fst else d.map Prod.fst ++ [k] := by
  induction d with
  | nil => simp [dictSet]
  | cons e d ih =>
    obtain ⟨k', v'⟩ := e
    simp only [dictSet]
    by_cases h : k' = k
    · subst h; simp
    · have hne : ¬ k = k' := fun e => h e.symm
      simp only [h, if_false, List.map_cons, ih, List.mem_cons, hne, false_or]
      split <;> simp

theorem dictSet_nodup {γ : Type} {d : List (Str × γ)} (h : (d.map Prod.fst).Nodup) (k : Str) (v : γ) :
    ((dictSet d k v).map Prod.fst).Nodup := by
  rw [dictSet_keys]
  split
  · exact h
  · rename_i hk
    refine List.nodup_append.2 ⟨h, by simp, ?_⟩
    intro a ha b hb
    simp only [List.mem_singleton] at hb
    subst hb; rintro rfl; exact hk ha

theorem mem_lookup {γ : Type} {d : List (Str × γ)} (h : (d.map Prod.fst).Nodup) {k : Str} {v : γ} :
    (k, v) ∈ d ↔ d.lookup k = some v := by
  induction d with
  | nil => simp
  | cons e d ih =>
    obtain ⟨k', v'⟩ := e
    simp only [List.map_cons, List.nodup_cons] at h
    rw [List.mem_cons, List.lookup_cons]
    by_cases hk : k = k'
    · subst hk
      simp only [Prod.mk.injEq, true_and, beq_self_eq_true]
      constructor
      · rintro (rfl | hm)
        · rfl
        · exact absurd (List.mem_map_of_mem (f := Prod.fst) hm) h.1
      · intro e; exact Or.inl (Option.some.inj e).symm
    · have : (k == k') = false := by simpa using hk
      simp only [Prod.mk.injEq, hk, false_and, false_or, this]
      exact ih h.2

theorem setAdd_mem (l xs : List Str) (x : Str) : x ∈ l.foldl setAdd xs ↔ x ∈ xs ∨ x ∈ l := by
  induction l generalizing xs with
  | nil => simp
  | cons a l ih =>
    rw [List.foldl_cons, ih]
    unfold setAdd
    split
    · rename_i h
      simp only [List.mem_cons]
      constructor
      · rintro (h' | h')
        · exact Or.inl h'
        · exact Or.inr (Or.inr h')
      · rintro (h' | rfl | h')
        · exact Or.inl h'
        · exact Or.inl h
        · exact Or.inr h'
    · simp only [List.mem_append, List.mem_cons, List.not_mem_nil, or_false, or_assoc]

theorem setAdd_nodup (l xs : List Str) (h : xs.Nodup) : (l.foldl setAdd xs).Nodup := by
  induction l generalizing xs with
  | nil => exact h
  | cons a l ih =>
    rw [List.foldl_cons]
    refine ih _ ?_
    unfold setAdd
    split
    · exact h
    · rename_i ha
      refine List.nodup_append.2 ⟨h, by simp, ?_⟩
      intro x hx b hb
      simp only [List.mem_singleton] at hb
      subst hb; rintro rfl; exact ha hx

/-- The loop over entries whose keys and values have known outer parts. -/
theorem outerLoop_eq (cfg : Cfg) (ok : Str → Str) (ov : Str → Str) (p acc : List (Str × List Str))
    (hk : ∀ kv ∈ p, outerKey cfg kv.1 = .ok (ok kv.1))
    (hv : ∀ kv ∈ p, ∀ v ∈ kv.2, ∃ r, unpack cfg.sep v = .ok (ov v, r))
    (hacc : IsDict acc) (haccn : ∀ kv ∈ acc, kv.2.Nodup) :
    ∃ g, outerLoop cfg acc p = .ok g ∧ IsDict g ∧ (∀ kv ∈ g, kv.2.Nodup) ∧
      ∀ a b, Edge g a b ↔ Edge acc a b ∨ ∃ kv ∈ p, ok kv.1 = a ∧ ∃ v ∈ kv.2, ov v = b := by
  induction p generalizing acc with
  | nil => exact ⟨acc, rfl, hacc, haccn, by simp⟩
  | cons kv p ih =>
    obtain ⟨key, vs⟩ := kv
    have h1 := hk _ (List.mem_cons_self ..)
    have h2 : ∃ pairs, vs.mapM (unpack cfg.sep) = .ok pairs ∧ pairs.map Prod.fst = vs.map ov := by
      have : ∀ l : List Str, (∀ v ∈ l, ∃ r, unpack cfg.sep v = .ok (ov v, r)) →
          ∃ pairs, l.mapM (unpack cfg.sep) = .ok pairs ∧ pairs.map Prod.fst = l.map ov := by
        intro l
        induction l with
        | nil => intro _; exact ⟨[], rfl, rfl⟩
        | cons v l ihl =>
          intro h
          obtain ⟨r, hr⟩ := h v (by simp)
          obtain ⟨ps, e1, e2⟩ := ihl (fun x hx => h x (List.mem_cons_of_mem _ hx))
          refine ⟨(ov v, r) :: ps, ?_, by simp [e2]⟩
          rw [List.mapM_cons, hr, e1]; rfl
      exact this vs (hv _ (List.mem_cons_self ..))
    obtain ⟨pairs, e1, e2⟩ := h2
    simp only at h1
    simp only [outerLoop, h1, e1, e2]
    have hnd : ∀ a, ((acc.lookup a).getD []).Nodup := by
      intro a
      cases hl : acc.lookup a with
      | none => simp
      | some xs => exact haccn (a, xs) ((mem_lookup hacc).2 hl)
    obtain ⟨g, hg, hgd, hgn, hge⟩ := ih (dictSet acc (ok key)
        ((vs.map ov).foldl setAdd ((acc.lookup (ok key)).getD [])))
      (fun kv h => hk kv (List.mem_cons_of_mem _ h)) (fun kv h => hv kv (List.mem_cons_of_mem _ h))
      (dictSet_nodup hacc _ _) (by
        rintro ⟨a, xs⟩ hm
        rw [mem_lookup (dictSet_nodup hacc _ _)] at hm
        by_cases ha : a = ok key
        · subst ha
          rw [lookup_dictSet_self] at hm
          simp only [Option.some.injEq] at hm
          subst hm
          exact setAdd_nodup _ _ (hnd _)
        · rw [lookup_dictSet_ne _ _ ha] at hm
          exact haccn (a, xs) ((mem_lookup hacc).2 hm))
    refine ⟨g, hg, hgd, hgn, ?_⟩
    intro a b
    rw [hge]
    have key : Edge (dictSet acc (ok key) ((vs.map ov).foldl setAdd ((acc.lookup (ok key)).getD []))) a b ↔
        Edge acc a b ∨ (ok key = a ∧ ∃ v ∈ vs, ov v = b) := by
      unfold Edge
      simp only [mem_lookup (dictSet_nodup hacc _ _), mem_lookup hacc]
      by_cases ha : a = ok key
      · subst ha
        rw [lookup_dictSet_self]
        simp only [Option.some.injEq, exists_eq_left', setAdd_mem, List.mem_map, true_and]
        cases hl : acc.lookup (ok key) with
        | none => simp
        | some xs => simp
      · rw [lookup_dictSet_ne _ _ ha]
        have : ¬ ok key = a := fun e => ha e.symm
        simp [this]
    rw [key]
    simp only [List.mem_cons, exists_eq_or_imp, or_assoc]

theorem splitOn_head_enc {sep : Char} {m0 : Str} {r : List Str} (h0 : sep ∉ m0) :
    (splitOn sep (enc sep [m0] r)).headD [] = m0 := by
  unfold enc
  simp only [joinWith]
  rw [List.append_assoc]
  show (splitOn sep (m0 ++ sep :: (sep :: joinWith sep r))).headD [] = _
  rw [splitOn_append _ _ h0]; rfl

end Verif.Conn
