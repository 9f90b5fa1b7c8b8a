import Verif.Lemmas.TreeBind
import Verif.Lemmas.ModelFile
import Mathlib.Data.List.Perm.Subperm

/-! # Lemmas about trees that are a prefix of other trees -/

namespace Verif
namespace Tree
open ForwardSpec (At KeysOk KeysOkL KeysOkD)

variable {α β γ δ : Type}

theorem flatL_eq (ts : List (Tree α)) : flatL ts = ts.flatMap flat := by
  induction ts with
  | nil => rfl
  | cons t r ih => simp [flatL, ih]

theorem flatD_eq (kvs : List (Str × Tree α)) : flatD kvs = kvs.flatMap fun p => flat p.2 := by
  induction kvs with
  | nil => rfl
  | cons p r ih => obtain ⟨k, t⟩ := p; simp [flatD, ih]

mutual
/-- Sorting the dictionaries only moves the leaves around. -/
theorem flat_norm_perm : ∀ t : Tree α, (flat (norm t)).Perm (flat t)
  | .leaf _ => .refl _
  | .none => .refl _
  | .list ts => flatL_norm_perm ts
  | .tuple ts => flatL_norm_perm ts
  | .dict kvs => by
    rw [norm, flat, flat]
    refine List.Perm.trans ?_ (flatD_norm_perm kvs)
    rw [flatD_eq, flatD_eq]
    exact (sortKvs_perm _).flatMap_right _
theorem flatL_norm_perm : ∀ ts : List (Tree α), (flatL (normL ts)).Perm (flatL ts)
  | [] => .refl _
  | t :: ts => (flat_norm_perm t).append (flatL_norm_perm ts)
theorem flatD_norm_perm : ∀ ts : List (Str × Tree α), (flatD (normD ts)).Perm (flatD ts)
  | [] => .refl _
  | (_, t) :: ts => (flat_norm_perm t).append (flatD_norm_perm ts)
end

theorem sorted_perm_eq {l l' : List (Str × γ)} (hp : l.Perm l') (hl : (l.map Prod.fst).Nodup) : sortKvs l = sortKvs l' := by
  have hl' : (l'.map Prod.fst).Nodup := (hp.map Prod.fst).nodup_iff.1 hl
  refine List.Perm.eq_of_pairwise (le := fun a b => a.1 < b.1) ?_ (sortKvs_sorted l hl) (sortKvs_sorted l' hl')
    ((sortKvs_perm l).trans (hp.trans (sortKvs_perm l').symm))
  intro a b _ _ h1 h2
  exact absurd h2 (List.lt_asymm h1)

theorem keysOkD_lookup {us : List (Str × Tree β)} {k : Str} {u : Tree β} (h : KeysOkD us) (hl : us.lookup k = some u) : KeysOk u :=
  keysOkD_mem h (lookup_mem hl)

mutual
/-- The parts put back together. -/
theorem zipPre_back : ∀ (t : Tree α) (u : Tree β) {r : Tree (α × Tree β)}, KeysOk t → KeysOk u → zipPre t u = .ok r → norm (bind Prod.snd r) = norm u
  | .leaf a, u, r, _, _, h => by
    simp only [zipPre, Except.ok.injEq] at h
    subst h; rfl
  | .none, u, r, _, _, h => by
    cases u <;> simp only [zipPre, Except.ok.injEq, reduceCtorEq] at h
    subst h; rfl
  | .list ts, u, r, ht, hu, h => by
    cases u <;> simp only [zipPre, reduceCtorEq] at h
    rename_i us
    cases hz : zipPreL ts us with
    | error e => rw [hz] at h; cases h
    | ok rs => rw [hz] at h; cases h; rw [bind, norm, norm, zipPreL_back ts us ht hu hz]
  | .tuple ts, u, r, ht, hu, h => by
    cases u <;> simp only [zipPre, reduceCtorEq] at h
    rename_i us
    cases hz : zipPreL ts us with
    | error e => rw [hz] at h; cases h
    | ok rs => rw [hz] at h; cases h; rw [bind, norm, norm, zipPreL_back ts us ht hu hz]
  | .dict ts, u, r, ht, hu, h => by
    cases u <;> simp only [zipPre, reduceCtorEq] at h
    rename_i us
    split at h
    · cases h
    rename_i hlen
    cases hz : zipPreD ts us with
    | error e => rw [hz] at h; cases h
    | ok rs =>
      rw [hz] at h; cases h
      rw [bind, norm, norm]
      have hk : rs.map Prod.fst = ts.map Prod.fst := by
        have := zipPreD_fst ts us hz
        rw [← this, mapD_eq, List.map_map]
        rfl
      have hk' : ((normD (bindD Prod.snd rs)).map Prod.fst) = ts.map Prod.fst := by
        rw [normD_eq, bindD_eq, List.map_map, List.map_map, ← hk]
        rfl
      have hn : ((normD (bindD Prod.snd rs)).map Prod.fst).Nodup := by rw [hk']; exact ht.1
      have hsub : normD (bindD Prod.snd rs) ⊆ normD us := by
        intro y hy
        rw [normD_eq, bindD_eq, List.map_map] at hy
        obtain ⟨⟨k, x⟩, hx, rfl⟩ := List.mem_map.1 hy
        obtain ⟨t, u, _, hl, he⟩ := zipPreD_back ts us ht.2 hu.2 hz k x hx
        rw [normD_eq]
        exact List.mem_map.2 ⟨(k, u), lookup_mem hl, by simp [he]⟩
      have hp : (normD (bindD Prod.snd rs)).Perm (normD us) := by
        refine (List.subperm_of_subset hn.of_map hsub).perm_of_length_le ?_
        have h1 : (normD (bindD Prod.snd rs)).length = ts.length := by rw [← List.length_map (f := Prod.fst), hk', List.length_map]
        have h2 : (normD us).length = us.length := by rw [normD_eq, List.length_map]
        omega
      rw [sorted_perm_eq hp hn]
theorem zipPreL_back : ∀ (ts : List (Tree α)) (us : List (Tree β)) {r : List (Tree (α × Tree β))}, KeysOkL ts → KeysOkL us → zipPreL ts us = .ok r →
    normL (bindL Prod.snd r) = normL us
  | [], us, r, _, _, h => by
    cases us <;> simp only [zipPreL, Except.ok.injEq, reduceCtorEq] at h
    subst h; rfl
  | t :: ts, us, r, ht, hu, h => by
    cases us <;> simp only [zipPreL, reduceCtorEq] at h
    rename_i u us
    cases h1 : zipPre t u with
    | error e => rw [h1] at h; cases h
    | ok x =>
      rw [h1] at h
      cases h2 : zipPreL ts us with
      | error e => simp [h2] at h
      | ok xs =>
        rw [h2] at h; cases h
        rw [bindL, normL, normL, zipPre_back t u ht.1 hu.1 h1, zipPreL_back ts us ht.2 hu.2 h2]
theorem zipPreD_back : ∀ (ts : List (Str × Tree α)) (us : List (Str × Tree β)) {r : List (Str × Tree (α × Tree β))}, KeysOkD ts → KeysOkD us →
    zipPreD ts us = .ok r → ∀ (k : Str) (x : Tree (α × Tree β)), (k, x) ∈ r → ∃ t u, (k, t) ∈ ts ∧ us.lookup k = some u ∧ norm (bind Prod.snd x) = norm u
  | [], us, r, _, _, h => by
    simp only [zipPreD, Except.ok.injEq] at h
    subst h; simp
  | (k, t) :: ts, us, r, ht, hu, h => by
    simp only [zipPreD] at h
    cases h0 : us.lookup k with
    | none => simp [h0] at h
    | some u =>
      simp only [h0] at h
      cases h1 : zipPre t u with
      | error e => simp [h1] at h
      | ok x =>
        rw [h1] at h
        cases h2 : zipPreD ts us with
        | error e => simp [h2] at h
        | ok xs =>
          rw [h2] at h; cases h
          intro k' y hy
          rcases List.mem_cons.1 hy with e | hy
          · cases e
            exact ⟨t, u, List.mem_cons_self, h0, zipPre_back t u ht.1 (keysOkD_lookup hu h0) h1⟩
          · obtain ⟨t', u', a, b, c⟩ := zipPreD_back ts us ht.2 hu h2 k' y hy
            exact ⟨t', u', List.mem_cons_of_mem _ a, b, c⟩
end

end Tree
end Verif
