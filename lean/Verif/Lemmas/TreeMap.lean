import Verif.Model.TreeMap
import Verif.Spec.TreeMap
import Verif.Lemmas.JaxTree
import Verif.Lemmas.Sequential

namespace Verif.Tree
open ForwardSpec

variable {α β γ δ : Type}

/-! ### `map` and places -/

theorem at_map {f : α → β} {p : List ForwardSpec.Step} {b : β} : ∀ {t : Tree α}, At (map f t) p b ↔ ∃ a, At t p a ∧ f a = b := by
  induction p with
  | nil =>
    intro t
    cases t <;> simp only [map] <;> constructor
    · intro h; cases h; exact ⟨_, .leaf _, rfl⟩
    · rintro ⟨a, h, rfl⟩; cases h; exact .leaf _
    all_goals first | (intro h; cases h; done) | (rintro ⟨a, h, rfl⟩; cases h; done)
  | cons s p ih =>
    intro t
    cases t with
    | leaf a =>
      simp only [map]
      constructor
      · intro h; cases h
      · rintro ⟨a, h, -⟩; cases h
    | none =>
      simp only [map]
      constructor
      · intro h; cases h
      · rintro ⟨a, h, -⟩; cases h
    | list ts =>
      simp only [map, mapL_eq]
      constructor
      · intro h
        cases h with
        | list hi h =>
          rw [List.getElem?_map, Option.map_eq_some_iff] at hi
          obtain ⟨t', ht, rfl⟩ := hi
          obtain ⟨a, ha, rfl⟩ := ih.1 h
          exact ⟨a, .list ht ha, rfl⟩
      · rintro ⟨a, h, rfl⟩
        cases h with
        | list hi h => exact .list (by rw [List.getElem?_map, hi]; rfl) (ih.2 ⟨a, h, rfl⟩)
    | tuple ts =>
      simp only [map, mapL_eq]
      constructor
      · intro h
        cases h with
        | tuple hi h =>
          rw [List.getElem?_map, Option.map_eq_some_iff] at hi
          obtain ⟨t', ht, rfl⟩ := hi
          obtain ⟨a, ha, rfl⟩ := ih.1 h
          exact ⟨a, .tuple ht ha, rfl⟩
      · rintro ⟨a, h, rfl⟩
        cases h with
        | tuple hi h => exact .tuple (by rw [List.getElem?_map, hi]; rfl) (ih.2 ⟨a, h, rfl⟩)
    | dict kvs =>
      simp only [map, mapD_eq]
      constructor
      · intro h
        cases h with
        | dict hi h =>
          rw [List.mem_map] at hi
          obtain ⟨⟨k, t'⟩, ht, e⟩ := hi
          cases e
          obtain ⟨a, ha, rfl⟩ := ih.1 h
          exact ⟨a, .dict ht ha, rfl⟩
      · rintro ⟨a, h, rfl⟩
        cases h with
        | dict hi h => exact .dict (List.mem_map.2 ⟨_, hi, rfl⟩) (ih.2 ⟨a, h, rfl⟩)

mutual
theorem map_congr_iff (f g : α → β) : ∀ t : Tree α, map f t = map g t ↔ ∀ a ∈ flat t, f a = g a
  | .leaf a => by simp [map, flat]
  | .none => by simp [map, flat]
  | .list ts => by simp [map, flat, mapL_congr_iff f g ts]
  | .tuple ts => by simp [map, flat, mapL_congr_iff f g ts]
  | .dict kvs => by simp [map, flat, mapD_congr_iff f g kvs]
theorem mapL_congr_iff (f g : α → β) : ∀ ts : List (Tree α), mapL f ts = mapL g ts ↔ ∀ a ∈ flatL ts, f a = g a
  | [] => by simp [mapL, flatL]
  | t :: ts => by
    simp only [mapL, flatL, List.cons.injEq, map_congr_iff f g t, mapL_congr_iff f g ts, List.mem_append]
    constructor
    · rintro ⟨h1, h2⟩ a (h | h)
      · exact h1 a h
      · exact h2 a h
    · exact fun h => ⟨fun a ha => h a (.inl ha), fun a ha => h a (.inr ha)⟩
theorem mapD_congr_iff (f g : α → β) : ∀ ts : List (Str × Tree α), mapD f ts = mapD g ts ↔ ∀ a ∈ flatD ts, f a = g a
  | [] => by simp [mapD, flatD]
  | (k, t) :: ts => by
    simp only [mapD, flatD, List.cons.injEq, Prod.mk.injEq, true_and, map_congr_iff f g t, mapD_congr_iff f g ts,
      List.mem_append]
    constructor
    · rintro ⟨h1, h2⟩ a (h | h)
      · exact h1 a h
      · exact h2 a h
    · exact fun h => ⟨fun a ha => h a (.inl ha), fun a ha => h a (.inr ha)⟩
end

theorem map_id (t : Tree α) : map (fun a => a) t = t := by
  have key : ∀ n, ∀ t : Tree α, sizeOf t < n → map (fun a => a) t = t := by
    intro n
    induction n with
    | zero => intro t h; omega
    | succ n ih =>
      intro t ht
      cases t with
      | leaf a => rfl
      | none => rfl
      | list ts =>
        rw [map, mapL_eq]
        congr 1
        conv_rhs => rw [← List.map_id ts]
        apply List.map_congr_left
        intro u hu
        have := List.sizeOf_lt_of_mem hu
        exact ih u (by simp at ht; omega)
      | tuple ts =>
        rw [map, mapL_eq]
        congr 1
        conv_rhs => rw [← List.map_id ts]
        apply List.map_congr_left
        intro u hu
        have := List.sizeOf_lt_of_mem hu
        exact ih u (by simp at ht; omega)
      | dict kvs =>
        rw [map, mapD_eq]
        congr 1
        conv_rhs => rw [← List.map_id kvs]
        apply List.map_congr_left
        rintro ⟨k, u⟩ hu
        have := List.sizeOf_lt_of_mem hu
        simp only [id, Prod.mk.injEq, true_and]
        exact ih u (by simp at ht this; omega)
  exact key _ t (Nat.lt_succ_self _)

/-! ### `mapM` -/

mutual
/-- A successful map with a leaf-valued function: the tree of arguments and results. -/
theorem mapM_graph {f : α → Except PyErr (Tree β)} (hf : ∀ a w, f a = .ok w → ∃ b, w = .leaf b) : ∀ (t : Tree α) {r : Tree β},
    mapM f t = .ok r → ∃ z : Tree (α × β), map Prod.fst z = t ∧ map Prod.snd z = r ∧ ∀ x ∈ flat z, f x.1 = .ok (.leaf x.2)
  | .leaf a, r, h => by
    simp only [mapM] at h
    obtain ⟨b, rfl⟩ := hf a r h
    exact ⟨.leaf (a, b), rfl, rfl, by simpa [flat] using h⟩
  | .none, r, h => by
    simp only [mapM, Except.ok.injEq] at h
    subst h
    exact ⟨.none, rfl, rfl, by simp [flat]⟩
  | .list ts, r, h => by
    simp only [mapM] at h
    cases hh : mapML f ts with
    | error e => rw [hh] at h; cases h
    | ok us =>
      rw [hh] at h; cases h
      obtain ⟨z, h1, h2, h3⟩ := mapML_graph hf ts hh
      exact ⟨.list z, by rw [map, h1], by rw [map, h2], h3⟩
  | .tuple ts, r, h => by
    simp only [mapM] at h
    cases hh : mapML f ts with
    | error e => rw [hh] at h; cases h
    | ok us =>
      rw [hh] at h; cases h
      obtain ⟨z, h1, h2, h3⟩ := mapML_graph hf ts hh
      exact ⟨.tuple z, by rw [map, h1], by rw [map, h2], h3⟩
  | .dict kvs, r, h => by
    simp only [mapM] at h
    cases hh : mapMD f kvs with
    | error e => rw [hh] at h; cases h
    | ok us =>
      rw [hh] at h; cases h
      obtain ⟨z, h1, h2, h3⟩ := mapMD_graph hf kvs hh
      exact ⟨.dict z, by rw [map, h1], by rw [map, h2], h3⟩
theorem mapML_graph {f : α → Except PyErr (Tree β)} (hf : ∀ a w, f a = .ok w → ∃ b, w = .leaf b) :
    ∀ (ts : List (Tree α)) {r : List (Tree β)}, mapML f ts = .ok r →
      ∃ z : List (Tree (α × β)), mapL Prod.fst z = ts ∧ mapL Prod.snd z = r ∧ ∀ x ∈ flatL z, f x.1 = .ok (.leaf x.2)
  | [], r, h => by
    simp only [mapML, Except.ok.injEq] at h
    subst h
    exact ⟨[], rfl, rfl, by simp [flatL]⟩
  | t :: ts, r, h => by
    simp only [mapML] at h
    cases h1 : mapM f t with
    | error e => rw [h1] at h; cases h
    | ok u =>
      rw [h1] at h
      cases h2 : mapML f ts with
      | error e => simp [h2] at h
      | ok us =>
        rw [h2] at h
        cases h
        obtain ⟨z, a1, a2, a3⟩ := mapM_graph hf t h1
        obtain ⟨zs, b1, b2, b3⟩ := mapML_graph hf ts h2
        refine ⟨z :: zs, by rw [mapL, a1, b1], by rw [mapL, a2, b2], fun x hx => ?_⟩
        rw [flatL, List.mem_append] at hx
        exact hx.elim (a3 x) (b3 x)
theorem mapMD_graph {f : α → Except PyErr (Tree β)} (hf : ∀ a w, f a = .ok w → ∃ b, w = .leaf b) :
    ∀ (ts : List (Str × Tree α)) {r : List (Str × Tree β)}, mapMD f ts = .ok r →
      ∃ z : List (Str × Tree (α × β)), mapD Prod.fst z = ts ∧ mapD Prod.snd z = r ∧ ∀ x ∈ flatD z, f x.1 = .ok (.leaf x.2)
  | [], r, h => by
    simp only [mapMD, Except.ok.injEq] at h
    subst h
    exact ⟨[], rfl, rfl, by simp [flatD]⟩
  | (k, t) :: ts, r, h => by
    simp only [mapMD] at h
    cases h1 : mapM f t with
    | error e => rw [h1] at h; cases h
    | ok u =>
      rw [h1] at h
      cases h2 : mapMD f ts with
      | error e => simp [h2] at h
      | ok us =>
        rw [h2] at h
        cases h
        obtain ⟨z, a1, a2, a3⟩ := mapM_graph hf t h1
        obtain ⟨zs, b1, b2, b3⟩ := mapMD_graph hf ts h2
        refine ⟨(k, z) :: zs, by rw [mapD, a1, b1], by rw [mapD, a2, b2], fun x hx => ?_⟩
        rw [flatD, List.mem_append] at hx
        exact hx.elim (a3 x) (b3 x)
end

mutual
/-- Mapping a function that succeeds on all leaves. -/
theorem mapM_leaf (f : α → Except PyErr (Tree β)) (g : α → β) : ∀ t : Tree α, (∀ a ∈ flat t, f a = .ok (.leaf (g a))) →
    mapM f t = .ok (map g t)
  | .leaf a, h => h a (by simp [flat])
  | .none, _ => rfl
  | .list ts, h => by rw [mapM, mapML_leaf f g ts h, map]
  | .tuple ts, h => by rw [mapM, mapML_leaf f g ts h, map]
  | .dict kvs, h => by rw [mapM, mapMD_leaf f g kvs h, map]
theorem mapML_leaf (f : α → Except PyErr (Tree β)) (g : α → β) : ∀ ts : List (Tree α),
    (∀ a ∈ flatL ts, f a = .ok (.leaf (g a))) → mapML f ts = .ok (mapL g ts)
  | [], _ => rfl
  | t :: ts, h => by
    rw [mapML, mapM_leaf f g t (fun a ha => h a (by rw [flatL, List.mem_append]; exact .inl ha)),
      mapML_leaf f g ts (fun a ha => h a (by rw [flatL, List.mem_append]; exact .inr ha)), mapL]
theorem mapMD_leaf (f : α → Except PyErr (Tree β)) (g : α → β) : ∀ ts : List (Str × Tree α),
    (∀ a ∈ flatD ts, f a = .ok (.leaf (g a))) → mapMD f ts = .ok (mapD g ts)
  | [], _ => rfl
  | (k, t) :: ts, h => by
    rw [mapMD, mapM_leaf f g t (fun a ha => h a (by rw [flatD, List.mem_append]; exact .inl ha)),
      mapMD_leaf f g ts (fun a ha => h a (by rw [flatD, List.mem_append]; exact .inr ha)), mapD]
end

/-! ### `zipPre` -/

mutual
theorem zipPre_fst : ∀ (t : Tree α) (u : Tree β) {r : Tree (α × Tree β)}, zipPre t u = .ok r → map Prod.fst r = t
  | .leaf a, u, r, h => by
    simp only [zipPre, Except.ok.injEq] at h
    subst h; rfl
  | .none, u, r, h => by
    cases u <;> simp only [zipPre, Except.ok.injEq, reduceCtorEq] at h
    subst h; rfl
  | .list ts, u, r, h => by
    cases u <;> simp only [zipPre, reduceCtorEq] at h
    rename_i us
    cases hz : zipPreL ts us with
    | error e => rw [hz] at h; cases h
    | ok rs => rw [hz] at h; cases h; rw [map, zipPreL_fst ts us hz]
  | .tuple ts, u, r, h => by
    cases u <;> simp only [zipPre, reduceCtorEq] at h
    rename_i us
    cases hz : zipPreL ts us with
    | error e => rw [hz] at h; cases h
    | ok rs => rw [hz] at h; cases h; rw [map, zipPreL_fst ts us hz]
  | .dict ts, u, r, h => by
    cases u <;> simp only [zipPre, reduceCtorEq] at h
    rename_i us
    split at h
    · cases h
    cases hz : zipPreD ts us with
    | error e => rw [hz] at h; cases h
    | ok rs => rw [hz] at h; cases h; rw [map, zipPreD_fst ts us hz]
theorem zipPreL_fst : ∀ (ts : List (Tree α)) (us : List (Tree β)) {r : List (Tree (α × Tree β))}, zipPreL ts us = .ok r →
    mapL Prod.fst r = ts
  | [], us, r, h => by
    cases us <;> simp only [zipPreL, Except.ok.injEq, reduceCtorEq] at h
    subst h; rfl
  | t :: ts, us, r, h => by
    cases us <;> simp only [zipPreL, reduceCtorEq] at h
    rename_i u us
    cases h1 : zipPre t u with
    | error e => rw [h1] at h; cases h
    | ok x =>
      rw [h1] at h
      cases h2 : zipPreL ts us with
      | error e => simp [h2] at h
      | ok xs =>
        rw [h2] at h; cases h
        rw [mapL, zipPre_fst t u h1, zipPreL_fst ts us h2]
theorem zipPreD_fst : ∀ (ts : List (Str × Tree α)) (us : List (Str × Tree β)) {r : List (Str × Tree (α × Tree β))},
    zipPreD ts us = .ok r → mapD Prod.fst r = ts
  | [], us, r, h => by
    simp only [zipPreD, Except.ok.injEq] at h
    subst h; rfl
  | (k, t) :: ts, us, r, h => by
    simp only [zipPreD] at h
    cases h0 : us.lookup k with
    | none => simp [h0] at h
    | some u =>
      simp only [h0] at h
      cases h1 : zipPre t u with
      | error e => simp [h1] at h
      | ok x =>
        rw [h1] at h
        cases h2 : zipPreD ts us with
        | error e => simp [h2] at h
        | ok xs =>
          rw [h2] at h; cases h
          rw [mapD, zipPre_fst t u h1, zipPreD_fst ts us h2]
end

mutual
theorem zipPre_map (g : α → δ) : ∀ (t : Tree α) (u : Tree β),
    zipPre (map g t) u = (zipPre t u).map (map fun x => (g x.1, x.2))
  | .leaf a, u => rfl
  | .none, u => by cases u <;> rfl
  | .list ts, u => by
    cases u <;> simp only [map, zipPre, Except.map]
    rename_i us
    rw [zipPreL_map g ts us]
    cases zipPreL ts us <;> rfl
  | .tuple ts, u => by
    cases u <;> simp only [map, zipPre, Except.map]
    rename_i us
    rw [zipPreL_map g ts us]
    cases zipPreL ts us <;> rfl
  | .dict ts, u => by
    cases u <;> simp only [map, zipPre, Except.map]
    rename_i us
    rw [zipPreD_map g ts us, mapD_eq, List.length_map]
    split
    · rfl
    · cases zipPreD ts us <;> rfl
theorem zipPreL_map (g : α → δ) : ∀ (ts : List (Tree α)) (us : List (Tree β)),
    zipPreL (mapL g ts) us = (zipPreL ts us).map (mapL fun x => (g x.1, x.2))
  | [], us => by cases us <;> rfl
  | t :: ts, us => by
    cases us with
    | nil => rfl
    | cons u us =>
      simp only [mapL, zipPreL, zipPre_map g t u, zipPreL_map g ts us]
      cases zipPre t u with
      | error e => rfl
      | ok x => cases zipPreL ts us <;> rfl
theorem zipPreD_map (g : α → δ) : ∀ (ts : List (Str × Tree α)) (us : List (Str × Tree β)),
    zipPreD (mapD g ts) us = (zipPreD ts us).map (mapD fun x => (g x.1, x.2))
  | [], us => rfl
  | (k, t) :: ts, us => by
    simp only [mapD, zipPreD, zipPreD_map g ts us]
    cases us.lookup k with
    | none => rfl
    | some u =>
      simp only [zipPre_map g t u]
      cases zipPre t u with
      | error e => rfl
      | ok x => cases zipPreD ts us <;> rfl
end

theorem zipPreL_get : ∀ {ts : List (Tree α)} {us : List (Tree β)} {r : List (Tree (α × Tree β))}, zipPreL ts us = .ok r →
    us.length = ts.length ∧ r.length = ts.length ∧
      ∀ (i : Nat) (x : Tree (α × Tree β)), r[i]? = some x → ∃ t u, ts[i]? = some t ∧ us[i]? = some u ∧ zipPre t u = .ok x
  | [], us, r, h => by
    cases us <;> simp only [zipPreL, Except.ok.injEq, reduceCtorEq] at h
    subst h; simp
  | t :: ts, us, r, h => by
    cases us <;> simp only [zipPreL, reduceCtorEq] at h
    rename_i u us
    cases h1 : zipPre t u with
    | error e => rw [h1] at h; cases h
    | ok x =>
      rw [h1] at h
      cases h2 : zipPreL ts us with
      | error e => simp [h2] at h
      | ok xs =>
        rw [h2] at h; cases h
        obtain ⟨l1, l2, hi⟩ := zipPreL_get h2
        refine ⟨by simp [l1], by simp [l2], fun i y hy => ?_⟩
        cases i with
        | zero =>
          simp only [List.getElem?_cons_zero, Option.some.injEq] at hy
          subst hy
          exact ⟨t, u, rfl, rfl, h1⟩
        | succ i => exact hi i y (by simpa using hy)

theorem lookup_mem {k : Str} {v : γ} : ∀ {l : List (Str × γ)}, l.lookup k = some v → (k, v) ∈ l
  | [], h => by simp at h
  | (k', v') :: l, h => by
    rw [List.lookup_cons] at h
    by_cases hk : k = k'
    · subst hk
      simp at h
      simp [h]
    · have : (k == k') = false := by simpa using hk
      rw [this] at h
      exact List.mem_cons_of_mem _ (lookup_mem h)

theorem zipPreD_get : ∀ {ts : List (Str × Tree α)} {us : List (Str × Tree β)} {r : List (Str × Tree (α × Tree β))},
    zipPreD ts us = .ok r →
      ∀ (k : Str) (x : Tree (α × Tree β)), (k, x) ∈ r → ∃ t u, (k, t) ∈ ts ∧ us.lookup k = some u ∧ zipPre t u = .ok x
  | [], us, r, h => by
    simp only [zipPreD, Except.ok.injEq] at h
    subst h; simp
  | (k, t) :: ts, us, r, h => by
    simp only [zipPreD] at h
    cases h0 : us.lookup k with
    | none => simp [h0] at h
    | some u =>
      simp only [h0] at h
      cases h1 : zipPre t u with
      | error e => simp [h1] at h
      | ok x =>
        rw [h1] at h
        cases h2 : zipPreD ts us with
        | error e => simp [h2] at h
        | ok xs =>
          rw [h2] at h; cases h
          intro k' y hy
          rcases List.mem_cons.1 hy with e | hy
          · cases e
            exact ⟨t, u, List.mem_cons_self, h0, h1⟩
          · obtain ⟨t', u', a, b, c⟩ := zipPreD_get h2 k' y hy
            exact ⟨t', u', List.mem_cons_of_mem _ a, b, c⟩

/-- The part next to a leaf is the subtree at the same place. -/
theorem zipPre_at {p : List ForwardSpec.Step} {a : α} {v : Tree β} : ∀ {t : Tree α} {u : Tree β} {r : Tree (α × Tree β)},
    zipPre t u = .ok r → At r p (a, v) → Sub u p v := by
  induction p with
  | nil =>
    intro t u r h hr
    cases hr
    cases t with
    | leaf b =>
      simp only [zipPre, Except.ok.injEq, Tree.leaf.injEq, Prod.mk.injEq] at h
      rw [h.2]
      exact .here _
    | none => cases u <;> simp [zipPre] at h
    | list ts =>
      cases u <;> simp only [zipPre, reduceCtorEq] at h
      split at h <;> cases h
    | tuple ts =>
      cases u <;> simp only [zipPre, reduceCtorEq] at h
      split at h <;> cases h
    | dict ts =>
      cases u <;> simp only [zipPre, reduceCtorEq] at h
      split at h
      · cases h
      · split at h <;> cases h
  | cons s p ih =>
    intro t u r h hr
    cases t with
    | leaf b =>
      simp only [zipPre, Except.ok.injEq] at h
      subst h
      cases hr
    | none =>
      cases u <;> simp only [zipPre, Except.ok.injEq, reduceCtorEq] at h
      subst h
      cases hr
    | list ts =>
      cases u <;> simp only [zipPre, reduceCtorEq] at h
      rename_i us
      cases hz : zipPreL ts us with
      | error e => rw [hz] at h; cases h
      | ok rs =>
        rw [hz] at h; cases h
        cases hr with
        | list hi hr =>
          obtain ⟨t', u', h1, h2, h3⟩ := (zipPreL_get hz).2.2 _ _ hi
          exact .list h2 (ih h3 hr)
    | tuple ts =>
      cases u <;> simp only [zipPre, reduceCtorEq] at h
      rename_i us
      cases hz : zipPreL ts us with
      | error e => rw [hz] at h; cases h
      | ok rs =>
        rw [hz] at h; cases h
        cases hr with
        | tuple hi hr =>
          obtain ⟨t', u', h1, h2, h3⟩ := (zipPreL_get hz).2.2 _ _ hi
          exact .tuple h2 (ih h3 hr)
    | dict ts =>
      cases u <;> simp only [zipPre, reduceCtorEq] at h
      rename_i us
      split at h
      · cases h
      cases hz : zipPreD ts us with
      | error e => rw [hz] at h; cases h
      | ok rs =>
        rw [hz] at h; cases h
        cases hr with
        | dict hi hr =>
          obtain ⟨t', u', h1, h2, h3⟩ := zipPreD_get hz _ _ hi
          exact .dict (lookup_mem h2) (ih h3 hr)

/-! ### `zipAll` and `jaxMap` -/

theorem zipAll_map (g : α → δ) : ∀ (us : List (Tree β)) (r : Tree (α × List (Tree β))),
    zipAll us (map (fun x => (g x.1, x.2)) r) = (zipAll us r).map (map fun x => (g x.1, x.2))
  | [], r => rfl
  | u :: us, r => by
    simp only [zipAll, zipPre_map]
    cases zipPre r u with
    | error e => rfl
    | ok x =>
      have e := zipAll_map g us (map (fun x => (x.1.1, x.1.2 ++ [x.2])) x)
      rw [map_map] at e
      simp only [Except.map, map_map]
      exact e

theorem zipAll_fst : ∀ (us : List (Tree β)) (r r' : Tree (α × List (Tree β))), zipAll us r = .ok r' →
    map Prod.fst r' = map Prod.fst r
  | [], r, r', h => by simp only [zipAll, Except.ok.injEq] at h; rw [h]
  | u :: us, r, r', h => by
    simp only [zipAll] at h
    cases hz : zipPre r u with
    | error e => rw [hz] at h; cases h
    | ok x =>
      rw [hz] at h
      rw [zipAll_fst us _ r' h, map_map]
      have := zipPre_fst r u hz
      rw [← this, map_map]

/-- All parts next to a leaf are the subtrees at the same place. -/
theorem zipAll_at {p : List ForwardSpec.Step} {a : α} : ∀ (us : List (Tree β)) (r r' : Tree (α × List (Tree β))) (vs : List (Tree β)),
    zipAll us r = .ok r' → At r' p (a, vs) → ∃ vs₀ vs₁, vs = vs₀ ++ vs₁ ∧ At r p (a, vs₀) ∧
      vs₁.length = us.length ∧ ∀ (i : Nat) (u v : Tree β), us[i]? = some u → vs₁[i]? = some v → Sub u p v
  | [], r, r', vs, h, hr => by
    simp only [zipAll, Except.ok.injEq] at h
    subst h
    exact ⟨vs, [], by simp, hr, rfl, by simp⟩
  | u :: us, r, r', vs, h, hr => by
    simp only [zipAll] at h
    cases hz : zipPre r u with
    | error e => rw [hz] at h; cases h
    | ok x =>
      rw [hz] at h
      obtain ⟨vs₀, vs₁, rfl, h1, h2, h3⟩ := zipAll_at us _ r' vs h hr
      obtain ⟨⟨⟨a', vs'⟩, v⟩, hy, e⟩ := at_map.1 h1
      simp only [Prod.mk.injEq] at e
      obtain ⟨rfl, rfl⟩ := e
      have hsub := zipPre_at hz hy
      have hat : At r p (a', vs') := by
        rw [← zipPre_fst r u hz]
        exact at_map.2 ⟨_, hy, rfl⟩
      refine ⟨vs', v :: vs₁, by simp, hat, by simp [h2], fun i w w' hw hw' => ?_⟩
      cases i with
      | zero =>
        simp only [List.getElem?_cons_zero, Option.some.injEq] at hw hw'
        subst hw hw'
        exact hsub
      | succ i => exact h3 i w w' (by simpa using hw) (by simpa using hw')

theorem mapM_at {f : α → Except PyErr (Tree β)} {p : List ForwardSpec.Step} {a : α} : ∀ {t : Tree α} {r : Tree β},
    mapM f t = .ok r → At t p a → ∃ w, f a = .ok w ∧ Sub r p w := by
  induction p with
  | nil =>
    intro t r h ha
    cases ha
    exact ⟨r, h, .here _⟩
  | cons s p ih =>
    intro t r h ha
    cases ha with
    | list hi ha =>
      simp only [mapM] at h
      split at h <;> cases h
      rename_i us hus
      obtain ⟨u, hu, hm⟩ := (mapML_get hus).2 _ _ hi
      obtain ⟨w, hw, hs⟩ := ih hm ha
      exact ⟨w, hw, .list hu hs⟩
    | tuple hi ha =>
      simp only [mapM] at h
      split at h <;> cases h
      rename_i us hus
      obtain ⟨u, hu, hm⟩ := (mapML_get hus).2 _ _ hi
      obtain ⟨w, hw, hs⟩ := ih hm ha
      exact ⟨w, hw, .tuple hu hs⟩
    | dict hi ha =>
      simp only [mapM] at h
      split at h <;> cases h
      rename_i us hus
      have key : ∀ (ts : List (Str × Tree α)) (us : List (Str × Tree β)), mapMD f ts = .ok us → ∀ k t, (k, t) ∈ ts →
          ∃ u, (k, u) ∈ us ∧ mapM f t = .ok u := by
        intro ts
        induction ts with
        | nil => intro us _ k t h; cases h
        | cons q ts ih' =>
          obtain ⟨k₀, t₀⟩ := q
          intro us h k t hm
          simp only [mapMD] at h
          cases h1 : mapM f t₀ with
          | error e => rw [h1] at h; cases h
          | ok u =>
            rw [h1] at h
            cases h2 : mapMD f ts with
            | error e => simp [h2] at h
            | ok us' =>
              rw [h2] at h; cases h
              rcases List.mem_cons.1 hm with e | hm
              · cases e
                exact ⟨u, List.mem_cons_self, h1⟩
              · obtain ⟨w, hw, hw'⟩ := ih' us' h2 k t hm
                exact ⟨w, List.mem_cons_of_mem _ hw, hw'⟩
      obtain ⟨u, hu, hm⟩ := key _ _ hus _ _ hi
      obtain ⟨w, hw, hs⟩ := ih hm ha
      exact ⟨w, hw, .dict hu hs⟩

/-- At every leaf of the first tree the result is `f` of the leaf and the parts of the other trees at the same place. -/
theorem jaxMap_at {f : α → List (Tree β) → Except PyErr (Tree γ)} {t : Tree α} {us : List (Tree β)} {r : Tree γ}
    (h : jaxMap f t us = .ok r) {p : List ForwardSpec.Step} {a : α} (ha : At t p a) :
    ∃ vs w, vs.length = us.length ∧ (∀ (i : Nat) (u v : Tree β), us[i]? = some u → vs[i]? = some v → Sub u p v) ∧
      f a vs = .ok w ∧ Sub r p w := by
  unfold jaxMap at h
  cases hz : zipAll us (map (fun a => (a, [])) (norm t)) with
  | error e => rw [hz] at h; cases h
  | ok z =>
    rw [hz] at h
    have hfst := zipAll_fst _ _ _ hz
    rw [map_map, map_id] at hfst
    have : At (map Prod.fst z) p a := by rw [hfst]; exact at_norm.2 ha
    obtain ⟨⟨a', vs⟩, hx, e⟩ := at_map.1 this
    simp only at e
    subst e
    obtain ⟨vs₀, vs₁, rfl, h1, h2, h3⟩ := zipAll_at _ _ _ _ hz hx
    obtain ⟨b, hb, e⟩ := at_map.1 h1
    simp only [Prod.mk.injEq] at e
    obtain ⟨rfl, rfl⟩ := e
    obtain ⟨w, hw, hs⟩ := mapM_at h hx
    exact ⟨vs₁, w, h2, h3, hw, hs⟩

/-! ### Normal forms -/

theorem insKv_map (f : γ → δ) (k : Str) (v : γ) (l : List (Str × γ)) :
    insKv k (f v) (l.map fun p => (p.1, f p.2)) = (insKv k v l).map fun p => (p.1, f p.2) := by
  induction l with
  | nil => rfl
  | cons p l ih =>
    obtain ⟨k', v'⟩ := p
    simp only [List.map_cons, insKv]
    split
    · simp [ih]
    · rfl

theorem sortKvs_map (f : γ → δ) (l : List (Str × γ)) :
    sortKvs (l.map fun p => (p.1, f p.2)) = (sortKvs l).map fun p => (p.1, f p.2) := by
  induction l with
  | nil => rfl
  | cons p l ih =>
    unfold sortKvs at ih ⊢
    simp only [List.map_cons, List.foldr_cons, ih, insKv_map]

mutual
theorem norm_map (f : α → β) : ∀ t : Tree α, norm (map f t) = map f (norm t)
  | .leaf _ => rfl
  | .none => rfl
  | .list ts => by simp only [map, norm, normL_map f ts]
  | .tuple ts => by simp only [map, norm, normL_map f ts]
  | .dict kvs => by
    simp only [map, norm, normD_map f kvs]
    rw [mapD_eq, sortKvs_map, mapD_eq]
theorem normL_map (f : α → β) : ∀ ts : List (Tree α), normL (mapL f ts) = mapL f (normL ts)
  | [] => rfl
  | t :: ts => by simp only [mapL, normL, norm_map f t, normL_map f ts]
theorem normD_map (f : α → β) : ∀ ts : List (Str × Tree α), normD (mapD f ts) = mapD f (normD ts)
  | [] => rfl
  | (k, t) :: ts => by simp only [mapD, normD, norm_map f t, normD_map f ts]
end

theorem sortKvs_of_sorted (l : List (Str × γ)) (h : l.Pairwise fun a b => a.1 < b.1) : sortKvs l = l := by
  induction l with
  | nil => rfl
  | cons p l ih =>
    rw [List.pairwise_cons] at h
    have : sortKvs (p :: l) = insKv p.1 p.2 (sortKvs l) := rfl
    rw [this, ih h.2]
    cases l with
    | nil => rfl
    | cons q l =>
      obtain ⟨k', v'⟩ := q
      have hlt := h.1 (k', v') List.mem_cons_self
      simp only [insKv]
      rw [if_neg (fun hh => List.lt_irrefl _ (List.lt_trans hlt hh))]

mutual
theorem norm_of_sorted : ∀ t : Tree α, Sorted t → norm t = t
  | .leaf _, _ => rfl
  | .none, _ => rfl
  | .list ts, h => by rw [norm, normL_of_sorted ts h]
  | .tuple ts, h => by rw [norm, normL_of_sorted ts h]
  | .dict kvs, h => by rw [norm, normD_of_sorted kvs h.2, sortKvs_of_sorted _ h.1]
theorem normL_of_sorted : ∀ ts : List (Tree α), SortedL ts → normL ts = ts
  | [], _ => rfl
  | t :: ts, h => by rw [normL, norm_of_sorted t h.1, normL_of_sorted ts h.2]
theorem normD_of_sorted : ∀ ts : List (Str × Tree α), SortedD ts → normD ts = ts
  | [], _ => rfl
  | (k, t) :: ts, h => by rw [normD, norm_of_sorted t h.1, normD_of_sorted ts h.2]
end

theorem norm_norm {t : Tree α} (h : KeysOk t) : norm (norm t) = norm t := norm_of_sorted _ (sorted_norm t h)

mutual
theorem sorted_map (f : α → β) : ∀ t : Tree α, Sorted (map f t) ↔ Sorted t
  | .leaf _ => Iff.rfl
  | .none => Iff.rfl
  | .list ts => sortedL_map f ts
  | .tuple ts => sortedL_map f ts
  | .dict kvs => by
    have := sortedD_map f kvs
    simp only [map, Sorted, this]
    rw [mapD_eq, List.pairwise_map]
theorem sortedL_map (f : α → β) : ∀ ts : List (Tree α), SortedL (mapL f ts) ↔ SortedL ts
  | [] => Iff.rfl
  | t :: ts => and_congr (sorted_map f t) (sortedL_map f ts)
theorem sortedD_map (f : α → β) : ∀ ts : List (Str × Tree α), SortedD (mapD f ts) ↔ SortedD ts
  | [] => Iff.rfl
  | (_, t) :: ts => and_congr (sorted_map f t) (sortedD_map f ts)
end

mutual
theorem mapM_comp (f : β → Except PyErr (Tree γ)) (g : α → β) : ∀ t : Tree α, mapM f (map g t) = mapM (fun a => f (g a)) t
  | .leaf _ => rfl
  | .none => rfl
  | .list ts => by simp only [map, mapM, mapML_comp f g ts]
  | .tuple ts => by simp only [map, mapM, mapML_comp f g ts]
  | .dict kvs => by simp only [map, mapM, mapMD_comp f g kvs]
theorem mapML_comp (f : β → Except PyErr (Tree γ)) (g : α → β) : ∀ ts : List (Tree α),
    mapML f (mapL g ts) = mapML (fun a => f (g a)) ts
  | [] => rfl
  | t :: ts => by simp only [mapL, mapML, mapM_comp f g t, mapML_comp f g ts]
theorem mapMD_comp (f : β → Except PyErr (Tree γ)) (g : α → β) : ∀ ts : List (Str × Tree α),
    mapMD f (mapD g ts) = mapMD (fun a => f (g a)) ts
  | [] => rfl
  | (_, t) :: ts => by simp only [mapD, mapMD, mapM_comp f g t, mapMD_comp f g ts]
end

/-- A leaf-valued `jax.tree.map`, as a tree of leaves, parts and results. -/
theorem jaxMap_graph {f : α → List (Tree β) → Except PyErr (Tree γ)} (hf : ∀ a vs w, f a vs = .ok w → ∃ c, w = .leaf c)
    {t : Tree α} {us : List (Tree β)} {r : Tree γ} (h : jaxMap f t us = .ok r) :
    ∃ z : Tree ((α × List (Tree β)) × γ), zipAll us (map (fun a => (a, [])) (norm t)) = .ok (map Prod.fst z) ∧
      map (fun x => x.1.1) z = norm t ∧ map Prod.snd z = r ∧ ∀ x ∈ flat z, f x.1.1 x.1.2 = .ok (.leaf x.2) := by
  unfold jaxMap at h
  cases hz : zipAll us (map (fun a => (a, [])) (norm t)) with
  | error e => rw [hz] at h; cases h
  | ok z =>
    rw [hz] at h
    obtain ⟨y, h1, h2, h3⟩ := mapM_graph (fun a w => hf a.1 a.2 w) z h
    refine ⟨y, by rw [h1], ?_, h2, h3⟩
    have := zipAll_fst _ _ _ hz
    rw [map_map, map_id, ← h1, map_map] at this
    exact this

/-- Replacing the leaves of the first tree does not change the parts. -/
theorem zipAll_replace {us : List (Tree β)} {z : Tree ((α × List (Tree β)) × γ)}
    (h : zipAll us (map (fun x => (x.1.1, [])) z) = .ok (map Prod.fst z)) :
    zipAll us (map (fun x => (x.2, [])) z) = .ok (map (fun x => (x.2, x.1.2)) z) := by
  cases hw : zipAll us (map (fun x => (x, [])) z) with
  | error e =>
    have := zipAll_map (fun x : (α × List (Tree β)) × γ => x.1.1) us (map (fun x => (x, [])) z)
    rw [map_map, hw] at this
    rw [this] at h; cases h
  | ok w =>
    have h1 := zipAll_map (fun x : (α × List (Tree β)) × γ => x.1.1) us (map (fun x => (x, [])) z)
    rw [map_map, hw] at h1
    have h2 := zipAll_map (fun x : (α × List (Tree β)) × γ => x.2) us (map (fun x => (x, [])) z)
    rw [map_map, hw] at h2
    rw [h2]
    rw [h1] at h
    have hfst := zipAll_fst _ _ _ hw
    rw [map_map, map_id] at hfst
    simp only [Except.map, Except.ok.injEq] at h ⊢
    have hz : map (fun x => x.1.1) w = map Prod.fst z := by rw [← hfst, map_map]
    have key : ∀ x ∈ flat w, (x.1.1.1, x.2) = x.1.1 := by
      have : map (fun x : ((α × List (Tree β)) × γ) × List (Tree β) => (x.1.1.1, x.2)) w = map (fun x => x.1.1) w := by
        rw [h, hz]
      exact (map_congr_iff _ _ w).1 this
    rw [← hfst, map_map]
    refine (map_congr_iff _ _ w).2 fun x hx => ?_
    have := key x hx
    rw [← this]

/-- If `g` undoes `f` at every leaf, mapping `g` undoes mapping `f`. -/
theorem jaxMap_inv {f : α → List (Tree β) → Except PyErr (Tree γ)} {g : γ → List (Tree β) → Except PyErr (Tree α)}
    (hf : ∀ a vs w, f a vs = .ok w → ∃ c, w = .leaf c ∧ g c vs = .ok (.leaf a)) {t : Tree α} (ht : KeysOk t)
    {us : List (Tree β)} {r : Tree γ} (h : jaxMap f t us = .ok r) : norm r = r ∧ jaxMap g r us = .ok (norm t) := by
  obtain ⟨z, h1, h2, h3, h4⟩ := jaxMap_graph (fun a vs w h => (hf a vs w h).imp fun _ h => h.1) h
  have hz : norm z = z := by
    have hs := sorted_norm t ht
    rw [← h2] at hs
    apply norm_of_sorted
    exact (sorted_map _ z).1 hs
  have hr : norm r = r := by rw [← h3, norm_map, hz]
  refine ⟨hr, ?_⟩
  unfold jaxMap
  rw [hr, ← h3, map_map]
  rw [← h2, map_map] at h1
  rw [zipAll_replace h1]
  simp only
  rw [mapM_comp, mapM_leaf _ (fun x => x.1.1) z, h2]
  intro x hx
  obtain ⟨c, hc, hg⟩ := hf _ _ _ (h4 x hx)
  simp only [Tree.leaf.injEq] at hc
  subst hc
  exact hg

end Verif.Tree
