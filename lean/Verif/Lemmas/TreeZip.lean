import Verif.Lemmas.TreeMap

/-! `jax.tree.map` of trees with equal structure. -/

namespace Verif.Tree
open ForwardSpec

variable {α β γ δ : Type}

theorem keysOkL_mem : ∀ {ts : List (Tree α)} {t : Tree α}, KeysOkL ts → t ∈ ts → KeysOk t
  | _ :: _, _, h, hm => by
    rcases List.mem_cons.1 hm with rfl | hm
    · exact h.1
    · exact keysOkL_mem h.2 hm

theorem keysOkD_mem : ∀ {ts : List (Str × Tree α)} {k : Str} {t : Tree α}, KeysOkD ts → (k, t) ∈ ts → KeysOk t
  | (_, _) :: _, _, _, h, hm => by
    rcases List.mem_cons.1 hm with e | hm
    · cases e; exact h.1
    · exact keysOkD_mem h.2 hm

theorem nodup_fst {l : List (Str × γ)} (h : (l.map Prod.fst).Nodup) {k : Str} {v v' : γ} (h1 : (k, v) ∈ l) (h2 : (k, v') ∈ l) :
    v = v' := by
  induction l with
  | nil => cases h1
  | cons p l ih =>
    rw [List.map_cons, List.nodup_cons] at h
    rcases List.mem_cons.1 h1 with e1 | h1 <;> rcases List.mem_cons.1 h2 with e2 | h2
    · rw [← e1] at e2; cases e2; rfl
    · exact absurd (List.mem_map.2 ⟨_, h2, by rw [← e1]⟩) h.1
    · exact absurd (List.mem_map.2 ⟨_, h1, by rw [← e2]⟩) h.1
    · exact ih h.2 h1 h2

theorem lookup_of_mem {l : List (Str × γ)} (h : (l.map Prod.fst).Nodup) {k : Str} {v : γ} (hm : (k, v) ∈ l) :
    l.lookup k = some v := by
  induction l with
  | nil => cases hm
  | cons p l ih =>
    obtain ⟨k', v'⟩ := p
    rw [List.map_cons, List.nodup_cons] at h
    rw [List.lookup_cons]
    rcases List.mem_cons.1 hm with e | hm'
    · cases e; simp
    · have : (k == k') = false := by
        simp only [beq_eq_false_iff_ne]
        rintro rfl
        exact h.1 (List.mem_map.2 ⟨_, hm', rfl⟩)
      rw [this]
      exact ih h.2 hm'

theorem at_unique {p : List ForwardSpec.Step} {a b : α} : ∀ {t : Tree α}, KeysOk t → At t p a → At t p b → a = b := by
  induction p with
  | nil => intro t _ h1 h2; cases h1; cases h2; rfl
  | cons s p ih =>
    intro t hk h1 h2
    cases h1 with
    | list hi h1 =>
      cases h2 with
      | list hj h2 =>
        rw [hi] at hj; cases hj
        exact ih (keysOkL_mem hk (List.mem_of_getElem? hi)) h1 h2
    | tuple hi h1 =>
      cases h2 with
      | tuple hj h2 =>
        rw [hi] at hj; cases hj
        exact ih (keysOkL_mem hk (List.mem_of_getElem? hi)) h1 h2
    | dict hi h1 =>
      cases h2 with
      | dict hj h2 =>
        have := nodup_fst hk.1 hi hj
        subst this
        exact ih (keysOkD_mem hk.2 hi) h1 h2

theorem sub_unique {p : List ForwardSpec.Step} {a b : Tree α} : ∀ {t : Tree α}, KeysOk t → Sub t p a → Sub t p b → a = b := by
  induction p with
  | nil => intro t _ h1 h2; cases h1; cases h2; rfl
  | cons s p ih =>
    intro t hk h1 h2
    cases h1 with
    | list hi h1 =>
      cases h2 with
      | list hj h2 =>
        rw [hi] at hj; cases hj
        exact ih (keysOkL_mem hk (List.mem_of_getElem? hi)) h1 h2
    | tuple hi h1 =>
      cases h2 with
      | tuple hj h2 =>
        rw [hi] at hj; cases hj
        exact ih (keysOkL_mem hk (List.mem_of_getElem? hi)) h1 h2
    | dict hi h1 =>
      cases h2 with
      | dict hj h2 =>
        have := nodup_fst hk.1 hi hj
        subst this
        exact ih (keysOkD_mem hk.2 hi) h1 h2

theorem sub_leaf {p : List ForwardSpec.Step} {a : α} : ∀ {t : Tree α}, Sub t p (.leaf a) ↔ At t p a := by
  induction p with
  | nil =>
    intro t
    constructor
    · intro h; cases h; exact .leaf _
    · intro h; cases h; exact .here _
  | cons s p ih =>
    intro t
    constructor
    · intro h
      cases h with
      | list hi h => exact .list hi (ih.1 h)
      | tuple hi h => exact .tuple hi (ih.1 h)
      | dict hi h => exact .dict hi (ih.1 h)
    · intro h
      cases h with
      | list hi h => exact .list hi (ih.2 h)
      | tuple hi h => exact .tuple hi (ih.2 h)
      | dict hi h => exact .dict hi (ih.2 h)

mutual
theorem zipPre_same : ∀ (t : Tree α) (u : Tree β), KeysOk u → sameStruct t (norm u) = true →
    ∃ r, zipPre t u = .ok r ∧ ∀ x ∈ flat r, ∃ b, x.2 = .leaf b
  | .leaf a, u, _, h => by
    cases u <;> simp only [norm, sameStruct, Bool.false_eq_true] at h
    exact ⟨_, rfl, by simp [flat]⟩
  | .none, u, _, h => by
    cases u <;> simp only [norm, sameStruct, Bool.false_eq_true] at h
    exact ⟨_, rfl, by simp [flat]⟩
  | .list ts, u, hk, h => by
    cases u <;> simp only [norm, sameStruct, Bool.false_eq_true] at h
    obtain ⟨r, h1, h2⟩ := zipPreL_same ts _ hk h
    exact ⟨.list r, by rw [zipPre, h1], h2⟩
  | .tuple ts, u, hk, h => by
    cases u <;> simp only [norm, sameStruct, Bool.false_eq_true] at h
    obtain ⟨r, h1, h2⟩ := zipPreL_same ts _ hk h
    exact ⟨.tuple r, by rw [zipPre, h1], h2⟩
  | .dict ts, u, hk, h => by
    cases u <;> simp only [norm, sameStruct, Bool.false_eq_true] at h
    rename_i us
    have hlen : ts.length = us.length := by
      have h1 : ∀ (ts : List (Str × Tree α)) (us : List (Str × Tree β)), sameStructD ts us = true → ts.length = us.length := by
        intro ts
        induction ts with
        | nil => intro us h; cases us <;> simp [sameStructD] at h ⊢
        | cons p ts ih =>
          obtain ⟨k, t⟩ := p
          intro us h
          cases us with
          | nil => simp [sameStructD] at h
          | cons q us =>
            obtain ⟨k', u⟩ := q
            simp only [sameStructD, Bool.and_eq_true] at h
            simp [ih us h.2.2]
      rw [h1 _ _ h, (sortKvs_perm _).length_eq, normD_eq, List.length_map]
    obtain ⟨r, h1, h2⟩ := zipPreD_same ts us _ (fun k u' hm => by
      have hm' := (sortKvs_perm _).mem_iff.1 hm
      rw [normD_eq, List.mem_map] at hm'
      obtain ⟨⟨k₁, u₁⟩, hmem, e⟩ := hm'
      cases e
      exact ⟨u₁, lookup_of_mem hk.1 hmem, rfl, keysOkD_mem hk.2 hmem⟩) h
    exact ⟨.dict r, by rw [zipPre, if_neg (by simpa using hlen), h1], h2⟩
theorem zipPreL_same : ∀ (ts : List (Tree α)) (us : List (Tree β)), KeysOkL us → sameStructL ts (normL us) = true →
    ∃ r, zipPreL ts us = .ok r ∧ ∀ x ∈ flatL r, ∃ b, x.2 = .leaf b
  | [], us, _, h => by
    cases us <;> simp only [normL, sameStructL, Bool.false_eq_true] at h
    exact ⟨[], rfl, by simp [flatL]⟩
  | t :: ts, us, hk, h => by
    cases us <;> simp only [normL, sameStructL, Bool.false_eq_true, Bool.and_eq_true] at h
    rename_i u us
    obtain ⟨r, h1, h2⟩ := zipPre_same t u hk.1 h.1
    obtain ⟨rs, h3, h4⟩ := zipPreL_same ts us hk.2 h.2
    refine ⟨r :: rs, by rw [zipPreL, h1, h3], fun x hx => ?_⟩
    rw [flatL, List.mem_append] at hx
    exact hx.elim (h2 x) (h4 x)
theorem zipPreD_same : ∀ (ts : List (Str × Tree α)) (us us' : List (Str × Tree β)),
    (∀ k u', (k, u') ∈ us' → ∃ u, us.lookup k = some u ∧ u' = norm u ∧ KeysOk u) → sameStructD ts us' = true →
    ∃ r, zipPreD ts us = .ok r ∧ ∀ x ∈ flatD r, ∃ b, x.2 = .leaf b
  | [], us, us', _, h => ⟨[], rfl, by simp [flatD]⟩
  | (k, t) :: ts, us, us', hu, h => by
    cases us' with
    | nil => simp [sameStructD] at h
    | cons q us' =>
      obtain ⟨k', u'⟩ := q
      simp only [sameStructD, Bool.and_eq_true, decide_eq_true_eq] at h
      obtain ⟨rfl, hs, hs'⟩ := h
      obtain ⟨u, hl, rfl, hk⟩ := hu k u' List.mem_cons_self
      obtain ⟨r, h1, h2⟩ := zipPre_same t u hk hs
      obtain ⟨rs, h3, h4⟩ := zipPreD_same ts us us' (fun k u' hm => hu k u' (List.mem_cons_of_mem _ hm)) hs'
      refine ⟨(k, r) :: rs, by rw [zipPreD, hl]; simp only [h1, h3], fun x hx => ?_⟩
      rw [flatD, List.mem_append] at hx
      exact hx.elim (h2 x) (h4 x)
end

theorem mem_flat_at {t : Tree α} {a : α} : a ∈ flat t ↔ ∃ p, At t p a := by
  rw [← entries_snd, List.mem_map]
  constructor
  · rintro ⟨⟨p, a⟩, h, rfl⟩; exact ⟨p, (mem_entries _ _ _).1 h⟩
  · rintro ⟨p, h⟩; exact ⟨(p, a), (mem_entries _ _ _).2 h, rfl⟩

mutual
theorem mapM_total (f : α → Except PyErr (Tree β)) : ∀ t : Tree α, (∀ a ∈ flat t, ∃ w, f a = .ok w) → ∃ r, mapM f t = .ok r
  | .leaf a, h => h a (by simp [flat])
  | .none, _ => ⟨_, rfl⟩
  | .list ts, h => by obtain ⟨r, hr⟩ := mapML_total f ts h; exact ⟨.list r, by rw [mapM, hr]⟩
  | .tuple ts, h => by obtain ⟨r, hr⟩ := mapML_total f ts h; exact ⟨.tuple r, by rw [mapM, hr]⟩
  | .dict kvs, h => by obtain ⟨r, hr⟩ := mapMD_total f kvs h; exact ⟨.dict r, by rw [mapM, hr]⟩
theorem mapML_total (f : α → Except PyErr (Tree β)) : ∀ ts : List (Tree α), (∀ a ∈ flatL ts, ∃ w, f a = .ok w) →
    ∃ r, mapML f ts = .ok r
  | [], _ => ⟨[], rfl⟩
  | t :: ts, h => by
    obtain ⟨r, hr⟩ := mapM_total f t (fun a ha => h a (by rw [flatL, List.mem_append]; exact .inl ha))
    obtain ⟨rs, hrs⟩ := mapML_total f ts (fun a ha => h a (by rw [flatL, List.mem_append]; exact .inr ha))
    exact ⟨r :: rs, by rw [mapML, hr, hrs]⟩
theorem mapMD_total (f : α → Except PyErr (Tree β)) : ∀ ts : List (Str × Tree α), (∀ a ∈ flatD ts, ∃ w, f a = .ok w) →
    ∃ r, mapMD f ts = .ok r
  | [], _ => ⟨[], rfl⟩
  | (k, t) :: ts, h => by
    obtain ⟨r, hr⟩ := mapM_total f t (fun a ha => h a (by rw [flatD, List.mem_append]; exact .inl ha))
    obtain ⟨rs, hrs⟩ := mapMD_total f ts (fun a ha => h a (by rw [flatD, List.mem_append]; exact .inr ha))
    exact ⟨(k, r) :: rs, by rw [mapMD, hr, hrs]⟩
end

mutual
theorem mapM_congr (f g : α → Except PyErr (Tree β)) : ∀ t : Tree α, (∀ a ∈ flat t, f a = g a) → mapM f t = mapM g t
  | .leaf a, h => h a (by simp [flat])
  | .none, _ => rfl
  | .list ts, h => by rw [mapM, mapM, mapML_congr f g ts h]
  | .tuple ts, h => by rw [mapM, mapM, mapML_congr f g ts h]
  | .dict kvs, h => by rw [mapM, mapM, mapMD_congr f g kvs h]
theorem mapML_congr (f g : α → Except PyErr (Tree β)) : ∀ ts : List (Tree α), (∀ a ∈ flatL ts, f a = g a) →
    mapML f ts = mapML g ts
  | [], _ => rfl
  | t :: ts, h => by
    rw [mapML, mapML, mapM_congr f g t (fun a ha => h a (by rw [flatL, List.mem_append]; exact .inl ha)),
      mapML_congr f g ts (fun a ha => h a (by rw [flatL, List.mem_append]; exact .inr ha))]
theorem mapMD_congr (f g : α → Except PyErr (Tree β)) : ∀ ts : List (Str × Tree α), (∀ a ∈ flatD ts, f a = g a) →
    mapMD f ts = mapMD g ts
  | [], _ => rfl
  | (k, t) :: ts, h => by
    rw [mapMD, mapMD, mapM_congr f g t (fun a ha => h a (by rw [flatD, List.mem_append]; exact .inl ha)),
      mapMD_congr f g ts (fun a ha => h a (by rw [flatD, List.mem_append]; exact .inr ha))]
end

/-- A binary map of trees with equal structure succeeds when `f` does on all pairs at equal places. -/
theorem jaxMap2_total {f : α → List (Tree β) → Except PyErr (Tree γ)} {t : Tree α} {u : Tree β} (hu : KeysOk u)
    (hs : sameStruct t.norm u.norm = true) (hf : ∀ p a b, At t p a → At u p b → ∃ w, f a [.leaf b] = .ok w) :
    ∃ r, jaxMap f t [u] = .ok r := by
  obtain ⟨r, h1, h2⟩ := zipPre_same t.norm u hu hs
  unfold jaxMap
  have hz : zipAll [u] (map (fun a => (a, ([] : List (Tree β)))) t.norm) =
      .ok (map (fun x => (x.1, [x.2])) r) := by
    rw [zipAll, zipPre_map, h1]
    simp only [Except.map, zipAll, map_map, List.nil_append]
  rw [hz]
  simp only
  rw [mapM_comp]
  apply mapM_total
  intro x hx
  obtain ⟨b, hb⟩ := h2 x hx
  obtain ⟨p, hp⟩ := mem_flat_at.1 hx
  have h3 : At t p x.1 := by
    apply at_norm.1
    rw [← zipPre_fst _ _ h1]
    exact at_map.2 ⟨_, hp, rfl⟩
  have h4 : At u p b := sub_leaf.1 (by rw [← hb]; exact zipPre_at h1 hp)
  obtain ⟨w, hw⟩ := hf p x.1 b h3 h4
  exact ⟨w, by rw [hb]; exact hw⟩

/-- The structure of the result. -/
theorem jaxMap_struct {f : α → List (Tree β) → Except PyErr (Tree γ)} (hf : ∀ a vs w, f a vs = .ok w → ∃ c, w = .leaf c)
    {t : Tree α} {us : List (Tree β)} {r : Tree γ} (h : jaxMap f t us = .ok r) :
    map (fun _ => ()) r = map (fun _ => ()) t.norm := by
  obtain ⟨z, -, h2, h3, -⟩ := jaxMap_graph hf h
  rw [← h2, ← h3, map_map, map_map]

theorem keysOk_norm : ∀ (n : Nat) (t : Tree α), sizeOf t < n → KeysOk t → KeysOk (norm t) := by
  have keysOkL_of : ∀ {ts : List (Tree α)}, (∀ t ∈ ts, KeysOk t) → KeysOkL ts := by
    intro ts
    induction ts with
    | nil => intro _; trivial
    | cons t ts ih => intro h; exact ⟨h t List.mem_cons_self, ih fun t ht => h t (List.mem_cons_of_mem _ ht)⟩
  have keysOkD_of : ∀ {ts : List (Str × Tree α)}, (∀ k t, (k, t) ∈ ts → KeysOk t) → KeysOkD ts := by
    intro ts
    induction ts with
    | nil => intro _; trivial
    | cons p ts ih => intro h; exact ⟨h p.1 p.2 List.mem_cons_self, ih fun k t ht => h k t (List.mem_cons_of_mem _ ht)⟩
  intro n
  induction n with
  | zero => intro t h; omega
  | succ n ih =>
    intro t ht hk
    cases t with
    | leaf a => trivial
    | none => trivial
    | list ts =>
      rw [norm, normL_eq]
      refine keysOkL_of fun t' h' => ?_
      obtain ⟨u, hu, rfl⟩ := List.mem_map.1 h'
      have := List.sizeOf_lt_of_mem hu
      exact ih u (by simp at ht; omega) (keysOkL_mem hk hu)
    | tuple ts =>
      rw [norm, normL_eq]
      refine keysOkL_of fun t' h' => ?_
      obtain ⟨u, hu, rfl⟩ := List.mem_map.1 h'
      have := List.sizeOf_lt_of_mem hu
      exact ih u (by simp at ht; omega) (keysOkL_mem hk hu)
    | dict kvs =>
      rw [norm]
      refine ⟨?_, ?_⟩
      · have := (sortKvs_perm (normD kvs)).map Prod.fst
        rw [this.nodup_iff, normD_fst]
        exact hk.1
      · refine keysOkD_of fun k t' h' => ?_
        have hm := (sortKvs_perm _).mem_iff.1 h'
        rw [normD_eq, List.mem_map] at hm
        obtain ⟨⟨k₁, u⟩, hu, e⟩ := hm
        cases e
        have := List.sizeOf_lt_of_mem hu
        exact ih u (by simp at ht this; omega) (keysOkD_mem hk.2 hu)

theorem keysOk_norm' {t : Tree α} (h : KeysOk t) : KeysOk (norm t) := keysOk_norm _ t (Nat.lt_succ_self _) h

mutual
theorem keysOk_map (f : α → β) : ∀ t : Tree α, KeysOk (map f t) ↔ KeysOk t
  | .leaf _ => Iff.rfl
  | .none => Iff.rfl
  | .list ts => keysOkL_map f ts
  | .tuple ts => keysOkL_map f ts
  | .dict kvs => by
    have := keysOkD_map f kvs
    simp only [map, KeysOk, this]
    rw [mapD_eq, List.map_map]
    rfl
theorem keysOkL_map (f : α → β) : ∀ ts : List (Tree α), KeysOkL (mapL f ts) ↔ KeysOkL ts
  | [] => Iff.rfl
  | t :: ts => and_congr (keysOk_map f t) (keysOkL_map f ts)
theorem keysOkD_map (f : α → β) : ∀ ts : List (Str × Tree α), KeysOkD (mapD f ts) ↔ KeysOkD ts
  | [] => Iff.rfl
  | (_, t) :: ts => and_congr (keysOk_map f t) (keysOkD_map f ts)
end

theorem keysOk_of_struct {r : Tree β} {t : Tree α} (h : map (fun _ => ()) r = map (fun _ => ()) t) (ht : KeysOk t) : KeysOk r := by
  rw [← keysOk_map (fun _ => ()), h, keysOk_map]
  exact ht

mutual
theorem zipPre_error : ∀ (t : Tree α) (u : Tree β) (e : PyErr), zipPre t u = .error e → e = .valueError
  | .leaf _, u, e, h => by cases u <;> simp [zipPre] at h
  | .none, u, e, h => by cases u <;> simp [zipPre] at h <;> exact h.symm
  | .list ts, u, e, h => by
    cases u with
    | list us =>
      unfold zipPre at h
      split at h
      · cases h
      · rename_i e' h'; cases h; exact zipPreL_error ts us _ h'
    | _ => simp [zipPre] at h; exact h.symm
  | .tuple ts, u, e, h => by
    cases u with
    | tuple us =>
      unfold zipPre at h
      split at h
      · cases h
      · rename_i e' h'; cases h; exact zipPreL_error ts us _ h'
    | _ => simp [zipPre] at h; exact h.symm
  | .dict ts, u, e, h => by
    cases u with
    | dict us =>
      unfold zipPre at h
      split at h
      · cases h; rfl
      · split at h
        · cases h
        · rename_i e' h'; cases h; exact zipPreD_error ts us _ h'
    | _ => simp [zipPre] at h; exact h.symm
theorem zipPreL_error : ∀ (ts : List (Tree α)) (us : List (Tree β)) (e : PyErr), zipPreL ts us = .error e → e = .valueError
  | [], [], e, h => by simp [zipPreL] at h
  | [], _ :: _, e, h => by simp [zipPreL] at h; exact h.symm
  | _ :: _, [], e, h => by simp [zipPreL] at h; exact h.symm
  | t :: ts, u :: us, e, h => by
    unfold zipPreL at h
    split at h
    · rename_i e' h'; cases h; exact zipPre_error t u _ h'
    · split at h
      · rename_i e' h'; cases h; exact zipPreL_error ts us _ h'
      · cases h
theorem zipPreD_error : ∀ (ts : List (Str × Tree α)) (us : List (Str × Tree β)) (e : PyErr), zipPreD ts us = .error e → e = .valueError
  | [], us, e, h => by simp [zipPreD] at h
  | (k, t) :: ts, us, e, h => by
    unfold zipPreD at h
    split at h
    · cases h; rfl
    · split at h
      · rename_i e' h'; cases h; exact zipPre_error t _ _ h'
      · split at h
        · rename_i e' h'; cases h; exact zipPreD_error ts us _ h'
        · cases h
end

/-- `None` matches no container. -/
theorem zipAll_none {us : List (Tree β)} : ∀ {pre : List (Tree β)} {r : Tree (α × List (Tree β))}, ¬((∃ x, r = .leaf x) ∨ r = .none) →
    zipAll (pre ++ .none :: us) r = .error .valueError
  | [], r, h => by
    cases r with
    | leaf a => exact absurd (.inl ⟨a, rfl⟩) h
    | none => exact absurd (.inr rfl) h
    | _ => simp [zipAll, zipPre]
  | u :: pre, r, h => by
    rw [List.cons_append]
    unfold zipAll
    split
    · rename_i e he; rw [zipPre_error _ _ _ he]
    · rename_i r' hr
      refine zipAll_none ?_
      intro h'
      have hf := zipPre_fst _ _ hr
      cases r' with
      | leaf a => exact h (.inl ⟨_, by rw [← hf]; rfl⟩)
      | none => exact h (.inr (by rw [← hf]; rfl))
      | _ => rcases h' with ⟨x, h'⟩ | h' <;> simp [map] at h'

end Verif.Tree
