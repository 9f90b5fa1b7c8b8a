import Verif.Lemmas.TreeZip
import Mathlib.Data.List.Forall2

/-! Mapping back: the second of two maps with the same other trees. -/

namespace Verif.Tree
open ForwardSpec

variable {α β γ δ : Type}

mutual
theorem sameStruct_iff : ∀ (t : Tree α) (u : Tree β), sameStruct t u = true ↔ map (fun _ => ()) t = map (fun _ => ()) u
  | .leaf _, u => by cases u <;> simp [sameStruct, map]
  | .none, u => by cases u <;> simp [sameStruct, map]
  | .list ts, u => by cases u <;> simp [sameStruct, map, sameStructL_iff ts]
  | .tuple ts, u => by cases u <;> simp [sameStruct, map, sameStructL_iff ts]
  | .dict ts, u => by cases u <;> simp [sameStruct, map, sameStructD_iff ts]
theorem sameStructL_iff : ∀ (ts : List (Tree α)) (us : List (Tree β)),
    sameStructL ts us = true ↔ mapL (fun _ => ()) ts = mapL (fun _ => ()) us
  | [], us => by cases us <;> simp [sameStructL, mapL]
  | t :: ts, us => by cases us <;> simp [sameStructL, mapL, sameStruct_iff t, sameStructL_iff ts]
theorem sameStructD_iff : ∀ (ts : List (Str × Tree α)) (us : List (Str × Tree β)),
    sameStructD ts us = true ↔ mapD (fun _ => ()) ts = mapD (fun _ => ()) us
  | [], us => by cases us <;> simp [sameStructD, mapD]
  | (k, t) :: ts, us => by
    cases us with
    | nil => simp [sameStructD, mapD]
    | cons q us =>
      obtain ⟨k', u⟩ := q
      simp [sameStructD, mapD, sameStruct_iff t, sameStructD_iff ts]
      constructor
      · rintro ⟨a, b, c⟩; exact ⟨⟨a, b⟩, c⟩
      · rintro ⟨⟨a, b⟩, c⟩; exact ⟨a, b, c⟩
end

/-- If `g` succeeds on every result of `f`, mapping `g` over the result of mapping `f` succeeds, and the leaves are related. -/
theorem jaxMap_back {f : α → List (Tree β) → Except PyErr (Tree γ)} {g : γ → List (Tree β) → Except PyErr (Tree δ)}
    {R : α → List (Tree β) → γ → δ → Prop}
    (hf : ∀ a vs w, f a vs = .ok w → ∃ c, w = .leaf c ∧ ∃ b, g c vs = .ok (.leaf b) ∧ R a vs c b) {t : Tree α} (ht : KeysOk t)
    {us : List (Tree β)} {r : Tree γ} (h : jaxMap f t us = .ok r) :
    ∃ r', jaxMap g r us = .ok r' ∧ map (fun _ => ()) r' = map (fun _ => ()) t.norm ∧
      ∀ p a, At t p a → ∃ vs c b, At r p c ∧ At r' p b ∧ vs.length = us.length ∧
        (∀ (i : Nat) (u v : Tree β), us[i]? = some u → vs[i]? = some v → Sub u p v) ∧ R a vs c b := by
  classical
  obtain ⟨z, h1, h2, h3, h4⟩ := jaxMap_graph (fun a vs w h => (hf a vs w h).imp fun _ h => h.1) h
  have hz : norm z = z := by
    have hs := sorted_norm t ht
    rw [← h2] at hs
    exact norm_of_sorted _ ((sorted_map _ z).1 hs)
  have hr : norm r = r := by rw [← h3, norm_map, hz]
  have hzip := h1
  rw [← h2, map_map] at h1
  have h5 := zipAll_replace h1
  have h6 : ∀ x : {x : (α × List (Tree β)) × γ // x ∈ flat z}, ∃ b, g x.1.2 x.1.1.2 = .ok (.leaf b) ∧ R x.1.1.1 x.1.1.2 x.1.2 b := by
    rintro ⟨x, hx⟩
    obtain ⟨c, hc, b, hg, hR⟩ := hf _ _ _ (h4 x hx)
    simp only [Tree.leaf.injEq] at hc
    rw [hc]
    exact ⟨b, hg, hR⟩
  by_cases hne : Nonempty δ
  · obtain ⟨d⟩ := hne
    let k : (α × List (Tree β)) × γ → δ := fun x => if hx : x ∈ flat z then (h6 ⟨x, hx⟩).choose else d
    have hk : ∀ x ∈ flat z, g x.2 x.1.2 = .ok (.leaf (k x)) ∧ R x.1.1 x.1.2 x.2 (k x) := by
      intro x hx
      simp only [k, dif_pos hx]
      exact (h6 ⟨x, hx⟩).choose_spec
    refine ⟨map k z, ?_, by rw [← h2, map_map, map_map], fun p a ha => ?_⟩
    · unfold jaxMap
      rw [hr, ← h3, map_map, h5]
      simp only
      rw [mapM_comp, mapM_leaf _ k z]
      exact fun x hx => (hk x hx).1
    · have : At (map (fun x => x.1.1) z) p a := by rw [h2]; exact at_norm.2 ha
      obtain ⟨x, hx, rfl⟩ := at_map.1 this
      have hmem : x ∈ flat z := mem_flat_at.2 ⟨p, hx⟩
      obtain ⟨vs₀, vs₁, hvs, ha', hl, hsub⟩ := zipAll_at _ _ _ x.1.2 hzip (at_map.2 ⟨x, hx, rfl⟩)
      obtain ⟨b, hb, e⟩ := at_map.1 ha'
      simp only [Prod.mk.injEq] at e
      obtain ⟨-, rfl⟩ := e
      simp only [List.nil_append] at hvs
      refine ⟨x.1.2, x.2, k x, by rw [← h3]; exact at_map.2 ⟨x, hx, rfl⟩, at_map.2 ⟨x, hx, rfl⟩, by rw [hvs, hl], ?_, (hk x hmem).2⟩
      rw [hvs]
      exact hsub
  · have hflat : flat z = [] := by
      cases hfz : flat z with
      | nil => rfl
      | cons x xs => exact absurd ⟨(h6 ⟨x, by rw [hfz]; exact List.mem_cons_self⟩).choose⟩ hne
    have hr' : ∃ r' : Tree δ, mapM (fun x : (α × List (Tree β)) × γ => g x.2 x.1.2) z = .ok r' ∧
        map (fun _ => ()) r' = map (fun _ => ()) z := by
      obtain ⟨r', hr'⟩ := mapM_total (fun x : (α × List (Tree β)) × γ => g x.2 x.1.2) z (by rw [hflat]; simp)
      refine ⟨r', hr', ?_⟩
      have := mapM_graph (f := fun x : (α × List (Tree β)) × γ => if x ∈ flat z then g x.2 x.1.2 else .error .valueError)
        (fun a w h => by rw [hflat] at h; simp at h) z (r := r')
        (by
          rw [← hr']
          have : ∀ (f g : (α × List (Tree β)) × γ → Except PyErr (Tree δ)) (t : Tree ((α × List (Tree β)) × γ)), (∀ x ∈ flat t, f x = g x) →
              mapM f t = mapM g t := by
            intro f g t hfg
            exact mapM_congr f g t hfg
          exact this _ _ z (by rw [hflat]; simp))
      obtain ⟨y, e1, e2, -⟩ := this
      rw [← e1, ← e2, map_map, map_map]
    obtain ⟨r', hm, hs⟩ := hr'
    refine ⟨r', ?_, by rw [hs, ← h2, map_map], fun p a ha => ?_⟩
    · unfold jaxMap
      rw [hr, ← h3, map_map, h5]
      simp only
      rw [mapM_comp]
      exact hm
    · have : At (map (fun x => x.1.1) z) p a := by rw [h2]; exact at_norm.2 ha
      obtain ⟨x, hx, rfl⟩ := at_map.1 this
      have : x ∈ flat z := mem_flat_at.2 ⟨p, hx⟩
      rw [hflat] at this
      cases this

theorem zipAll_same : ∀ (us : List (Tree β)) (z : Tree (α × List (Tree β))),
    (∀ u ∈ us, KeysOk u ∧ map (fun _ => ()) z = map (fun _ => ()) u.norm) →
    ∃ r, zipAll us z = .ok r ∧ ∀ x ∈ flat r, ∃ (vs₀ : List (Tree β)) (bs : List β), x.2 = vs₀ ++ bs.map Tree.leaf ∧ ∃ y ∈ flat z, y.2 = vs₀
  | [], z, _ => ⟨z, rfl, fun x hx => ⟨x.2, [], by simp, x, hx, rfl⟩⟩
  | u :: us, z, h => by
    obtain ⟨hk, hs⟩ := h u List.mem_cons_self
    obtain ⟨r, h1, h2⟩ := zipPre_same z u hk ((sameStruct_iff _ _).2 hs)
    have hfst := zipPre_fst _ _ h1
    obtain ⟨q, h3, h4⟩ := zipAll_same us (map (fun x => (x.1.1, x.1.2 ++ [x.2])) r) (fun u' hu' => by
      refine ⟨(h u' (List.mem_cons_of_mem _ hu')).1, ?_⟩
      rw [← (h u' (List.mem_cons_of_mem _ hu')).2, ← hfst, map_map, map_map])
    refine ⟨q, by rw [zipAll, h1]; exact h3, fun x hx => ?_⟩
    obtain ⟨vs₀, bs, e, y, hy, rfl⟩ := h4 x hx
    obtain ⟨p, hp⟩ := mem_flat_at.1 hy
    obtain ⟨w, hw, rfl⟩ := at_map.1 hp
    obtain ⟨b, hb⟩ := h2 w (mem_flat_at.2 ⟨p, hw⟩)
    refine ⟨w.1.2, b :: bs, by rw [e, hb]; simp, w.1, ?_, rfl⟩
    rw [← hfst]
    exact mem_flat_at.2 ⟨p, at_map.2 ⟨w, hw, rfl⟩⟩

/-- A map of trees with equal structure succeeds when `f` does at every place. -/
theorem jaxMap_total {f : α → List (Tree β) → Except PyErr (Tree γ)} {t : Tree α} {us : List (Tree β)}
    (hu : ∀ u ∈ us, KeysOk u ∧ map (fun _ => ()) t.norm = map (fun _ => ()) u.norm)
    (hf : ∀ p a bs, At t p a → List.Forall₂ (fun u b => At u p b) us bs → ∃ w, f a (bs.map Tree.leaf) = .ok w) :
    ∃ r, jaxMap f t us = .ok r := by
  obtain ⟨r, h1, h2⟩ := zipAll_same us (map (fun a => (a, ([] : List (Tree β)))) t.norm) (fun u hu' => by
    refine ⟨(hu u hu').1, ?_⟩
    rw [map_map]
    exact (hu u hu').2)
  unfold jaxMap
  rw [h1]
  apply mapM_total
  intro x hx
  obtain ⟨p, hp⟩ := mem_flat_at.1 hx
  obtain ⟨vs₀, bs, e, y, hy, rfl⟩ := h2 x hx
  obtain ⟨q, hq⟩ := mem_flat_at.1 hy
  obtain ⟨a, -, e'⟩ := at_map.1 hq
  have e0 : y.2 = [] := by rw [← e']
  rw [e0, List.nil_append] at e
  obtain ⟨vs₀, vs₁, hvs, ha', hl, hsub⟩ := zipAll_at (a := x.1) _ _ _ x.2 h1 (by simpa using hp)
  obtain ⟨b, hb, e2⟩ := at_map.1 ha'
  simp only [Prod.mk.injEq] at e2
  obtain ⟨hba, rfl⟩ := e2
  rw [hba] at hb
  simp only [List.nil_append] at hvs
  rw [e] at hvs ⊢
  refine hf p x.1 bs (at_norm.1 hb) ?_
  rw [← hvs, List.length_map] at hl
  rw [List.forall₂_iff_get]
  refine ⟨hl.symm, fun i h1 h2 => ?_⟩
  apply sub_leaf.1
  apply hsub i
  · exact List.getElem?_eq_getElem h1
  · rw [← hvs, List.getElem?_map, List.getElem?_eq_getElem h2]; rfl

end Verif.Tree
