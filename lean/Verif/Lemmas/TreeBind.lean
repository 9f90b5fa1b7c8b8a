import Verif.Lemmas.Npz

/-! # Lemmas about trees whose leaves are replaced by trees -/

namespace Verif
namespace Tree
open ForwardSpec (At KeysOk KeysOkL KeysOkD)

variable {α β γ δ : Type}

theorem bindL_eq (f : α → Tree β) (ts : List (Tree α)) : bindL f ts = ts.map (bind f) := by
  induction ts with
  | nil => rfl
  | cons t ts ih => rw [bindL, ih, List.map_cons]

theorem bindD_eq (f : α → Tree β) (ts : List (Str × Tree α)) : bindD f ts = ts.map fun p => (p.1, bind f p.2) := by
  induction ts with
  | nil => rfl
  | cons t ts ih => rw [bindD, ih, List.map_cons]

mutual
theorem norm_bind (f : α → Tree β) : ∀ t : Tree α, norm (bind f t) = bind (fun a => norm (f a)) (norm t)
  | .leaf _ => rfl
  | .none => rfl
  | .list ts => by simp only [bind, norm, normL_bind f ts]
  | .tuple ts => by simp only [bind, norm, normL_bind f ts]
  | .dict kvs => by
    simp only [bind, norm, normD_bind f kvs]
    rw [bindD_eq, sortKvs_map, bindD_eq]
theorem normL_bind (f : α → Tree β) : ∀ ts : List (Tree α), normL (bindL f ts) = bindL (fun a => norm (f a)) (normL ts)
  | [] => rfl
  | t :: ts => by simp only [bindL, normL, norm_bind f t, normL_bind f ts]
theorem normD_bind (f : α → Tree β) : ∀ ts : List (Str × Tree α), normD (bindD f ts) = bindD (fun a => norm (f a)) (normD ts)
  | [] => rfl
  | (k, t) :: ts => by simp only [bindD, normD, norm_bind f t, normD_bind f ts]
end

mutual
theorem zipPre_bind (g : α → γ) (f : α → Tree β) : ∀ t : Tree α, KeysOk t → zipPre (map g t) (bind f t) = .ok (map (fun a => (g a, f a)) t)
  | .leaf _, _ => rfl
  | .none, _ => rfl
  | .list ts, h => by
    rw [map, bind, zipPre, zipPreL_bind g f ts h]
    rfl
  | .tuple ts, h => by
    rw [map, bind, zipPre, zipPreL_bind g f ts h]
    rfl
  | .dict kvs, h => by
    have hl : (mapD g kvs).length = (bindD f kvs).length := by rw [bindD_eq, mapD_eq, List.length_map, List.length_map]
    have hn : ((bindD f kvs).map Prod.fst).Nodup := by
      rw [bindD_eq, List.map_map]
      exact h.1
    rw [map, bind, zipPre, if_neg (by rw [hl]; simp), zipPreD_bind g f kvs (bindD f kvs) h.2 (fun k t hm => lookup_of_mem hn (by
      rw [bindD_eq, List.mem_map]
      exact ⟨(k, t), hm, rfl⟩))]
    rfl
theorem zipPreL_bind (g : α → γ) (f : α → Tree β) : ∀ ts : List (Tree α), KeysOkL ts → zipPreL (mapL g ts) (bindL f ts) = .ok (mapL (fun a => (g a, f a)) ts)
  | [], _ => rfl
  | t :: ts, h => by
    rw [mapL, bindL, zipPreL, zipPre_bind g f t h.1, zipPreL_bind g f ts h.2]
    rfl
theorem zipPreD_bind (g : α → γ) (f : α → Tree β) : ∀ (ts : List (Str × Tree α)) (us : List (Str × Tree β)), KeysOkD ts →
    (∀ k t, (k, t) ∈ ts → us.lookup k = some (bind f t)) → zipPreD (mapD g ts) us = .ok (mapD (fun a => (g a, f a)) ts)
  | [], _, _, _ => rfl
  | (k, t) :: ts, us, hk, h => by
    rw [mapD, zipPreD, h k t (by simp)]
    simp only
    rw [zipPre_bind g f t hk.1, zipPreD_bind g f ts us hk.2 fun k t hm => h k t (List.mem_cons_of_mem _ hm)]
    rfl
end

theorem jaxMap_bind {F : γ → List (Tree β) → Except PyErr (Tree δ)} (g : α → γ) (f : α → Tree β) {t : Tree α} (hk : KeysOk t) (hn : norm t = t) :
    jaxMap F (map g t) [bind f t] = mapM (fun a => F (g a) [f a]) t := by
  unfold jaxMap
  rw [Tree.norm_map, hn, map_map, zipAll, zipPre_bind (fun a => (g a, ([] : List (Tree β)))) f t hk]
  simp only [zipAll]
  rw [map_map, mapM_comp]
  rfl

theorem jaxMap_bind2 {F : γ → List (Tree β) → Except PyErr (Tree δ)} (g : α → γ) (f f' : α → Tree β) {t : Tree α} (hk : KeysOk t) (hn : norm t = t) :
    jaxMap F (map g t) [bind f t, bind f' t] = mapM (fun a => F (g a) [f a, f' a]) t := by
  unfold jaxMap
  rw [Tree.norm_map, hn, map_map, zipAll, zipPre_bind (fun a => (g a, ([] : List (Tree β)))) f t hk]
  simp only
  rw [map_map, zipAll, zipPre_bind (fun a => (g a, ([] : List (Tree β)) ++ [f a])) f' t hk]
  simp only [zipAll]
  rw [map_map, mapM_comp]
  rfl

mutual
theorem mapM_pure (f : α → β) : ∀ t : Tree α, mapM (fun a => .ok (.leaf (f a))) t = .ok (map f t)
  | .leaf _ => rfl
  | .none => rfl
  | .list ts => by rw [mapM, mapML_pure f ts, map]
  | .tuple ts => by rw [mapM, mapML_pure f ts, map]
  | .dict kvs => by rw [mapM, mapMD_pure f kvs, map]
theorem mapML_pure (f : α → β) : ∀ ts : List (Tree α), mapML (fun a => .ok (.leaf (f a))) ts = .ok (mapL f ts)
  | [] => rfl
  | t :: ts => by rw [mapML, mapM_pure f t, mapML_pure f ts, mapL]
theorem mapMD_pure (f : α → β) : ∀ ts : List (Str × Tree α), mapMD (fun a => .ok (.leaf (f a))) ts = .ok (mapD f ts)
  | [] => rfl
  | (k, t) :: ts => by rw [mapMD, mapM_pure f t, mapMD_pure f ts, mapD]
end

theorem jaxMap_map {F : γ → List (Tree β) → Except PyErr (Tree δ)} (g : α → γ) (t : Tree α) (us : List (Tree β)) :
    jaxMap F (map g t) us = jaxMap (fun a vs => F (g a) vs) t us := by
  unfold jaxMap
  rw [Tree.norm_map, map_map]
  have := zipAll_map g us (map (fun a => (a, ([] : List (Tree β)))) t.norm)
  rw [map_map] at this
  rw [this]
  cases zipAll us (map (fun a => (a, ([] : List (Tree β)))) t.norm) with
  | error e => rfl
  | ok r => simp only [Except.map]; rw [mapM_comp]

theorem jaxMap_congr {F G : α → List (Tree β) → Except PyErr (Tree δ)} {t : Tree α} (h : ∀ a ∈ flat t, ∀ vs, F a vs = G a vs) (us : List (Tree β)) :
    jaxMap F t us = jaxMap G t us := by
  unfold jaxMap
  cases hz : zipAll us (map (fun a => (a, ([] : List (Tree β)))) t.norm) with
  | error e => rfl
  | ok r =>
    refine mapM_congr _ _ r fun x hx => h x.1 ?_ x.2
    have h1 := zipAll_fst us _ _ hz
    rw [map_map] at h1
    obtain ⟨p, hp⟩ := mem_flat_at.1 hx
    have : At (map Prod.fst r) p x.1 := at_map.2 ⟨x, hp, rfl⟩
    rw [h1] at this
    obtain ⟨a, ha, e⟩ := at_map.1 this
    simp only at e
    subst e
    exact mem_flat_at.2 ⟨p, at_norm.1 ha⟩

theorem jaxMap_normal {F : α → List (Tree β) → Except PyErr (Tree δ)} {t : Tree α} (hk : KeysOk t) (us : List (Tree β)) : jaxMap F t.norm us = jaxMap F t us := by
  unfold jaxMap
  rw [norm_norm hk]

end Tree
end Verif
