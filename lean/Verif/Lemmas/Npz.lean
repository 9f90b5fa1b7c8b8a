import Verif.Spec.ScalerFile
import Verif.Lemmas.TreeZip

/-! # Lemmas about values in files and about `jax.tree.map` of normalised trees -/

namespace Verif
namespace Tree
open ForwardSpec (KeysOk KeysOkL KeysOkD)

variable {α β γ : Type}

/-- The second part normalised. -/
def nrm (x : α × Tree β) : α × Tree β := (x.1, x.2.norm)

theorem lookup_norm {us : List (Str × Tree β)} (hk : (us.map Prod.fst).Nodup) (k : Str) :
    (sortKvs (normD us)).lookup k = (us.lookup k).map norm := by
  have hn : ((sortKvs (normD us)).map Prod.fst).Nodup := by
    rw [((sortKvs_perm _).map Prod.fst).nodup_iff, normD_fst]
    exact hk
  cases h : us.lookup k with
  | some u =>
    refine lookup_of_mem hn ((sortKvs_perm _).mem_iff.2 ?_)
    rw [normD_eq, List.mem_map]
    exact ⟨(k, u), lookup_mem h, rfl⟩
  | none =>
    cases h' : (sortKvs (normD us)).lookup k with
    | none => rfl
    | some v =>
      have := (sortKvs_perm _).mem_iff.1 (lookup_mem h')
      rw [normD_eq, List.mem_map] at this
      obtain ⟨⟨k', u⟩, hm, e⟩ := this
      cases e
      rw [lookup_of_mem hk hm] at h
      cases h

mutual
theorem zipPre_norm : ∀ (t : Tree α) (u : Tree β), KeysOk u → zipPre t u.norm = (zipPre t u).map (map nrm)
  | .leaf a, u, _ => by simp [zipPre, Except.map, map, nrm]
  | .none, u, _ => by cases u <;> rfl
  | .list ts, u, hk => by
    cases u with
    | list us =>
      rw [norm, zipPre, zipPre, zipPreL_norm ts us hk]
      cases zipPreL ts us <;> rfl
    | _ => rfl
  | .tuple ts, u, hk => by
    cases u with
    | tuple us =>
      rw [norm, zipPre, zipPre, zipPreL_norm ts us hk]
      cases zipPreL ts us <;> rfl
    | _ => rfl
  | .dict ts, u, hk => by
    cases u with
    | dict us =>
      have hl : (sortKvs (normD us)).length = us.length := by rw [(sortKvs_perm _).length_eq, normD_eq, List.length_map]
      rw [norm, zipPre, zipPre, hl]
      split
      · rfl
      · rw [zipPreD_norm ts us _ (fun k => lookup_norm hk.1 k) fun k u hu => keysOkD_mem hk.2 (lookup_mem hu)]
        cases zipPreD ts us <;> rfl
    | _ => rfl
theorem zipPreL_norm : ∀ (ts : List (Tree α)) (us : List (Tree β)), KeysOkL us → zipPreL ts (normL us) = (zipPreL ts us).map (mapL nrm)
  | [], us, _ => by cases us <;> rfl
  | t :: ts, us, hk => by
    cases us with
    | nil => rfl
    | cons u us =>
      rw [normL, zipPreL, zipPreL, zipPre_norm t u hk.1, zipPreL_norm ts us hk.2]
      cases zipPre t u with
      | error e => rfl
      | ok r => cases zipPreL ts us <;> rfl
theorem zipPreD_norm : ∀ (ts : List (Str × Tree α)) (us us' : List (Str × Tree β)), (∀ k, us'.lookup k = (us.lookup k).map norm) →
    (∀ k u, us.lookup k = some u → KeysOk u) → zipPreD ts us' = (zipPreD ts us).map (mapD nrm)
  | [], us, us', _, _ => rfl
  | (k, t) :: ts, us, us', h, hk => by
    rw [zipPreD, zipPreD, h k]
    cases hl : us.lookup k with
    | none => rfl
    | some u =>
      simp only [Option.map_some]
      rw [zipPre_norm t u (hk k u hl), zipPreD_norm ts us us' h hk]
      cases zipPre t u with
      | error e => rfl
      | ok r => cases zipPreD ts us <;> rfl
end

/-- The parts normalised. -/
def nrmAll (x : α × List (Tree β)) : α × List (Tree β) := (x.1, x.2.map norm)

theorem zipAll_norm : ∀ (us : List (Tree β)) (r : Tree (α × List (Tree β))), (∀ u ∈ us, KeysOk u) →
    zipAll (us.map norm) (map nrmAll r) = (zipAll us r).map (map nrmAll)
  | [], r, _ => rfl
  | u :: us, r, h => by
    rw [List.map_cons, zipAll, zipAll, zipPre_norm _ u (h u (by simp)), zipPre_map]
    cases zipPre r u with
    | error e => rfl
    | ok r' =>
      simp only [Except.map, map_map]
      have := zipAll_norm us (map (fun x => (x.1.1, x.1.2 ++ [x.2])) r') fun u hu => h u (List.mem_cons_of_mem _ hu)
      rw [map_map] at this
      simpa [nrmAll, nrm, Except.map] using this

theorem jaxMap_norm {f : α → List (Tree β) → Except PyErr (Tree γ)} (hf : ∀ a vs, f a (vs.map norm) = f a vs) (t : Tree α) (us : List (Tree β)) (h : ∀ u ∈ us, KeysOk u) :
    jaxMap f t (us.map norm) = jaxMap f t us := by
  unfold jaxMap
  have := zipAll_norm us (map (fun a => (a, ([] : List (Tree β)))) t.norm) h
  rw [map_map] at this
  simp only [nrmAll, List.map_nil] at this
  rw [this]
  cases zipAll us (map (fun a => (a, [])) t.norm) with
  | error e => rfl
  | ok r =>
    simp only [Except.map]
    rw [mapM_comp]
    simp only [nrmAll, hf]

end Tree

namespace Npz
open Tree FileSpec
open ForwardSpec (KeysOk)

variable {R : Type}

/-- Storing and reading a value. -/
def Trip (v v' : Val R) : Prop := ∃ s, store v = .ok s ∧ fetch s = .ok v'

theorem trip_none : Trip (.none : Val R) .none := ⟨_, rfl, rfl⟩

theorem trip_dict (kvs : List (Str × Val R)) : Trip (.dict kvs) (Tree.norm (.dict kvs)) := ⟨_, rfl, rfl⟩

theorem trip_scalar {x : NArr (Entry R)} (h : x.shape = []) : Trip (.leaf x) (.leaf x) := ⟨_, rfl, by rw [fetch, if_pos h]⟩

theorem trip_array {x : NArr (Entry R)} (h : ∀ i, (x.val i).isText = false) : Trip (.leaf x) (.leaf x) := by
  refine ⟨_, rfl, ?_⟩
  rw [fetch]
  split
  · rfl
  · rw [if_neg]
    rw [Bool.not_eq_true, List.any_eq_false]
    intro e he
    obtain ⟨i, -, rfl⟩ := List.mem_map.1 he
    rw [h i]
    simp

/-- Values that are one object for NumPy, or a single number. -/
def Unit0 (v : Val R) : Prop := (∃ x, v = .leaf x ∧ x.shape = []) ∨ v = .none ∨ ∃ kvs, v = .dict kvs

theorem unit0_shape {v : Val R} (h : Unit0 v) : shapeOf v = .ok [] := by
  rcases h with ⟨x, rfl, h⟩ | rfl | ⟨kvs, rfl⟩
  · rw [shapeOf, h]
  · rfl
  · rfl

theorem unit0_toList {v : Val R} (h : Unit0 v) : toList v = v := by
  rcases h with ⟨⟨s, f⟩, rfl, h⟩ | rfl | ⟨kvs, rfl⟩
  · cases h; rfl
  · rfl
  · rfl

theorem shapeOfL_unit : ∀ {ts : List (Val R)}, (∀ t ∈ ts, Unit0 t) → shapeOfL ts = .ok []
  | [], _ => rfl
  | [t], h => by rw [shapeOfL, unit0_shape (h t (by simp))]
  | t :: u :: ts, h => by
    rw [shapeOfL, unit0_shape (h t (by simp)), shapeOfL_unit fun x hx => h x (List.mem_cons_of_mem _ hx)]
    rfl

theorem toListL_unit : ∀ {ts : List (Val R)}, (∀ t ∈ ts, Unit0 t) → toListL ts = ts
  | [], _ => rfl
  | t :: ts, h => by rw [toListL, unit0_toList (h t (by simp)), toListL_unit fun x hx => h x (List.mem_cons_of_mem _ hx)]

/-- A list of objects is restored. -/
theorem trip_list {ts : List (Val R)} (h : ∀ t ∈ ts, Unit0 t) (ho : hasObjL ts = true) : Trip (.list ts) (Tree.norm (.list ts)) :=
  ⟨.objects (.list ts), by simp only [store, storeSeq, shapeOf, shapeOfL_unit h, hasObj, ho, if_true, toList, toListL_unit h], rfl⟩

/-- A tuple of objects becomes a list. -/
theorem trip_tuple {ts : List (Val R)} (h : ∀ t ∈ ts, Unit0 t) (ho : hasObjL ts = true) : Trip (.tuple ts) (Tree.norm (.list ts)) :=
  ⟨.objects (.list ts), by simp only [store, storeSeq, shapeOf, shapeOfL_unit h, hasObj, ho, if_true, toList, toListL_unit h], rfl⟩

/-- Two values that survive as a tuple. -/
theorem trip_pair {a b : Val R}
    (h : (∃ x y, a = .leaf x ∧ b = .leaf y ∧ x.shape = y.shape ∧ (∀ i, (x.val i).isText = false) ∧ ∀ i, (y.val i).isText = false) ∨
      (Unit0 a ∧ Unit0 b ∧ (hasObj a || hasObj b) = true)) :
    ∃ v, Trip (.tuple [a, b]) v ∧ unpack2 v = .ok (a.norm, b.norm) := by
  rcases h with ⟨⟨s, f⟩, ⟨s', g⟩, rfl, rfl, hs, hx, hy⟩ | ⟨h1, h2, h3⟩
  · simp only at hs hx hy
    subst hs
    refine ⟨.leaf ⟨2 :: s, entryOf (.tuple [.leaf ⟨s, f⟩, .leaf ⟨s, g⟩])⟩, ⟨.array ⟨2 :: s, entryOf (.tuple [.leaf ⟨s, f⟩, .leaf ⟨s, g⟩])⟩, ?_, ?_⟩, rfl⟩
    · simp [store, storeSeq, shapeOf, shapeOfL, hasObj, hasObjL]
    · rw [fetch, if_neg (by simp), if_neg]
      rw [Bool.not_eq_true, List.any_eq_false]
      intro e he
      obtain ⟨i, -, rfl⟩ := List.mem_map.1 he
      have : ∀ i, ((entryOf (.tuple [.leaf ⟨s, f⟩, .leaf ⟨s, g⟩]) i)).isText = false := by
        intro i
        match i with
        | [] => rfl
        | 0 :: is => exact hx is
        | 1 :: is => exact hy is
        | (n + 2) :: is => rfl
      simp [this]
  · refine ⟨_, trip_tuple (ts := [a, b]) (by simpa using ⟨h1, h2⟩) (by simpa [hasObjL] using h3), rfl⟩

/-- Two records with the same keys and restored values. -/
def Trips : Record R → Record R → Prop := List.Forall₂ fun a b => a.1 = b.1 ∧ Trip a.2 b.2

theorem trips : ∀ {d d' : Record R}, Trips d d' → ∃ r, storeAll d = .ok r ∧ fetchAll r = .ok d'
  | _, _, .nil => ⟨[], rfl, rfl⟩
  | (k, v) :: d, (k', v') :: d', .cons h hd => by
    obtain ⟨e, s, h1, h2⟩ := h
    simp only at e h1 h2
    subst e
    obtain ⟨r, h3, h4⟩ := trips hd
    exact ⟨(k, s) :: r, by simp only [storeAll, h1, h3], by simp only [fetchAll, h2, h4]⟩

theorem withExt_withExt (s : Str) : withExt (withExt s) = withExt s := by
  have : npzExt.isSuffixOf (withExt s) = true := by
    unfold withExt
    split
    · assumption
    · rw [List.isSuffixOf_iff_suffix]
      exact List.suffix_append _ _
  rw [withExt, if_pos this]

theorem named_read {fp : FilePath} (h : Named fp) : fp.written = fp.read := by
  cases fp with
  | str s => exact withExt_withExt s
  | path s => exact if_pos h

theorem save_load {d d' : Record R} (h : Trips d d') {fp : FilePath} (hfp : Named fp) (disk : Disk R) : ∃ disk', save d fp disk = .ok disk' ∧ load fp disk' = .ok d' := by
  obtain ⟨r, h1, h2⟩ := trips h
  refine ⟨_, by rw [save, h1], ?_⟩
  rw [load, named_read hfp]
  simp only [if_true, h2]

end Npz
end Verif
