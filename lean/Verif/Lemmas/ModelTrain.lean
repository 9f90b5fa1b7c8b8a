import Verif.Spec.ModelTrain
import Verif.Lemmas.Params
import Verif.Lemmas.Sensitivity
import Verif.Props.Concat
import Verif.Props.Params
import Verif.Props.Training

/-! Lemmas for training a model: trees that were taken apart and put together again. -/

namespace Verif.Tree
open ForwardSpec

variable {α β γ : Type}

mutual
theorem keysOk_bind (f : α → Tree β) : ∀ t : Tree α, KeysOk t → (∀ a ∈ flat t, KeysOk (f a)) → KeysOk (Tree.bind f t)
  | .leaf a, _, h => h a (List.mem_singleton.2 rfl)
  | .none, _, _ => trivial
  | .list ts, hk, h => keysOkL_bind f ts hk h
  | .tuple ts, hk, h => keysOkL_bind f ts hk h
  | .dict ts, hk, h => by
    refine ⟨?_, keysOkD_bind f ts hk.2 h⟩
    show ((bindD f ts).map Prod.fst).Nodup
    rw [bindD_eq, List.map_map]
    exact hk.1
theorem keysOkL_bind (f : α → Tree β) : ∀ ts : List (Tree α), KeysOkL ts → (∀ a ∈ flatL ts, KeysOk (f a)) → KeysOkL (bindL f ts)
  | [], _, _ => trivial
  | t :: ts, hk, h => ⟨keysOk_bind f t hk.1 fun a ha => h a (List.mem_append_left _ ha), keysOkL_bind f ts hk.2 fun a ha => h a (List.mem_append_right _ ha)⟩
theorem keysOkD_bind (f : α → Tree β) : ∀ ts : List (Str × Tree α), KeysOkD ts → (∀ a ∈ flatD ts, KeysOk (f a)) → KeysOkD (bindD f ts)
  | [], _, _ => trivial
  | (_, t) :: ts, hk, h => ⟨keysOk_bind f t hk.1 fun a ha => h a (List.mem_append_left _ ha), keysOkD_bind f ts hk.2 fun a ha => h a (List.mem_append_right _ ha)⟩
end

theorem sub_bind (f : α → Tree β) {t : Tree α} {q : List ForwardSpec.Step} {a : α} (h : At t q a) : Sub (Tree.bind f t) q (f a) := by
  induction h with
  | leaf a => exact .here _
  | list hi _ ih => exact .list (by rw [bindL_eq, List.getElem?_map, hi]; rfl) ih
  | tuple hi _ ih => exact .tuple (by rw [bindL_eq, List.getElem?_map, hi]; rfl) ih
  | dict hm _ ih => exact .dict (by rw [bindD_eq]; exact List.mem_map.2 ⟨_, hm, rfl⟩) ih

theorem sub_map_of (f : α → β) {t u : Tree α} {q : List ForwardSpec.Step} (h : Sub t q u) : Sub (map f t) q (map f u) := by
  induction h with
  | here t => exact .here _
  | list hi _ ih => exact .list (by rw [mapL_eq, List.getElem?_map, hi]; rfl) ih
  | tuple hi _ ih => exact .tuple (by rw [mapL_eq, List.getElem?_map, hi]; rfl) ih
  | dict hm _ ih => exact .dict (by rw [mapD_eq]; exact List.mem_map.2 ⟨_, hm, rfl⟩) ih

theorem sub_norm_of {t u : Tree α} {q : List ForwardSpec.Step} (h : Sub t q u) : Sub (norm t) q (norm u) := by
  induction h with
  | here t => exact .here _
  | list hi _ ih => exact .list (by rw [normL_eq, List.getElem?_map, hi]; rfl) ih
  | tuple hi _ ih => exact .tuple (by rw [normL_eq, List.getElem?_map, hi]; rfl) ih
  | dict hm _ ih => exact .dict ((sortKvs_perm _).mem_iff.2 (by rw [normD_eq]; exact List.mem_map.2 ⟨_, hm, rfl⟩)) ih

theorem unflatten_inv {t : Tree α} {xs : List β} {r : Tree β} (h : unflatten t xs = .ok r) : map (fun _ => ()) r = map (fun _ => ()) t.norm ∧ flat r = xs := by
  unfold unflatten at h
  split at h
  · rename_i r' hr
    cases h
    obtain ⟨h1, h2⟩ := unflat_spec _ _ _ _ hr
    rw [List.append_nil] at h1
    exact ⟨((sameStruct_iff _ _).1 h2).symm, h1.symm⟩
  · cases h

theorem unflatten_ok {t : Tree α} {xs : List β} (h : xs.length = (jaxLeaves t).length) : ∃ r, unflatten t xs = .ok r := by
  obtain ⟨r, hr⟩ := unflat_total t.norm xs [] h
  rw [List.append_nil] at hr
  exact ⟨r, by unfold unflatten; rw [hr]⟩

/-- A tree put together from new leaves is as before where the leaves are as before. -/
theorem block {b : α → Bool} {f : α → Tree β} {t : Tree α} (ht : KeysOk t) (hf : ∀ a ∈ flat t, KeysOk (f a)) {p : Tree β}
    (hp : map (fun _ => ()) p = map (fun _ => ()) (Tree.bind f t).norm)
    (hl : ∀ i : Nat, (jaxLeaves (Tree.bind (fun a => map (fun _ => b a) (f a)) t))[i]? = some false → (flat p)[i]? = (jaxLeaves (Tree.bind f t))[i]?)
    {q : List ForwardSpec.Step} {a : α} (hq : At t q a) (hb : b a = false) {u : Tree β} (hu : Sub p q u) : u = norm (f a) := by
  have hk0 : KeysOk (Tree.bind f t) := keysOk_bind f t ht hf
  have hkf : KeysOk (Tree.bind (fun a => map (fun _ => b a) (f a)) t) := keysOk_bind _ t ht fun a ha => (keysOk_map _ _).2 (hf a ha)
  obtain ⟨z, hz1, hz2⟩ := exists_zip (Tree.bind (fun a => map (fun _ => b a) (f a)) t).norm (Tree.bind f t).norm (by
    rw [← Tree.norm_map, ← Tree.norm_map, map_bind, map_bind]
    simp only [map_map])
  obtain ⟨V, hV1, hV2⟩ := exists_zip z p (by rw [hp, ← hz2, map_map])
  have hfl : flat V = (flat z).zip (flat p) := flat_zip hV1 hV2
  have hsame : ∀ v ∈ flat V, v.1.1 = false → v.1.2 = v.2 := by
    intro v hv h0
    obtain ⟨i, hi⟩ := List.getElem?_of_mem hv
    have e1 : (flat V)[i]?.map (fun v => v.1.1) = (jaxLeaves (Tree.bind (fun a => map (fun _ => b a) (f a)) t))[i]? := by
      rw [← List.getElem?_map, ← flat_map', ← map_map (fun v : (Bool × β) × β => v.1) Prod.fst, hV1, hz1]
      rfl
    have e2 : (flat V)[i]?.map (fun v => v.1.2) = (jaxLeaves (Tree.bind f t))[i]? := by
      rw [← List.getElem?_map, ← flat_map', ← map_map (fun v : (Bool × β) × β => v.1) Prod.snd, hV1, hz2]
      rfl
    have e3 : (flat V)[i]?.map (fun v => v.2) = (flat p)[i]? := by
      rw [← List.getElem?_map, ← flat_map', hV2]
    rw [hi] at e1 e2 e3
    have := hl i (by rw [← e1]; simp [h0])
    rw [← e2, ← e3] at this
    simpa using this.symm
  rw [← hV2] at hu
  obtain ⟨w, hw, rfl⟩ := Props.sub_map hu
  have w1 : map (fun v => v.1.1) w = map (fun _ => b a) (norm (f a)) := by
    have h1 := sub_map_of (fun v : (Bool × β) × β => v.1.1) hw
    rw [← map_map (fun v : (Bool × β) × β => v.1) Prod.fst, hV1, hz1] at h1
    have h2 := sub_norm_of (sub_bind (fun a => map (fun _ => b a) (f a)) hq)
    have := sub_unique (keysOk_norm' hkf) h1 h2
    rwa [Tree.norm_map] at this
  have w2 : map (fun v => v.1.2) w = norm (f a) := by
    have h1 := sub_map_of (fun v : (Bool × β) × β => v.1.2) hw
    rw [← map_map (fun v : (Bool × β) × β => v.1) Prod.snd, hV1, hz2] at h1
    exact sub_unique (keysOk_norm' hk0) h1 (sub_norm_of (sub_bind f hq))
  rw [← w2]
  refine map_congr fun v hv => ?_
  have hvV : v ∈ flat V := by
    obtain ⟨s, hs⟩ := mem_flat_at.1 hv
    exact mem_flat_at.2 ⟨_, Props.sub_at hw hs⟩
  refine (hsame v hvV ?_).symm
  have : v.1.1 ∈ flat (map (fun v : (Bool × β) × β => v.1.1) w) := by
    rw [flat_map']
    exact List.mem_map.2 ⟨v, hv, rfl⟩
  rw [w1, flat_map', hb] at this
  obtain ⟨_, _, h⟩ := List.mem_map.1 this
  exact h.symm

end Verif.Tree

namespace Verif.Train
open TrainSpec
variable {α P S K F : Type} {c : Cfg α P S K F}

theorem history_length {s t : TState P S K F} {l : List (Snap P S K F)} (h : History c s l t) (hl : c.flags.length = s.inner.adam.length) (hbl : c.flags.length = s.best.inner.adam.length) :
    t.best.inner.adam.length = s.inner.adam.length := by
  induction h with
  | stop _ => omega
  | @epoch s k snap s' l t _ ht hf _ ih =>
    obtain ⟨bs, -, h2, -, -⟩ := epochTrain_inv ht
    obtain ⟨a1, -⟩ := steps_frozen hl h2
    obtain ⟨b1, -⟩ := finish_frozen (by omega) hf
    have hbest : s'.best = if c.lt snap.loss s.best.loss then snap else s.best := by rw [(epochFinish_inv hf).2]
    have hb : c.flags.length = s'.best.inner.adam.length := by
      rw [hbest]
      split
      · omega
      · exact hbl
    have := ih (by omega) hb
    omega

theorem run_length {k : K} {adam : List (OptState P)} {st : S} {rng : K} {t : TState P S K F} (hl : c.flags.length = adam.length) (h : run c k adam st rng = .ok t) :
    t.best.inner.adam.length = adam.length := by
  obtain ⟨s, l, hs, hh⟩ := run_inv h
  obtain ⟨-, hi, hb, -⟩ := initial_inv hs
  have ha : s.inner.adam = adam := by rw [hi]
  have hbi : s.best.inner = s.inner := by rw [hb]
  have := history_length hh (by rw [ha, hl]) (by rw [hbi, ha, hl])
  rw [this, ha]

end Verif.Train

namespace Verif.ModelTrain
open Tree Params ParamsSpec ForwardSpec Train ModelTrainSpec

variable {X A K α F : Type}

theorem nodeTrainable_iff (tr : X → Bool) (h : Nat → X) : ∀ (n : Nat) (x : Node n), nodeTrainable tr n x h = true ↔ Trainable tr n x h
  | 0, r => by
    show tr (h r) = true ↔ ∃ r' ∈ [r], tr (h r') = true
    simp
  | _ + 1, .inl r => by
    show tr (h r) = true ↔ ∃ r' ∈ [r], tr (h r') = true
    simp
  | n + 1, .inr t => by
    show ((jaxLeaves t).any fun o => nodeTrainable tr n o h) = true ↔ ∃ r ∈ (flat t).flatMap (refs n), tr (h r) = true
    rw [List.any_eq_true]
    constructor
    · rintro ⟨o, ho, hr⟩
      obtain ⟨r, h1, h2⟩ := (nodeTrainable_iff tr h n o).1 hr
      exact ⟨r, List.mem_flatMap.2 ⟨o, mem_flat_norm.1 ho, h1⟩, h2⟩
    · rintro ⟨r, hr, h2⟩
      obtain ⟨o, ho, h1⟩ := List.mem_flatMap.1 hr
      exact ⟨o, mem_flat_norm.2 ho, (nodeTrainable_iff tr h n o).2 ⟨r, h1, h2⟩⟩

theorem keysOk_getAll {get : X → Tree A} {h : Nat → X} : ∀ (n : Nat) (x : Node n), KeysAll n x → (∀ r ∈ refs n x, KeysOk (get (h r))) → KeysOk (getAll get n x h)
  | 0, r, _, hr => hr r (List.mem_singleton.2 rfl)
  | _ + 1, .inl r, _, hr => hr r (List.mem_singleton.2 rfl)
  | n + 1, .inr t, hk, hr => by
    refine keysOk_bind _ _ (keysOk_norm' hk.1) fun o ho => ?_
    obtain ⟨q, hq⟩ := mem_flat_at.1 (mem_flat_norm.1 ho)
    exact keysOk_getAll n o (hk.2 q o hq) fun r hm => hr r (List.mem_flatMap.2 ⟨o, mem_flat_norm.1 ho, hm⟩)

theorem gets_norm {get : X → Tree A} {h : Nat → X} : ∀ (n : Nat) (x : Node n) {u : Tree A} {r : Nat} {v : Tree A}, KeysAll n x → (∀ r ∈ refs n x, KeysOk (get (h r))) → KeysOk u →
    norm u = norm (getAll get n x h) → Gets .params n x u r v → norm v = norm (get (h r))
  | 0, r', u, r, v, _, _, _, hu, hg => by
    obtain ⟨rfl, rfl⟩ := hg
    exact hu
  | _ + 1, .inl r', u, r, v, _, _, _, hu, hg => by
    obtain ⟨rfl, rfl⟩ := hg
    exact hu
  | n + 1, .inr t, u, r, v, hk, hr, hku, hu, hg => by
    obtain ⟨-, q, o, w, hq, hw, hg⟩ := hg
    have hro : ∀ r ∈ refs n o, KeysOk (get (h r)) := fun r hm => hr r (List.mem_flatMap.2 ⟨o, mem_flat_at.2 ⟨q, hq⟩, hm⟩)
    refine gets_norm n o (hk.2 q o hq) hro (keysOk_sub hku hw) ?_ hg
    have h1 := sub_norm_of hw
    rw [hu] at h1
    exact sub_unique (keysOk_norm' (keysOk_getAll (n + 1) (.inr t) hk hr)) h1 (sub_norm_of (sub_bind (fun o => getAll get n o h) (at_norm.2 hq)))

theorem gets_map {B : Type} (f : A → B) : ∀ (n : Nat) (x : Node n) {u : Tree A} {r : Nat} {v : Tree A}, Gets .params n x u r v → Gets .params n x (map f u) r (map f v)
  | 0, _, _, _, _, hg => ⟨hg.1, congrArg (map f) hg.2⟩
  | _ + 1, .inl _, _, _, _, hg => ⟨hg.1, congrArg (map f) hg.2⟩
  | n + 1, .inr t, u, r, v, hg => by
    obtain ⟨-, q, o, w, hq, hw, hg⟩ := hg
    exact ⟨(fun h => nomatch h.1), q, o, _, hq, sub_map_of f hw, gets_map f n o hg⟩

theorem getAll_map {B : Type} (f : A → B) (get : X → Tree A) (h : Nat → X) : ∀ (n : Nat) (x : Node n), getAll (fun x => map f (get x)) n x h = map f (getAll get n x h)
  | 0, _ => rfl
  | _ + 1, .inl _ => rfl
  | n + 1, .inr t => by
    show Tree.bind _ _ = map f (Tree.bind _ _)
    rw [map_bind]
    exact bind_congr _ fun x _ => getAll_map f get h n x

/-- The parts of a tree of the structure of the parameters have the structure of the parameters of the objects. -/
theorem gets_struct {get : X → Tree A} {h : Nat → X} {n : Nat} {x : Node n} {u : Tree A} {r : Nat} {v : Tree A} (hk : KeysAll n x) (hr : ∀ r ∈ refs n x, KeysOk (get (h r))) (hu : KeysOk u)
    (hs : map (fun _ => ()) (norm u) = map (fun _ => ()) (norm (getAll get n x h))) (hg : Gets .params n x u r v) : map (fun _ => ()) (norm v) = map (fun _ => ()) (norm (get (h r))) := by
  have := gets_norm (get := fun x => map (fun _ => ()) (get x)) (h := h) n x hk (fun r hm => (keysOk_map _ _).2 (hr r hm)) ((keysOk_map _ _).2 hu)
    (by rw [getAll_map, Tree.norm_map, Tree.norm_map, hs]) (gets_map (fun _ => ()) n x hg)
  rwa [Tree.norm_map, Tree.norm_map] at this

variable {o : Ops X A} {n : Nat} {t : Tree (Node n)} {j : Job X A K α F} {resume : Bool} {m : MState X A K}

/-- The flags as a tree. -/
def flags (o : Ops X A) (n : Nat) (t : Tree (Node n)) (h : Nat → X) : Tree Bool :=
  Tree.bind (fun x => map (fun _ => isTrainable o n h x) (getAll o.getP n x h)) (norm t)

theorem flagTree_run {h : Nat → X} (hk : KeysOk t) : flagTree o n t h = .ok (flags o n t h) := by
  unfold flagTree broadcast
  rw [Tree.norm_map, norm_norm hk]
  show (zipPre (map (isTrainable o n h) (norm t)) (Tree.bind (fun x => getAll o.getP n x h) (norm t))).map _ = _
  rw [zipPre_bind _ _ _ (keysOk_norm' hk)]
  simp only [Except.map]
  rw [bind_map]
  rfl

theorem flags_struct {h : Nat → X} : map (fun _ => ()) (flags o n t h) = map (fun _ => ()) (params o n t h) := by
  show map _ (Tree.bind _ _) = map _ (Tree.bind _ _)
  rw [map_bind, map_bind]
  simp only [map_map]

theorem flags_norm {h : Nat → X} : map (fun _ => ()) (flags o n t h).norm = map (fun _ => ()) (params o n t h).norm := by
  rw [← Tree.norm_map, flags_struct, Tree.norm_map]

theorem flags_length {h : Nat → X} : (jaxLeaves (flags o n t h)).length = (jaxLeaves (params o n t h)).length :=
  Forward.jaxLeaves_length ((sameStruct_iff _ _).2 flags_norm.symm)

theorem core_inv {p s : Tree A} {k : K} {a : Tree (OptState A)} (hk : KeysOk t) (h : core o n t j resume m = .ok (p, s, k, a)) :
    ∃ adam r, start j resume m.opt (params o n t m.store) (flags o n t m.store) = .ok adam ∧
      run (mkCfg j (flags o n t m.store) (jaxLeaves (flags o n t m.store))) j.batchRng adam (getAll o.getS (n + 1) (.inr t) m.store) m.rng = .ok r ∧
      unflatten (flags o n t m.store) (r.best.inner.adam.map (·.params)) = .ok p ∧ unflatten (flags o n t m.store) r.best.inner.adam = .ok a ∧
      s = r.best.inner.mstate ∧ k = r.best.inner.mrng := by
  unfold core at h
  rw [flagTree_run hk] at h
  simp only [Bind.bind, Except.bind] at h
  split at h
  · cases h
  split at h
  · cases h
  split at h
  · cases h
  split at h
  · cases h
  rename_i adam hadam
  split at h
  · cases h
  rename_i r hr
  split at h
  · cases h
  rename_i p' hp
  split at h
  · cases h
  rename_i a' ha
  cases h
  exact ⟨adam, r, hadam, hr, hp, ha, rfl, rfl⟩

end Verif.ModelTrain
