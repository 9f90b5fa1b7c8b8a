import Verif.Spec.Params
import Verif.Lemmas.TreePrefix

/-! # Lemmas about reading and setting parameters -/

namespace Verif
namespace Tree
open ForwardSpec

variable {α β γ : Type}

mutual
theorem keysOk_of_norm : ∀ t : Tree α, KeysOk (norm t) → KeysOk t
  | .leaf _, _ => trivial
  | .none, _ => trivial
  | .list ts, h => keysOkL_of_norm ts h
  | .tuple ts, h => keysOkL_of_norm ts h
  | .dict kvs, h => by
    rw [norm] at h
    have hp := sortKvs_perm (normD kvs)
    refine ⟨?_, keysOkD_of_norm kvs fun k t hm => keysOkD_mem h.2 (hp.mem_iff.2 hm)⟩
    have := (hp.map Prod.fst).nodup_iff.1 h.1
    rwa [normD_eq, List.map_map] at this
theorem keysOkL_of_norm : ∀ ts : List (Tree α), KeysOkL (normL ts) → KeysOkL ts
  | [], _ => trivial
  | t :: ts, h => ⟨keysOk_of_norm t h.1, keysOkL_of_norm ts h.2⟩
theorem keysOkD_of_norm : ∀ ts : List (Str × Tree α), (∀ k t, (k, t) ∈ normD ts → KeysOk t) → KeysOkD ts
  | [], _ => trivial
  | (k, t) :: ts, h => ⟨keysOk_of_norm t (h k _ List.mem_cons_self), keysOkD_of_norm ts fun k t hm => h k t (List.mem_cons_of_mem _ hm)⟩
end

theorem keysOk_sub {p : List ForwardSpec.Step} {v : Tree α} : ∀ {t : Tree α}, KeysOk t → Sub t p v → KeysOk v := by
  intro t hk h
  induction h with
  | here t => exact hk
  | list hi _ ih => exact ih (keysOkL_mem hk (List.mem_of_getElem? hi))
  | tuple hi _ ih => exact ih (keysOkL_mem hk (List.mem_of_getElem? hi))
  | dict hm _ ih => exact ih (keysOkD_mem hk.2 hm)

theorem zipPre_prefix {t : Tree α} {p : Tree β} (ht : KeysOk t) (hp : KeysOk p) : (∃ r, zipPre (norm t) p = .ok r) ↔ ParamsSpec.Prefix t p := by
  constructor
  · rintro ⟨r, h⟩
    exact ⟨r, zipPre_fst _ _ h, zipPre_back _ _ (keysOk_norm' ht) hp h⟩
  · rintro ⟨r, h1, h2⟩
    have hr : KeysOk r := by
      rw [← keysOk_map Prod.fst, h1]
      exact keysOk_norm' ht
    have hz := zipPre_bind Prod.fst Prod.snd r hr
    rw [h1] at hz
    have hb : KeysOk (bind Prod.snd r) := keysOk_of_norm _ (by rw [h2]; exact keysOk_norm' hp)
    have h3 := zipPre_norm (norm t) _ hb
    rw [h2, zipPre_norm _ _ hp, hz] at h3
    cases h4 : zipPre (norm t) p with
    | ok r => exact ⟨r, rfl⟩
    | error e => rw [h4] at h3; simp [Except.map] at h3

theorem zipPre_mem {t : Tree α} {p : Tree β} (ht : KeysOk t) (hp : KeysOk p) {r : Tree (α × Tree β)} (h : zipPre (norm t) p = .ok r) {o : α} {u : Tree β} :
    (o, u) ∈ flat r ↔ ∃ q, At t q o ∧ Sub p q u := by
  have hf := zipPre_fst _ _ h
  constructor
  · intro hm
    obtain ⟨q, hq⟩ := mem_flat_at.1 hm
    refine ⟨q, ?_, zipPre_at h hq⟩
    rw [← at_norm, ← hf, at_map]
    exact ⟨_, hq, rfl⟩
  · rintro ⟨q, hq, hs⟩
    rw [← at_norm, ← hf, at_map] at hq
    obtain ⟨⟨o', u'⟩, hq, rfl⟩ := hq
    rw [sub_unique hp hs (zipPre_at h hq)]
    exact mem_flat_at.2 ⟨q, hq⟩

mutual
theorem flat_map' (f : α → β) : ∀ t : Tree α, flat (map f t) = (flat t).map f
  | .leaf _ => rfl
  | .none => rfl
  | .list ts => flatL_map' f ts
  | .tuple ts => flatL_map' f ts
  | .dict ts => flatD_map' f ts
theorem flatL_map' (f : α → β) : ∀ ts : List (Tree α), flatL (mapL f ts) = (flatL ts).map f
  | [] => rfl
  | t :: ts => by rw [mapL, flatL, flatL, List.map_append, flat_map' f t, flatL_map' f ts]
theorem flatD_map' (f : α → β) : ∀ ts : List (Str × Tree α), flatD (mapD f ts) = (flatD ts).map f
  | [] => rfl
  | (_, t) :: ts => by rw [mapD, flatD, flatD, List.map_append, flat_map' f t, flatD_map' f ts]
end

theorem zipPre_leaves {t : Tree α} {p : Tree β} {r : Tree (α × Tree β)} (h : zipPre (norm t) p = .ok r) : ((flat r).map Prod.fst).Perm (flat t) := by
  rw [← flat_map', zipPre_fst _ _ h]
  exact flat_norm_perm t

end Tree

namespace Params
open Tree ForwardSpec ParamsSpec

variable {X A : Type} {w : What} {get : X → Tree A} {set : X → Tree A → X × Option PyErr}

theorem skips_iff {w : What} {p : Tree A} : w.skips p = true ↔ w = .state ∧ p = .none := by
  cases w <;> cases p <;> simp [What.skips]

theorem setAll_model (n : Nat) (t : Tree (Node n)) (p : Tree A) (h : Nat → X) : setAll w set (n + 1) (.inr t) p h =
    if w.skips p then (h, Option.none)
    else match zipPre (norm t) p with
      | .error e => (h, some (w.raised e))
      | .ok r => match setEach (setAll w set n) (flat r) h with
        | (h', Option.none) => (h', Option.none)
        | (h', some e) => (h', some (w.raised e)) := rfl

theorem setEach_frame {O P : Type} {f : O → P → (Nat → X) → (Nat → X) × Option PyErr} {rf : O → List Nat} (hf : ∀ o p h r, r ∉ rf o → (f o p h).1 r = h r) :
    ∀ (l : List (O × P)) (h : Nat → X) (r : Nat), (∀ x ∈ l, r ∉ rf x.1) → (setEach f l h).1 r = h r
  | [], _, _, _ => rfl
  | (o, p) :: l, h, r, hr => by
    have h1 := hf o p h r (hr _ List.mem_cons_self)
    unfold setEach
    cases hs : f o p h with
    | mk h' e =>
      rw [hs] at h1
      cases e with
      | none =>
        simp only
        rw [setEach_frame hf l h' r fun x hx => hr x (List.mem_cons_of_mem _ hx)]
        exact h1
      | some e => exact h1

theorem setAll_frame : ∀ (n : Nat) (o : Node n) (p : Tree A) (h : Nat → X) (r : Nat), r ∉ refs n o → (setAll w set n o p h).1 r = h r
  | 0, r', p, h, r, hr => by
    have : r ≠ r' := fun e => hr (by rw [e]; exact List.mem_singleton.2 rfl)
    exact Function.update_of_ne this _ _
  | _ + 1, .inl r', p, h, r, hr => by
    have : r ≠ r' := fun e => hr (by rw [e]; exact List.mem_singleton.2 rfl)
    exact Function.update_of_ne this _ _
  | n + 1, .inr t, p, h, r, hr => by
    rw [setAll_model]
    split
    · rfl
    split
    · rfl
    · rename_i z hz
      have := setEach_frame (setAll_frame n) (flat z) h r fun x hx hm => hr (by
        refine List.mem_flatMap.2 ⟨x.1, ?_, hm⟩
        exact (zipPre_leaves hz).mem_iff.1 (List.mem_map_of_mem hx))
      cases he : setEach (setAll w set n) (flat z) h with
      | mk h' e =>
        rw [he] at this
        cases e <;> exact this

theorem gets_mem : ∀ (n : Nat) (o : Node n) {p : Tree A} {r : Nat} {v : Tree A}, Gets w n o p r v → r ∈ refs n o
  | 0, r', p, r, v, h => by rw [h.1]; exact List.mem_singleton.2 rfl
  | _ + 1, .inl r', p, r, v, h => by rw [h.1]; exact List.mem_singleton.2 rfl
  | n + 1, .inr t, p, r, v, h => by
    obtain ⟨_, q, o, u, ho, _, hg⟩ := h
    exact List.mem_flatMap.2 ⟨o, mem_flat_at.2 ⟨q, ho⟩, gets_mem n o hg⟩

theorem disjoint_of_nodup {O : Type} {rf : O → List Nat} {o : O} {l : List O} (h : ((o :: l).flatMap rf).Nodup) : (rf o).Nodup ∧ (l.flatMap rf).Nodup ∧ ∀ x ∈ l, ∀ r ∈ rf o, r ∉ rf x := by
  rw [List.flatMap_cons, List.nodup_append] at h
  exact ⟨h.1, h.2.1, fun x hx r hr hm => h.2.2 r hr r (List.mem_flatMap.2 ⟨x, hx, hm⟩) rfl⟩

theorem setEach_ok {O P : Type} {f : O → P → (Nat → X) → (Nat → X) × Option PyErr} {rf : O → List Nat} (hf : ∀ o p h r, r ∉ rf o → (f o p h).1 r = h r)
    {G : O → P → Nat → Tree A → Prop} (hG : ∀ o p r v, G o p r v → r ∈ rf o) :
    ∀ (l : List (O × P)) (h h' : Nat → X), ((l.map Prod.fst).flatMap rf).Nodup →
      (∀ x ∈ l, ∀ h h', f x.1 x.2 h = (h', Option.none) → ∀ r v, G x.1 x.2 r v → set (h r) v = (h' r, Option.none)) →
      setEach f l h = (h', Option.none) → ∀ x ∈ l, (∃ h h', f x.1 x.2 h = (h', Option.none)) ∧ ∀ r v, G x.1 x.2 r v → set (h r) v = (h' r, Option.none)
  | [], _, _, _, _, _, _, hx => by cases hx
  | (o, p) :: l, h, h', hn, hs, he, x, hx => by
    obtain ⟨_, hn2, hd⟩ := disjoint_of_nodup hn
    unfold setEach at he
    cases h1 : f o p h with
    | mk h₁ e =>
      rw [h1] at he
      cases e with
      | some e => cases he
      | none =>
        simp only at he
        rcases List.mem_cons.1 hx with rfl | hx
        · refine ⟨⟨h, h₁, h1⟩, fun r v hg => ?_⟩
          rw [hs _ List.mem_cons_self h h₁ h1 r v hg]
          have := setEach_frame hf l h₁ r fun y hy => hd y.1 (List.mem_map_of_mem hy) r (hG _ _ _ _ hg)
          rw [he] at this
          exact congrArg (·, Option.none) (show h' r = h₁ r from this).symm
        · obtain ⟨ha, hb⟩ := setEach_ok hf hG l h₁ h' hn2 (fun y hy => hs y (List.mem_cons_of_mem _ hy)) he x hx
          refine ⟨ha, fun r v hg => ?_⟩
          rw [← hb r v hg]
          have := hf o p h r fun hm => hd x.1 (List.mem_map_of_mem hx) r hm (hG _ _ _ _ hg)
          rw [h1] at this
          exact congrArg (set · v) (show h₁ r = h r from this).symm

theorem setEach_total {O P : Type} {f : O → P → (Nat → X) → (Nat → X) × Option PyErr} {rf : O → List Nat} (hf : ∀ o p h r, r ∉ rf o → (f o p h).1 r = h r)
    {G : O → P → Nat → Tree A → Prop} (hG : ∀ o p r v, G o p r v → r ∈ rf o) :
    ∀ (l : List (O × P)) (h : Nat → X), ((l.map Prod.fst).flatMap rf).Nodup →
      (∀ x ∈ l, ∀ h, (∀ r v, G x.1 x.2 r v → (set (h r) v).2 = Option.none) → (f x.1 x.2 h).2 = Option.none) →
      (∀ x ∈ l, ∀ r v, G x.1 x.2 r v → (set (h r) v).2 = Option.none) → (setEach f l h).2 = Option.none
  | [], _, _, _, _ => rfl
  | (o, p) :: l, h, hn, hs, hg => by
    obtain ⟨_, hn2, hd⟩ := disjoint_of_nodup hn
    have h1 := hs _ List.mem_cons_self h (hg _ List.mem_cons_self)
    unfold setEach
    cases h2 : f o p h with
    | mk h₁ e =>
      rw [h2] at h1
      simp only at h1
      subst h1
      refine setEach_total hf hG l h₁ hn2 (fun y hy => hs y (List.mem_cons_of_mem _ hy)) fun y hy r v hgv => ?_
      have := hf o p h r fun hm => hd y.1 (List.mem_map_of_mem hy) r hm (hG _ _ _ _ hgv)
      rw [h2] at this
      rw [show h₁ r = h r from this]
      exact hg y (List.mem_cons_of_mem _ hy) r v hgv

theorem refs_flat {n : Nat} {t : Tree (Node n)} {p : Tree A} {r : Tree (Node n × Tree A)} (h : zipPre (norm t) p = .ok r) (hn : (refs (n + 1) (.inr t)).Nodup) :
    (((flat r).map Prod.fst).flatMap (refs n)).Nodup :=
  (((zipPre_leaves h).flatMap_right _).nodup_iff).2 hn

/-- Nodup of the objects of one module. -/
theorem refs_nodup {O : Type} {rf : O → List Nat} : ∀ {l : List O} {o : O}, (l.flatMap rf).Nodup → o ∈ l → (rf o).Nodup
  | o' :: l, o, h, hm => by
    obtain ⟨h1, h2, _⟩ := disjoint_of_nodup h
    rcases List.mem_cons.1 hm with rfl | hm
    · exact h1
    · exact refs_nodup h2 hm

theorem setObj_ok {r' r : Nat} {p v : Tree A} {h h' : Nat → X} (he : setObj set r' p h = (h', Option.none)) (hg : r' = r ∧ p = v) : set (h r) v = (h' r, Option.none) := by
  obtain ⟨rfl, rfl⟩ := hg
  have h1 : Function.update h r' (set (h r') p).1 = h' := congrArg Prod.fst he
  have h2 : (set (h r') p).2 = Option.none := congrArg Prod.snd he
  rw [← h1, Function.update_self, ← h2]

/-- After a successful call. -/
theorem setAll_ok : ∀ (n : Nat) (o : Node n) (p : Tree A) (h h' : Nat → X), KeysAll n o → KeysOk p → (refs n o).Nodup → setAll w set n o p h = (h', Option.none) →
    Fits w n o p ∧ ∀ r v, Gets w n o p r v → set (h r) v = (h' r, Option.none)
  | 0, r', p, h, h', _, _, _, he => ⟨trivial, fun _ _ hg => setObj_ok he hg⟩
  | _ + 1, .inl r', p, h, h', _, _, _, he => ⟨trivial, fun _ _ hg => setObj_ok he hg⟩
  | n + 1, .inr t, p, h, h', hk, hp, hn, he => by
    rw [setAll_model] at he
    split at he
    · rename_i hs
      exact ⟨.inl (skips_iff.1 hs), fun r v hg => absurd (skips_iff.1 hs) hg.1⟩
    rename_i hs
    split at he
    · cases he
    rename_i z hz
    have he' : setEach (setAll w set n) (flat z) h = (h', Option.none) := by
      cases h1 : setEach (setAll w set n) (flat z) h with
      | mk h₁ e =>
        rw [h1] at he
        cases e with
        | none => exact he
        | some e => cases he
    have hnode : ∀ x ∈ flat z, ∃ q, At t q x.1 ∧ Sub p q x.2 := fun x hx => (zipPre_mem hk.1 hp hz).1 hx
    have key := setEach_ok (set := set) (setAll_frame n) (G := Gets w n) (fun o p r v => gets_mem n o) (flat z) h h' (refs_flat hz hn) (fun x hx h h' hxx => by
      obtain ⟨q, hq, hu⟩ := hnode x hx
      exact (setAll_ok n x.1 x.2 h h' (hk.2 q _ hq) (keysOk_sub hp hu) (refs_nodup hn (mem_flat_at.2 ⟨q, hq⟩)) hxx).2) he'
    constructor
    · refine .inr ⟨(zipPre_prefix hk.1 hp).1 ⟨z, hz⟩, fun q o u hq hu => ?_⟩
      obtain ⟨⟨h₁, h₂, h12⟩, _⟩ := key (o, u) ((zipPre_mem hk.1 hp hz).2 ⟨q, hq, hu⟩)
      exact (setAll_ok n o u h₁ h₂ (hk.2 q _ hq) (keysOk_sub hp hu) (refs_nodup hn (mem_flat_at.2 ⟨q, hq⟩)) h12).1
    · rintro r v ⟨_, q, o, u, hq, hu, hg⟩
      exact (key (o, u) ((zipPre_mem hk.1 hp hz).2 ⟨q, hq, hu⟩)).2 r v hg

/-- When a call succeeds. -/
theorem setAll_total : ∀ (n : Nat) (o : Node n) (p : Tree A) (h : Nat → X), KeysAll n o → KeysOk p → (refs n o).Nodup → Fits w n o p →
    (∀ r v, Gets w n o p r v → (set (h r) v).2 = Option.none) → (setAll w set n o p h).2 = Option.none
  | 0, r', p, h, _, _, _, _, hg => hg r' p ⟨rfl, rfl⟩
  | _ + 1, .inl r', p, h, _, _, _, _, hg => hg r' p ⟨rfl, rfl⟩
  | n + 1, .inr t, p, h, hk, hp, hn, hf, hg => by
    rw [setAll_model]
    split
    · rfl
    rename_i hs
    have hs' : ¬(w = .state ∧ p = .none) := fun e => hs (skips_iff.2 e)
    rcases hf with hf | ⟨hpre, hf⟩
    · exact absurd hf hs'
    obtain ⟨z, hz⟩ := (zipPre_prefix hk.1 hp).2 hpre
    rw [hz]
    simp only
    have := setEach_total (set := set) (setAll_frame (w := w) (set := set) n) (G := Gets w n) (fun o p r v => gets_mem n o) (flat z) h (refs_flat hz hn) (fun x hx h hxx => by
      obtain ⟨q, hq, hu⟩ := (zipPre_mem hk.1 hp hz).1 (show (x.1, x.2) ∈ flat z from hx)
      exact setAll_total n x.1 x.2 h (hk.2 q _ hq) (keysOk_sub hp hu) (refs_nodup hn (mem_flat_at.2 ⟨q, hq⟩)) (hf q _ _ hq hu) hxx) (fun x hx r v hgv => by
      obtain ⟨q, hq, hu⟩ := (zipPre_mem hk.1 hp hz).1 (show (x.1, x.2) ∈ flat z from hx)
      exact hg r v ⟨hs', q, x.1, x.2, hq, hu, hgv⟩)
    cases h1 : setEach (setAll w set n) (flat z) h with
    | mk h₁ e =>
      rw [h1] at this
      simp only at this
      subst this
      rfl

mutual
theorem bind_congr {α β : Type} {f g : α → Tree β} : ∀ t : Tree α, (∀ a ∈ flat t, f a = g a) → Tree.bind f t = Tree.bind g t
  | .leaf a, h => h a List.mem_cons_self
  | .none, _ => rfl
  | .list ts, h => by rw [Tree.bind, Tree.bind, bindL_congr ts h]
  | .tuple ts, h => by rw [Tree.bind, Tree.bind, bindL_congr ts h]
  | .dict ts, h => by rw [Tree.bind, Tree.bind, bindD_congr ts h]
theorem bindL_congr {α β : Type} {f g : α → Tree β} : ∀ ts : List (Tree α), (∀ a ∈ flatL ts, f a = g a) → bindL f ts = bindL g ts
  | [], _ => rfl
  | t :: ts, h => by rw [bindL, bindL, bind_congr t fun a ha => h a (List.mem_append_left _ ha), bindL_congr ts fun a ha => h a (List.mem_append_right _ ha)]
theorem bindD_congr {α β : Type} {f g : α → Tree β} : ∀ ts : List (Str × Tree α), (∀ a ∈ flatD ts, f a = g a) → bindD f ts = bindD g ts
  | [], _ => rfl
  | (k, t) :: ts, h => by rw [bindD, bindD, bind_congr t fun a ha => h a (List.mem_append_left _ ha), bindD_congr ts fun a ha => h a (List.mem_append_right _ ha)]
end

end Params
end Verif
