import Verif.Model.Forward
import Verif.Spec.Forward

namespace Verif.Tree
open ForwardSpec

variable {α β γ : Type}

/-! ### Entries of a tree -/

def pushStep (s : Step) (l : List (List Step × α)) : List (List Step × α) := l.map fun e => (s :: e.1, e.2)

mutual
def entries : Tree α → List (List Step × α)
  | .leaf a => [([], a)]
  | .none => []
  | .list ts => entriesL 0 ts
  | .tuple ts => entriesL 0 ts
  | .dict kvs => entriesD kvs
def entriesL : Nat → List (Tree α) → List (List Step × α)
  | _, [] => []
  | i, t :: ts => pushStep (.idx i) (entries t) ++ entriesL (i + 1) ts
def entriesD : List (Str × Tree α) → List (List Step × α)
  | [] => []
  | (k, t) :: ts => pushStep (.key k) (entries t) ++ entriesD ts
end

theorem pushStep_snd (s : Step) (l : List (List Step × α)) : (pushStep s l).map Prod.snd = l.map Prod.snd := by
  simp [pushStep, Function.comp_def]

theorem pushStep_fst (s : Step) (l : List (List Step × α)) : (pushStep s l).map Prod.fst = (l.map Prod.fst).map (s :: ·) := by
  simp [pushStep, Function.comp_def]

theorem mem_pushStep {s : Step} {l : List (List Step × α)} {p : List Step} {a : α} :
    (p, a) ∈ pushStep s l ↔ ∃ q, p = s :: q ∧ (q, a) ∈ l := by
  simp only [pushStep, List.mem_map, Prod.mk.injEq, Prod.exists]
  constructor
  · rintro ⟨q, b, h, rfl, rfl⟩; exact ⟨q, rfl, h⟩
  · rintro ⟨q, rfl, h⟩; exact ⟨q, a, h, rfl, rfl⟩

mutual
theorem entries_snd : ∀ t : Tree α, (entries t).map Prod.snd = flat t
  | .leaf a => rfl
  | .none => rfl
  | .list ts => entriesL_snd 0 ts
  | .tuple ts => entriesL_snd 0 ts
  | .dict kvs => entriesD_snd kvs
theorem entriesL_snd : ∀ (i : Nat) (ts : List (Tree α)), (entriesL i ts).map Prod.snd = flatL ts
  | _, [] => rfl
  | i, t :: ts => by
    simp only [entriesL, flatL, List.map_append, pushStep_snd, entries_snd t, entriesL_snd (i + 1) ts]
theorem entriesD_snd : ∀ (ts : List (Str × Tree α)), (entriesD ts).map Prod.snd = flatD ts
  | [] => rfl
  | (k, t) :: ts => by
    simp only [entriesD, flatD, List.map_append, pushStep_snd, entries_snd t, entriesD_snd ts]
end

mutual
theorem mem_entries : ∀ (t : Tree α) (p : List Step) (a : α), (p, a) ∈ entries t ↔ At t p a
  | .leaf b, p, a => by
    simp only [entries, List.mem_singleton, Prod.mk.injEq]
    constructor
    · rintro ⟨rfl, rfl⟩; exact .leaf _
    · intro h; cases h; exact ⟨rfl, rfl⟩
  | .none, p, a => by
    simp only [entries, List.not_mem_nil, false_iff]
    intro h; cases h
  | .list ts, p, a => by
    rw [entries, mem_entriesL 0 ts p a]
    constructor
    · rintro ⟨j, t, q, rfl, hj, ha⟩; rw [Nat.zero_add]; exact .list hj ha
    · intro h; cases h with
      | list hj ha => exact ⟨_, _, _, by rw [Nat.zero_add], hj, ha⟩
  | .tuple ts, p, a => by
    rw [entries, mem_entriesL 0 ts p a]
    constructor
    · rintro ⟨j, t, q, rfl, hj, ha⟩; rw [Nat.zero_add]; exact .tuple hj ha
    · intro h; cases h with
      | tuple hj ha => exact ⟨_, _, _, by rw [Nat.zero_add], hj, ha⟩
  | .dict kvs, p, a => by
    rw [entries, mem_entriesD kvs p a]
    constructor
    · rintro ⟨k, t, q, rfl, hj, ha⟩; exact .dict hj ha
    · intro h; cases h with
      | dict hj ha => exact ⟨_, _, _, rfl, hj, ha⟩
theorem mem_entriesL : ∀ (i : Nat) (ts : List (Tree α)) (p : List Step) (a : α),
    (p, a) ∈ entriesL i ts ↔ ∃ (j : Nat) (t : Tree α) (q : List Step), p = .idx (i + j) :: q ∧ ts[j]? = some t ∧ At t q a
  | _, [], p, a => by simp [entriesL]
  | i, t :: ts, p, a => by
    rw [entriesL, List.mem_append, mem_pushStep, mem_entriesL (i + 1) ts p a]
    constructor
    · rintro (⟨q, rfl, h⟩ | ⟨j, u, q, rfl, hj, ha⟩)
      · exact ⟨0, t, q, rfl, rfl, (mem_entries t q a).1 h⟩
      · exact ⟨j + 1, u, q, by rw [Nat.add_assoc, Nat.add_comm 1 j], by simpa using hj, ha⟩
    · rintro ⟨j, u, q, rfl, hj, ha⟩
      cases j with
      | zero =>
        simp only [List.getElem?_cons_zero, Option.some.injEq] at hj
        subst hj
        exact .inl ⟨q, rfl, (mem_entries t q a).2 ha⟩
      | succ j => exact .inr ⟨j, u, q, by rw [Nat.add_assoc, Nat.add_comm 1 j], by simpa using hj, ha⟩
theorem mem_entriesD : ∀ (ts : List (Str × Tree α)) (p : List Step) (a : α),
    (p, a) ∈ entriesD ts ↔ ∃ (k : Str) (t : Tree α) (q : List Step), p = .key k :: q ∧ (k, t) ∈ ts ∧ At t q a
  | [], p, a => by simp [entriesD]
  | (k, t) :: ts, p, a => by
    rw [entriesD, List.mem_append, mem_pushStep, mem_entriesD ts p a]
    constructor
    · rintro (⟨q, rfl, h⟩ | ⟨j, u, q, rfl, hj, ha⟩)
      · exact ⟨k, t, q, rfl, List.mem_cons_self, (mem_entries t q a).1 h⟩
      · exact ⟨j, u, q, rfl, List.mem_cons_of_mem _ hj, ha⟩
    · rintro ⟨j, u, q, rfl, hj, ha⟩
      rcases List.mem_cons.1 hj with e | hj
      · cases e
        exact .inl ⟨q, rfl, (mem_entries t q a).2 ha⟩
      · exact .inr ⟨j, u, q, rfl, hj, ha⟩
end

/-! ### Sorting -/

theorem insKv_perm (k : Str) (v : γ) (l : List (Str × γ)) : (insKv k v l).Perm ((k, v) :: l) := by
  induction l with
  | nil => exact .refl _
  | cons p r ih =>
    obtain ⟨k', v'⟩ := p
    simp only [insKv]
    split
    · exact (ih.cons _).trans (.swap _ _ _)
    · exact .refl _

theorem sortKvs_perm (l : List (Str × γ)) : (sortKvs l).Perm l := by
  unfold sortKvs
  induction l with
  | nil => exact .refl _
  | cons p r ih => exact (insKv_perm p.1 p.2 _).trans (ih.cons _)

theorem insKv_sorted (k : Str) (v : γ) (l : List (Str × γ)) (h : l.Pairwise fun a b => a.1 < b.1)
    (hk : k ∉ l.map Prod.fst) : (insKv k v l).Pairwise fun a b => a.1 < b.1 := by
  induction l with
  | nil => simp [insKv]
  | cons p r ih =>
    obtain ⟨k', v'⟩ := p
    rw [List.pairwise_cons] at h
    simp only [List.map_cons, List.mem_cons, not_or] at hk
    simp only [insKv]
    split
    · next hlt =>
      refine List.pairwise_cons.2 ⟨fun b hb => ?_, ih h.2 hk.2⟩
      rcases List.mem_cons.1 ((insKv_perm k v r).subset hb) with rfl | hb
      · exact hlt
      · exact h.1 b hb
    · next hlt =>
      have hkk : k < k' := by
        rcases List.le_iff_lt_or_eq.1 (List.not_lt.1 hlt) with h | h
        · exact h
        · exact absurd h hk.1
      refine List.pairwise_cons.2 ⟨fun b hb => ?_, List.pairwise_cons.2 h⟩
      rcases List.mem_cons.1 hb with rfl | hb
      · exact hkk
      · exact List.lt_trans hkk (h.1 b hb)

theorem sortKvs_sorted (l : List (Str × γ)) (h : (l.map Prod.fst).Nodup) : (sortKvs l).Pairwise fun a b => a.1 < b.1 := by
  induction l with
  | nil => simp [sortKvs]
  | cons p r ih =>
    rw [List.map_cons, List.nodup_cons] at h
    exact insKv_sorted p.1 p.2 _ (ih h.2) (fun hm => h.1 (((sortKvs_perm r).map Prod.fst).subset hm))

theorem normD_fst (kvs : List (Str × Tree α)) : (normD kvs).map Prod.fst = kvs.map Prod.fst := by
  induction kvs with
  | nil => rfl
  | cons p r ih => obtain ⟨k, t⟩ := p; simp [normD, ih]

theorem normL_eq (ts : List (Tree α)) : normL ts = ts.map norm := by
  induction ts with
  | nil => rfl
  | cons t r ih => simp [normL, ih]

theorem normD_eq (kvs : List (Str × Tree α)) : normD kvs = kvs.map fun p => (p.1, norm p.2) := by
  induction kvs with
  | nil => rfl
  | cons p r ih => obtain ⟨k, t⟩ := p; simp [normD, ih]

theorem at_norm {p : List Step} {a : α} : ∀ {t : Tree α}, At (norm t) p a ↔ At t p a := by
  induction p with
  | nil => intro t; cases t <;> simp only [norm] <;> constructor <;> intro h <;> cases h <;> exact .leaf _
  | cons s p ih =>
    intro t
    cases t with
    | leaf b => simp only [norm]
    | none => simp only [norm]
    | list ts =>
      rw [norm, normL_eq]
      constructor
      · intro h; cases h with
        | list hi ha =>
          rw [List.getElem?_map, Option.map_eq_some_iff] at hi
          obtain ⟨t', ht, rfl⟩ := hi
          exact .list ht (ih.1 ha)
      · intro h; cases h with
        | list hi ha => exact .list (by rw [List.getElem?_map, hi]; rfl) (ih.2 ha)
    | tuple ts =>
      rw [norm, normL_eq]
      constructor
      · intro h; cases h with
        | tuple hi ha =>
          rw [List.getElem?_map, Option.map_eq_some_iff] at hi
          obtain ⟨t', ht, rfl⟩ := hi
          exact .tuple ht (ih.1 ha)
      · intro h; cases h with
        | tuple hi ha => exact .tuple (by rw [List.getElem?_map, hi]; rfl) (ih.2 ha)
    | dict kvs =>
      rw [norm]
      constructor
      · intro h; cases h with
        | dict hi ha =>
          have := (sortKvs_perm _).subset hi
          rw [normD_eq, List.mem_map] at this
          obtain ⟨⟨k, t'⟩, ht, e⟩ := this
          cases e
          exact .dict ht (ih.1 ha)
      · intro h; cases h with
        | dict hi ha =>
          refine .dict ((sortKvs_perm _).symm.subset ?_) (ih.2 ha)
          rw [normD_eq, List.mem_map]
          exact ⟨_, hi, rfl⟩

/-! ### Order of the entries -/

mutual
/-- All dictionaries are strictly sorted. -/
def Sorted : Tree α → Prop
  | .leaf _ => True
  | .none => True
  | .list ts => SortedL ts
  | .tuple ts => SortedL ts
  | .dict kvs => (kvs.Pairwise fun a b => a.1 < b.1) ∧ SortedD kvs
def SortedL : List (Tree α) → Prop
  | [] => True
  | t :: ts => Sorted t ∧ SortedL ts
def SortedD : List (Str × Tree α) → Prop
  | [] => True
  | (_, t) :: ts => Sorted t ∧ SortedD ts
end

theorem sortedD_iff (kvs : List (Str × Tree α)) : SortedD kvs ↔ ∀ p ∈ kvs, Sorted p.2 := by
  induction kvs with
  | nil => simp [SortedD]
  | cons p r ih => obtain ⟨k, t⟩ := p; simp [SortedD, ih]

mutual
theorem sorted_norm : ∀ t : Tree α, KeysOk t → Sorted (norm t)
  | .leaf _, _ => trivial
  | .none, _ => trivial
  | .list ts, h => sortedL_norm ts h
  | .tuple ts, h => sortedL_norm ts h
  | .dict kvs, h => by
    refine ⟨sortKvs_sorted _ (by rw [normD_fst]; exact h.1), ?_⟩
    have := sortedD_norm kvs h.2
    rw [sortedD_iff] at this ⊢
    exact fun p hp => this p ((sortKvs_perm _).subset hp)
theorem sortedL_norm : ∀ ts : List (Tree α), KeysOkL ts → SortedL (normL ts)
  | [], _ => trivial
  | t :: ts, h => ⟨sorted_norm t h.1, sortedL_norm ts h.2⟩
theorem sortedD_norm : ∀ ts : List (Str × Tree α), KeysOkD ts → SortedD (normD ts)
  | [], _ => trivial
  | (_, t) :: ts, h => ⟨sorted_norm t h.1, sortedD_norm ts h.2⟩
end

theorem pushStep_pairwise {s : Step} {l : List (List Step × α)} (h : l.Pairwise fun a b => Precedes a.1 b.1) :
    (pushStep s l).Pairwise fun a b => Precedes a.1 b.1 := by
  unfold pushStep
  rw [List.pairwise_map]
  exact h.imp fun h => .tail h

mutual
theorem entries_sorted : ∀ t : Tree α, Sorted t → (entries t).Pairwise fun a b => Precedes a.1 b.1
  | .leaf _, _ => by simp [entries]
  | .none, _ => by simp [entries]
  | .list ts, h => entriesL_sorted 0 ts h
  | .tuple ts, h => entriesL_sorted 0 ts h
  | .dict kvs, h => entriesD_sorted kvs h.1 h.2
theorem entriesL_sorted : ∀ (i : Nat) (ts : List (Tree α)), SortedL ts →
    (entriesL i ts).Pairwise fun a b => Precedes a.1 b.1
  | _, [], _ => by simp [entriesL]
  | i, t :: ts, h => by
    rw [entriesL, List.pairwise_append]
    refine ⟨pushStep_pairwise (entries_sorted t h.1), entriesL_sorted (i + 1) ts h.2, ?_⟩
    rintro ⟨p, a⟩ ha ⟨q, b⟩ hb
    obtain ⟨p', rfl, -⟩ := mem_pushStep.1 ha
    obtain ⟨j, u, q', rfl, -, -⟩ := (mem_entriesL _ _ _ _).1 hb
    exact .idx (by omega)
theorem entriesD_sorted : ∀ (ts : List (Str × Tree α)), (ts.Pairwise fun a b => a.1 < b.1) → SortedD ts →
    (entriesD ts).Pairwise fun a b => Precedes a.1 b.1
  | [], _, _ => by simp [entriesD]
  | (k, t) :: ts, hp, h => by
    rw [List.pairwise_cons] at hp
    rw [entriesD, List.pairwise_append]
    refine ⟨pushStep_pairwise (entries_sorted t h.1), entriesD_sorted ts hp.2 h.2, ?_⟩
    rintro ⟨p, a⟩ ha ⟨q, b⟩ hb
    obtain ⟨p', rfl, -⟩ := mem_pushStep.1 ha
    obtain ⟨k', u, q', rfl, hm, -⟩ := (mem_entriesD _ _ _).1 hb
    exact .key (hp.1 _ hm)
end

/-! ### Same structure, unflatten -/

mutual
theorem sameStruct_entries : ∀ (t : Tree α) (u : Tree β), sameStruct t u = true →
    (entries t).map Prod.fst = (entries u).map Prod.fst
  | .leaf _, .leaf _, _ => rfl
  | .none, .none, _ => rfl
  | .list ts, .list us, h => sameStructL_entries 0 ts us h
  | .tuple ts, .tuple us, h => sameStructL_entries 0 ts us h
  | .dict ts, .dict us, h => sameStructD_entries ts us h
  | .leaf _, .none, h | .leaf _, .list _, h | .leaf _, .tuple _, h | .leaf _, .dict _, h
  | .none, .leaf _, h | .none, .list _, h | .none, .tuple _, h | .none, .dict _, h
  | .list _, .leaf _, h | .list _, .none, h | .list _, .tuple _, h | .list _, .dict _, h
  | .tuple _, .leaf _, h | .tuple _, .none, h | .tuple _, .list _, h | .tuple _, .dict _, h
  | .dict _, .leaf _, h | .dict _, .none, h | .dict _, .list _, h | .dict _, .tuple _, h => by simp [sameStruct] at h
theorem sameStructL_entries : ∀ (i : Nat) (ts : List (Tree α)) (us : List (Tree β)), sameStructL ts us = true →
    (entriesL i ts).map Prod.fst = (entriesL i us).map Prod.fst
  | _, [], [], _ => rfl
  | i, t :: ts, u :: us, h => by
    simp only [sameStructL, Bool.and_eq_true] at h
    simp only [entriesL, List.map_append, pushStep_fst, sameStruct_entries t u h.1, sameStructL_entries (i + 1) ts us h.2]
  | _, [], _ :: _, h => by simp [sameStructL] at h
  | _, _ :: _, [], h => by simp [sameStructL] at h
theorem sameStructD_entries : ∀ (ts : List (Str × Tree α)) (us : List (Str × Tree β)), sameStructD ts us = true →
    (entriesD ts).map Prod.fst = (entriesD us).map Prod.fst
  | [], [], _ => rfl
  | (k, t) :: ts, (k', u) :: us, h => by
    simp only [sameStructD, Bool.and_eq_true, decide_eq_true_eq] at h
    obtain ⟨rfl, h1, h2⟩ := h
    simp only [entriesD, List.map_append, pushStep_fst, sameStruct_entries t u h1, sameStructD_entries ts us h2]
  | [], _ :: _, h => by simp [sameStructD] at h
  | _ :: _, [], h => by simp [sameStructD] at h
end

mutual
theorem unflat_spec : ∀ (t : Tree α) (xs : List β) (r : Tree β) (ys : List β), unflat t xs = some (r, ys) →
    xs = flat r ++ ys ∧ sameStruct t r = true
  | .leaf _, [], r, ys, h => by simp [unflat] at h
  | .leaf _, x :: xs, r, ys, h => by
    simp only [unflat, Option.some.injEq, Prod.mk.injEq] at h
    obtain ⟨rfl, rfl⟩ := h; simp [flat, sameStruct]
  | .none, xs, r, ys, h => by
    simp only [unflat, Option.some.injEq, Prod.mk.injEq] at h
    obtain ⟨rfl, rfl⟩ := h; simp [flat, sameStruct]
  | .list ts, xs, r, ys, h => by
    simp only [unflat] at h
    split at h
    · next r' ys' hr =>
      simp only [Option.some.injEq, Prod.mk.injEq] at h
      obtain ⟨rfl, rfl⟩ := h
      exact unflatL_spec ts xs _ _ hr
    · simp at h
  | .tuple ts, xs, r, ys, h => by
    simp only [unflat] at h
    split at h
    · next r' ys' hr =>
      simp only [Option.some.injEq, Prod.mk.injEq] at h
      obtain ⟨rfl, rfl⟩ := h
      exact unflatL_spec ts xs _ _ hr
    · simp at h
  | .dict kvs, xs, r, ys, h => by
    simp only [unflat] at h
    split at h
    · next r' ys' hr =>
      simp only [Option.some.injEq, Prod.mk.injEq] at h
      obtain ⟨rfl, rfl⟩ := h
      exact unflatD_spec kvs xs _ _ hr
    · simp at h
theorem unflatL_spec : ∀ (ts : List (Tree α)) (xs : List β) (r : List (Tree β)) (ys : List β),
    unflatL ts xs = some (r, ys) → xs = flatL r ++ ys ∧ sameStructL ts r = true
  | [], xs, r, ys, h => by
    simp only [unflatL, Option.some.injEq, Prod.mk.injEq] at h
    obtain ⟨rfl, rfl⟩ := h; simp [flatL, sameStructL]
  | t :: ts, xs, r, ys, h => by
    simp only [unflatL] at h
    split at h
    · simp at h
    · next u ys' hu =>
      split at h
      · simp at h
      · next us zs hus =>
        simp only [Option.some.injEq, Prod.mk.injEq] at h
        obtain ⟨rfl, rfl⟩ := h
        obtain ⟨h1, h2⟩ := unflat_spec t xs u ys' hu
        obtain ⟨h3, h4⟩ := unflatL_spec ts ys' us zs hus
        simp [flatL, sameStructL, h2, h4, h1, h3]
theorem unflatD_spec : ∀ (ts : List (Str × Tree α)) (xs : List β) (r : List (Str × Tree β)) (ys : List β),
    unflatD ts xs = some (r, ys) → xs = flatD r ++ ys ∧ sameStructD ts r = true
  | [], xs, r, ys, h => by
    simp only [unflatD, Option.some.injEq, Prod.mk.injEq] at h
    obtain ⟨rfl, rfl⟩ := h; simp [flatD, sameStructD]
  | (k, t) :: ts, xs, r, ys, h => by
    simp only [unflatD] at h
    split at h
    · simp at h
    · next u ys' hu =>
      split at h
      · simp at h
      · next us zs hus =>
        simp only [Option.some.injEq, Prod.mk.injEq] at h
        obtain ⟨rfl, rfl⟩ := h
        obtain ⟨h1, h2⟩ := unflat_spec t xs u ys' hu
        obtain ⟨h3, h4⟩ := unflatD_spec ts ys' us zs hus
        simp [flatD, sameStructD, h2, h4, h1, h3]
end

mutual
theorem unflat_total : ∀ (t : Tree α) (xs ys : List β), xs.length = (flat t).length →
    ∃ r, unflat t (xs ++ ys) = some (r, ys)
  | .leaf _, xs, ys, h => by
    obtain ⟨x, rfl⟩ := List.length_eq_one_iff.1 h
    exact ⟨_, rfl⟩
  | .none, xs, ys, h => by
    obtain rfl := List.length_eq_zero_iff.1 h
    exact ⟨_, rfl⟩
  | .list ts, xs, ys, h => by
    obtain ⟨r, hr⟩ := unflatL_total ts xs ys h
    exact ⟨.list r, by simp [unflat, hr]⟩
  | .tuple ts, xs, ys, h => by
    obtain ⟨r, hr⟩ := unflatL_total ts xs ys h
    exact ⟨.tuple r, by simp [unflat, hr]⟩
  | .dict ts, xs, ys, h => by
    obtain ⟨r, hr⟩ := unflatD_total ts xs ys h
    exact ⟨.dict r, by simp [unflat, hr]⟩
theorem unflatL_total : ∀ (ts : List (Tree α)) (xs ys : List β), xs.length = (flatL ts).length →
    ∃ r, unflatL ts (xs ++ ys) = some (r, ys)
  | [], xs, ys, h => by
    obtain rfl := List.length_eq_zero_iff.1 h
    exact ⟨_, rfl⟩
  | t :: ts, xs, ys, h => by
    simp only [flatL, List.length_append] at h
    obtain ⟨r, hr⟩ := unflat_total t (xs.take (flat t).length) (xs.drop (flat t).length ++ ys)
      (by rw [List.length_take]; omega)
    obtain ⟨rs, hrs⟩ := unflatL_total ts (xs.drop (flat t).length) ys (by rw [List.length_drop]; omega)
    rw [← List.append_assoc, List.take_append_drop] at hr
    exact ⟨r :: rs, by simp [unflatL, hr, hrs]⟩
theorem unflatD_total : ∀ (ts : List (Str × Tree α)) (xs ys : List β), xs.length = (flatD ts).length →
    ∃ r, unflatD ts (xs ++ ys) = some (r, ys)
  | [], xs, ys, h => by
    obtain rfl := List.length_eq_zero_iff.1 h
    exact ⟨_, rfl⟩
  | (k, t) :: ts, xs, ys, h => by
    simp only [flatD, List.length_append] at h
    obtain ⟨r, hr⟩ := unflat_total t (xs.take (flat t).length) (xs.drop (flat t).length ++ ys)
      (by rw [List.length_take]; omega)
    obtain ⟨rs, hrs⟩ := unflatD_total ts (xs.drop (flat t).length) ys (by rw [List.length_drop]; omega)
    rw [← List.append_assoc, List.take_append_drop] at hr
    exact ⟨(k, r) :: rs, by simp [unflatD, hr, hrs]⟩
end

/-- Reading the entries of a normalised tree. -/
theorem column_of_entries {M P S : Type} (rows : List (Row M P S)) (f : Row M P S → α) (t : Tree α)
    (h : entries (norm t) = rows.map fun r => (r.place, f r)) : Column rows f t := by
  intro p a
  rw [← at_norm, ← mem_entries, h, List.mem_map]
  simp only [Prod.mk.injEq]

/-- Zipping paths with values. -/
theorem entries_of {t : Tree α} {ps : List (List Step)} {xs : List α} (h1 : (entries t).map Prod.fst = ps) (h2 : flat t = xs) :
    entries t = ps.zip xs := by
  rw [← entries_snd] at h2
  subst h1 h2
  rw [List.zip_map']
  simp

end Verif.Tree

namespace Verif.Forward
open ForwardSpec Tree

variable {M P S K A : Type}

/-- Rows from columns. -/
def mkRows : List (List Step) → List M → List P → List S → List S → List (Row M P S)
  | q :: qs, m :: ms, p :: ps, s :: ss, s' :: ss' => ⟨q, m, p, s, s'⟩ :: mkRows qs ms ps ss ss'
  | _, _, _, _, _ => []

theorem mkRows_place : ∀ {qs : List (List Step)} {ms : List M} {ps : List P} {ss ss' : List S}, ms.length = qs.length →
    ps.length = qs.length → ss.length = qs.length → ss'.length = qs.length → (mkRows qs ms ps ss ss').map Row.place = qs
  | [], _, _, _, _, _, _, _, _ => by simp [mkRows]
  | q :: qs, m :: ms, p :: ps, s :: ss, s' :: ss', h1, h2, h3, h4 => by
    simp only [List.length_cons, Nat.add_right_cancel_iff] at h1 h2 h3 h4
    simp [mkRows, mkRows_place h1 h2 h3 h4]

theorem mkRows_mod : ∀ {qs : List (List Step)} {ms : List M} {ps : List P} {ss ss' : List S}, ms.length = qs.length →
    ps.length = qs.length → ss.length = qs.length → ss'.length = qs.length →
    (mkRows qs ms ps ss ss').map (fun r => (r.place, r.mod)) = qs.zip ms
  | [], _, _, _, _, _, _, _, _ => by simp [mkRows]
  | q :: qs, m :: ms, p :: ps, s :: ss, s' :: ss', h1, h2, h3, h4 => by
    simp only [List.length_cons, Nat.add_right_cancel_iff] at h1 h2 h3 h4
    simp [mkRows, mkRows_mod h1 h2 h3 h4]

theorem mkRows_params : ∀ {qs : List (List Step)} {ms : List M} {ps : List P} {ss ss' : List S}, ms.length = qs.length →
    ps.length = qs.length → ss.length = qs.length → ss'.length = qs.length →
    (mkRows qs ms ps ss ss').map (fun r => (r.place, r.params)) = qs.zip ps
  | [], _, _, _, _, _, _, _, _ => by simp [mkRows]
  | q :: qs, m :: ms, p :: ps, s :: ss, s' :: ss', h1, h2, h3, h4 => by
    simp only [List.length_cons, Nat.add_right_cancel_iff] at h1 h2 h3 h4
    simp [mkRows, mkRows_params h1 h2 h3 h4]

theorem mkRows_state : ∀ {qs : List (List Step)} {ms : List M} {ps : List P} {ss ss' : List S}, ms.length = qs.length →
    ps.length = qs.length → ss.length = qs.length → ss'.length = qs.length →
    (mkRows qs ms ps ss ss').map (fun r => (r.place, r.state)) = qs.zip ss
  | [], _, _, _, _, _, _, _, _ => by simp [mkRows]
  | q :: qs, m :: ms, p :: ps, s :: ss, s' :: ss', h1, h2, h3, h4 => by
    simp only [List.length_cons, Nat.add_right_cancel_iff] at h1 h2 h3 h4
    simp [mkRows, mkRows_state h1 h2 h3 h4]

theorem mkRows_state' : ∀ {qs : List (List Step)} {ms : List M} {ps : List P} {ss ss' : List S}, ms.length = qs.length →
    ps.length = qs.length → ss.length = qs.length → ss'.length = qs.length →
    (mkRows qs ms ps ss ss').map (fun r => (r.place, r.state')) = qs.zip ss'
  | [], _, _, _, _, _, _, _, _ => by simp [mkRows]
  | q :: qs, m :: ms, p :: ps, s :: ss, s' :: ss', h1, h2, h3, h4 => by
    simp only [List.length_cons, Nat.add_right_cancel_iff] at h1 h2 h3 h4
    simp [mkRows, mkRows_state' h1 h2 h3 h4]

/-- The loop against `Passes`. -/
theorem seqLoop_ok (sig : Sig M P S K A) (training : Bool) : ∀ {qs : List (List Step)} {ms : List M} {ps : List P}
    {ss : List S} {ks : List K} {x : Tree A} {acc : List S} {y : Tree A} {acc' : List S}, ms.length = qs.length →
    ps.length = qs.length → ss.length = qs.length → ks.length = qs.length →
    seqLoop sig training (stages ms ps ss ks) x acc = .ok (y, acc') →
    ∃ ss', acc' = acc ++ ss' ∧ ss'.length = qs.length ∧
      Passes (fun m p x s k => sig.call m p x training s k) (mkRows qs ms ps ss ss') ks x y
  | [], [], [], [], [], x, acc, y, acc', _, _, _, _, h => by
    simp only [stages, seqLoop, Except.ok.injEq, Prod.mk.injEq] at h
    obtain ⟨rfl, rfl⟩ := h
    exact ⟨[], by simp, rfl, .nil _⟩
  | q :: qs, m :: ms, p :: ps, s :: ss, k :: ks, x, acc, y, acc', h1, h2, h3, h4, h => by
    simp only [List.length_cons, Nat.add_right_cancel_iff] at h1 h2 h3 h4
    simp only [stages, seqLoop] at h
    split at h
    · simp at h
    · next y1 s1 hc =>
      obtain ⟨ss', e, hl, hp⟩ := seqLoop_ok sig training h1 h2 h3 h4 h
      exact ⟨s1 :: ss', by rw [e, List.append_assoc]; rfl, by simp [hl], .cons hc hp⟩

/-- Conversely, the loop follows every chain of successful calls. -/
theorem seqLoop_passes (sig : Sig M P S K A) (training : Bool) {rows : List (Row M P S)} {ks : List K} {x y : Tree A}
    (h : Passes (fun m p x s k => sig.call m p x training s k) rows ks x y) (acc : List S) :
    seqLoop sig training (stages (rows.map Row.mod) (rows.map Row.params) (rows.map Row.state) ks) x acc
      = .ok (y, acc ++ rows.map Row.state') := by
  induction h generalizing acc with
  | nil x => simp [stages, seqLoop]
  | cons hc _ ih =>
    simp only [List.map_cons, stages, seqLoop]
    rw [hc]
    simp [ih]

theorem flat_length {α : Type} (t : Tree α) : (flat t).length = (entries t).length := by
  rw [← entries_snd, List.length_map]

theorem seqCall_ok {sig : Sig M P S K A} (hk : ∀ k n, (sig.splitN k n).length = n) {modules : Tree M} {params : Tree P}
    {data out : Tree A} {training : Bool} {state st' : Tree S} {rng : K} (hm : KeysOk modules)
    (h : seqCall sig modules params data training state rng = .ok (out, st')) :
    ∃ rows : List (Row M P S), (rows.Pairwise fun a b => Precedes a.place b.place) ∧
      Column rows Row.mod modules ∧ Column rows Row.params params ∧ Column rows Row.state state ∧
      Column rows Row.state' st' ∧
      Passes (fun m p x s k => sig.call m p x training s k) rows (sig.splitN rng rows.length) data out := by
  unfold seqCall at h
  split at h
  · simp at h
  · next hs =>
    simp only [Bool.or_eq_true, Bool.not_eq_eq_eq_not, Bool.not_true, not_or, Bool.not_eq_false] at hs
    simp only at h
    split at h
    · simp at h
    · next o ss hl =>
      split at h
      · simp at h
      · next st hu =>
        simp only [Except.ok.injEq, Prod.mk.injEq] at h
        obtain ⟨rfl, rfl⟩ := h
        have hu' : ∃ r, unflat modules.norm ss = some (r, []) ∧ r = st := by
          unfold unflatten at hu
          split at hu
          · next r hr => simp only [Except.ok.injEq] at hu; exact ⟨r, hr, hu⟩
          · simp at hu
        obtain ⟨_, hu', rfl⟩ := hu'
        obtain ⟨e, hss⟩ := unflat_spec _ _ _ _ hu'
        simp only [List.append_nil] at e
        have ep := sameStruct_entries _ _ hs.1
        have es := sameStruct_entries _ _ hs.2
        have e' := sameStruct_entries _ _ hss
        obtain ⟨qs, hqs⟩ : ∃ qs, qs = (entries modules.norm).map Prod.fst := ⟨_, rfl⟩
        have l1 : modules.jaxLeaves.length = qs.length := by rw [hqs, List.length_map]; exact flat_length _
        have l2 : params.jaxLeaves.length = qs.length := by
          rw [hqs, ep, List.length_map]; exact flat_length _
        have l3 : state.jaxLeaves.length = qs.length := by
          rw [hqs, es, List.length_map]; exact flat_length _
        obtain ⟨ss', e2, hl', hp⟩ := seqLoop_ok sig training (qs := qs) l1 l2 l3 (by rw [hk, l1]) hl
        simp only [List.nil_append] at e2
        subst e2
        refine ⟨mkRows qs modules.jaxLeaves params.jaxLeaves state.jaxLeaves ss, ?_, ?_, ?_, ?_, ?_, ?_⟩
        · rw [← List.pairwise_map (f := Row.place), mkRows_place l1 l2 l3 hl', hqs, List.pairwise_map]
          exact entries_sorted _ (sorted_norm _ hm)
        · apply column_of_entries
          rw [mkRows_mod l1 l2 l3 hl']
          exact entries_of hqs.symm rfl
        · apply column_of_entries
          rw [mkRows_params l1 l2 l3 hl']
          exact entries_of (by rw [hqs, ep]) rfl
        · apply column_of_entries
          rw [mkRows_state l1 l2 l3 hl']
          exact entries_of (by rw [hqs, es]) rfl
        · intro p a
          rw [← mem_entries, entries_of (by rw [hqs, e'] : _ = qs) e.symm, ← mkRows_state' l1 l2 l3 hl', List.mem_map]
          simp only [Prod.mk.injEq]
        · have : (mkRows qs modules.jaxLeaves params.jaxLeaves state.jaxLeaves ss).length = modules.jaxLeaves.length := by
            rw [← List.length_map (f := Row.place), mkRows_place l1 l2 l3 hl', l1]
          rw [this]
          exact hp

theorem precedes_asymm {p q : List Step} (h : Precedes p q) : ¬ Precedes q p := by
  induction h with
  | idx h => intro h'; cases h' with
    | idx h' => omega
    | tail _ => omega
  | key h => intro h'; cases h' with
    | key h' => exact List.lt_irrefl _ (List.lt_trans h h')
    | tail _ => exact List.lt_irrefl _ h
  | tail h ih => intro h'; cases h' with
    | idx h' => omega
    | key h' => exact List.lt_irrefl _ h'
    | tail h' => exact ih h'

/-- Rows in order with the right content are the flattened tree. -/
theorem entries_of_column {α : Type} {rows : List (Row M P S)} {f : Row M P S → α} {t : Tree α} (hk : KeysOk t)
    (hs : rows.Pairwise fun a b => Precedes a.place b.place) (hc : Column rows f t) :
    entries (norm t) = rows.map fun r => (r.place, f r) := by
  have h1 := entries_sorted _ (sorted_norm t hk)
  have h2 : (rows.map fun r => (r.place, f r)).Pairwise fun a b => Precedes a.1 b.1 := by
    rw [List.pairwise_map]; exact hs
  have hirr : ∀ p, ¬ Precedes p p := fun p h => precedes_asymm h h
  have n1 : (entries (norm t)).Nodup := by
    refine h1.imp fun {a b} h => ?_
    rintro rfl; exact hirr _ h
  have n2 : (rows.map fun r => (r.place, f r)).Nodup := by
    refine h2.imp fun {a b} h => ?_
    rintro rfl; exact hirr _ h
  have hp : (entries (norm t)).Perm (rows.map fun r => (r.place, f r)) := by
    rw [List.perm_ext_iff_of_nodup n1 n2]
    rintro ⟨p, a⟩
    rw [mem_entries, at_norm, hc p a, List.mem_map]
    simp only [Prod.mk.injEq]
  exact hp.eq_of_pairwise (fun a b _ _ h h' => absurd h' (precedes_asymm h)) h1 h2

theorem seqCall_complete {sig : Sig M P S K A} {modules : Tree M} {params : Tree P}
    {data out : Tree A} {training : Bool} {state : Tree S} {rng : K} (hm : KeysOk modules) (hkp : KeysOk params)
    (hks : KeysOk state) (hsp : sameStruct modules.norm params.norm = true) (hss : sameStruct modules.norm state.norm = true)
    {rows : List (Row M P S)} (hs : rows.Pairwise fun a b => Precedes a.place b.place)
    (h1 : Column rows Row.mod modules) (h2 : Column rows Row.params params) (h3 : Column rows Row.state state)
    (hp : Passes (fun m p x s k => sig.call m p x training s k) rows (sig.splitN rng rows.length) data out) :
    ∃ st', seqCall sig modules params data training state rng = .ok (out, st') ∧ Column rows Row.state' st' := by
  have e1 := entries_of_column hm hs h1
  have e2 := entries_of_column hkp hs h2
  have e3 := entries_of_column hks hs h3
  have f1 : modules.jaxLeaves = rows.map Row.mod := by
    unfold jaxLeaves; rw [← entries_snd, e1, List.map_map]; rfl
  have f2 : params.jaxLeaves = rows.map Row.params := by
    unfold jaxLeaves; rw [← entries_snd, e2, List.map_map]; rfl
  have f3 : state.jaxLeaves = rows.map Row.state := by
    unfold jaxLeaves; rw [← entries_snd, e3, List.map_map]; rfl
  obtain ⟨r, hr⟩ := unflat_total modules.norm (rows.map Row.state') [] (by
    rw [List.length_map, flat_length, e1, List.length_map])
  rw [List.append_nil] at hr
  obtain ⟨hr1, hr2⟩ := unflat_spec _ _ _ _ hr
  rw [List.append_nil] at hr1
  refine ⟨r, ?_, ?_⟩
  · unfold seqCall
    rw [hsp, hss, f1, f2, f3]
    simp only [Bool.not_true, Bool.or_self, Bool.false_eq_true, if_false, List.length_map]
    rw [seqLoop_passes sig training hp []]
    simp only [List.nil_append, unflatten, hr]
  · intro p a
    rw [← mem_entries, entries_of (by rw [← sameStruct_entries _ _ hr2, e1, List.map_map] : _ = rows.map (Prod.fst ∘ fun r => (r.place, r.mod))) hr1.symm]
    have : (rows.map (Prod.fst ∘ fun r => (r.place, r.mod))).zip (rows.map Row.state') = rows.map fun r => (r.place, r.state') := by
      rw [List.zip_map']; rfl
    rw [this, List.mem_map]
    simp only [Prod.mk.injEq]

end Verif.Forward
