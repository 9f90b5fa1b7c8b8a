import Verif.Model.JaxTree
import Verif.Lemmas.TreeExtend

namespace Verif.Tree
open TreeSpec

variable {α β γ : Type}

theorem get_append (t : Tree β) (p q : List Str) (hp : Proper (p ++ q)) :
    get t (p ++ q) = match get t p with
      | .ok n => get n q
      | .error e => .error e := by
  induction p generalizing t with
  | nil => simp
  | cons k ks ih =>
    have hk : k ≠ [] := hp k (by simp)
    have hr : Proper (ks ++ q) := fun x hx => hp x (by simp only [List.cons_append, List.mem_cons]; exact .inr hx)
    rw [List.cons_append, get_cons _ _ _ (fun e => hk e.1), get_cons _ _ _ (fun e => hk e.1)]
    cases child t k with
    | error e => rfl
    | ok c => exact ih c hr

/-! ### `map` -/

mutual
theorem map_map {γ : Type} (f : α → β) (g : β → γ) : ∀ t : Tree α, map g (map f t) = map (fun a => g (f a)) t
  | .leaf _ => rfl
  | .none => rfl
  | .list ts => by simp [map, mapL_mapL f g ts]
  | .tuple ts => by simp [map, mapL_mapL f g ts]
  | .dict ts => by simp [map, mapD_mapD f g ts]
theorem mapL_mapL {γ : Type} (f : α → β) (g : β → γ) : ∀ ts : List (Tree α), mapL g (mapL f ts) = mapL (fun a => g (f a)) ts
  | [] => rfl
  | t :: ts => by simp [mapL, map_map f g t, mapL_mapL f g ts]
theorem mapD_mapD {γ : Type} (f : α → β) (g : β → γ) : ∀ ts : List (Str × Tree α), mapD g (mapD f ts) = mapD (fun a => g (f a)) ts
  | [] => rfl
  | (k, t) :: ts => by simp [mapD, map_map f g t, mapD_mapD f g ts]
end

theorem mapL_eq (f : α → β) (ts : List (Tree α)) : mapL f ts = ts.map (map f) := by
  induction ts with
  | nil => rfl
  | cons t ts ih => simp [mapL, ih]

theorem mapD_eq (f : α → β) (ts : List (Str × Tree α)) : mapD f ts = ts.map fun p => (p.1, map f p.2) := by
  induction ts with
  | nil => rfl
  | cons t ts ih => obtain ⟨k, t⟩ := t; simp [mapD, ih]

theorem lookup_mapD (f : α → β) (kvs : List (Str × Tree α)) (k : Str) :
    (mapD f kvs).lookup k = (kvs.lookup k).map (map f) := by
  induction kvs with
  | nil => rfl
  | cons p kvs ih =>
    obtain ⟨k', t⟩ := p
    simp only [mapD, List.lookup_cons]
    cases k == k' <;> simp [ih]

theorem child_map (f : α → β) (t : Tree α) (k : Str) : child (map f t) k = (child t k).map (map f) := by
  cases t with
  | leaf b => rfl
  | none => rfl
  | list ts =>
    simp only [map, child, mapL_eq, List.getElem?_map]
    split
    · rfl
    · cases ts[toInt k]? <;> rfl
  | tuple ts =>
    simp only [map, child, mapL_eq, List.getElem?_map]
    split
    · rfl
    · cases ts[toInt k]? <;> rfl
  | dict kvs =>
    simp only [map, child, lookup_mapD]
    cases kvs.lookup k <;> rfl

theorem get_map (f : α → β) (t : Tree α) (p : List Str) : get (map f t) p = (get t p).map (map f) := by
  induction p generalizing t with
  | nil => simp [Except.map]
  | cons k ks ih =>
    by_cases h : k = [] ∧ ks = []
    · obtain ⟨rfl, rfl⟩ := h; simp [Except.map]
    · rw [get_cons _ _ _ h, get_cons _ _ _ h, child_map]
      cases child t k with
      | error e => rfl
      | ok c => exact ih c

theorem dictSet_map (f : α → β) (kvs : List (Str × Tree α)) (k : Str) (v : Tree α) :
    dictSet (mapD f kvs) k (map f v) = mapD f (dictSet kvs k v) := by
  induction kvs with
  | nil => rfl
  | cons p r ih =>
    obtain ⟨k', t⟩ := p
    simp only [mapD, dictSet]
    split
    · simp [mapD]
    · simp [mapD, ih]

theorem set_map (f : α → β) (v : Tree α) (t : Tree α) (p : List Str) :
    set (map f t) p (map f v) = (set t p v).map (map f) := by
  unfold set
  induction p generalizing t with
  | nil => simp [setPath, Except.map]
  | cons k ks ih =>
    rw [setPath.eq_def, setPath.eq_def]
    simp only
    by_cases h : k = [] ∧ ks = []
    · simp [h, Except.map]
    · simp only [h, if_false, Bool.false_eq_true]
      cases t with
      | leaf b => rfl
      | none => rfl
      | list ts =>
        simp only [map, mapL_eq, List.getElem?_map]
        split
        · rfl
        · cases hc : ts[toInt k]? with
          | none => rfl
          | some c =>
            simp only [Option.map_some]
            split
            · simp [Except.map, map, mapL_eq, List.map_set]
            · rw [ih c]
              cases setPath (fun _ => false) v c ks with
              | error e => rfl
              | ok c' => simp [Except.map, map, mapL_eq, List.map_set]
      | tuple ts =>
        simp only [map, mapL_eq, List.getElem?_map]
        split
        · rfl
        · split
          · rfl
          · cases hc : ts[toInt k]? with
            | none => rfl
            | some c =>
              simp only [Option.map_some]
              rw [ih c]
              cases setPath (fun _ => false) v c ks with
              | error e => rfl
              | ok c' => simp [Except.map, map, mapL_eq, List.map_set]
      | dict kvs =>
        simp only [map]
        split
        · simp [Except.map, map, dictSet_map]
        · rw [lookup_mapD]
          cases kvs.lookup k with
          | none => rfl
          | some c =>
            simp only [Option.map_some]
            rw [ih c]
            cases setPath (fun _ => false) v c ks with
            | error e => rfl
            | ok c' => simp [Except.map, map, dictSet_map]

/-! ### `mapM` -/

mutual
theorem mapM_map (f : α → Except PyErr (Tree β)) (g : β → γ) : ∀ t : Tree α,
    mapM (fun a => (f a).map (map g)) t = (mapM f t).map (map g)
  | .leaf a => rfl
  | .none => rfl
  | .list ts => by
    simp only [mapM, mapML_map f g ts]
    cases mapML f ts <;> rfl
  | .tuple ts => by
    simp only [mapM, mapML_map f g ts]
    cases mapML f ts <;> rfl
  | .dict kvs => by
    simp only [mapM, mapMD_map f g kvs]
    cases mapMD f kvs <;> rfl
theorem mapML_map (f : α → Except PyErr (Tree β)) (g : β → γ) : ∀ ts : List (Tree α),
    mapML (fun a => (f a).map (map g)) ts = (mapML f ts).map (mapL g)
  | [] => rfl
  | t :: ts => by
    simp only [mapML, mapM_map f g t, mapML_map f g ts]
    cases mapM f t with
    | error e => rfl
    | ok u => cases mapML f ts <;> rfl
theorem mapMD_map (f : α → Except PyErr (Tree β)) (g : β → γ) : ∀ ts : List (Str × Tree α),
    mapMD (fun a => (f a).map (map g)) ts = (mapMD f ts).map (mapD g)
  | [] => rfl
  | (k, t) :: ts => by
    simp only [mapMD, mapM_map f g t, mapMD_map f g ts]
    cases mapM f t with
    | error e => rfl
    | ok u => cases mapMD f ts <;> rfl
end

theorem mapML_get {f : α → Except PyErr (Tree β)} {ts : List (Tree α)} {us : List (Tree β)} (h : mapML f ts = .ok us) :
    us.length = ts.length ∧ ∀ (i : Nat) (t : Tree α), ts[i]? = some t → ∃ u, us[i]? = some u ∧ mapM f t = .ok u := by
  induction ts generalizing us with
  | nil => simp only [mapML, Except.ok.injEq] at h; subst h; simp
  | cons t ts ih =>
    simp only [mapML] at h
    split at h
    · simp at h
    · next u hu =>
      split at h
      · simp at h
      · next us' hus =>
        simp only [Except.ok.injEq] at h
        subst h
        obtain ⟨h1, h2⟩ := ih hus
        refine ⟨by simp [h1], fun i t' hi => ?_⟩
        cases i with
        | zero => simp only [List.getElem?_cons_zero, Option.some.injEq] at hi; subst hi; exact ⟨u, by simp, hu⟩
        | succ i => simpa using h2 i t' (by simpa using hi)

theorem mapMD_lookup {f : α → Except PyErr (Tree β)} {ts : List (Str × Tree α)} {us : List (Str × Tree β)}
    (h : mapMD f ts = .ok us) :
    us.map Prod.fst = ts.map Prod.fst ∧ ∀ (k : Str) (t : Tree α), ts.lookup k = some t → ∃ u, us.lookup k = some u ∧ mapM f t = .ok u := by
  induction ts generalizing us with
  | nil => simp only [mapMD, Except.ok.injEq] at h; subst h; simp
  | cons t ts ih =>
    obtain ⟨k, t⟩ := t
    simp only [mapMD] at h
    split at h
    · simp at h
    · next u hu =>
      split at h
      · simp at h
      · next us' hus =>
        simp only [Except.ok.injEq] at h
        subst h
        obtain ⟨h1, h2⟩ := ih hus
        refine ⟨by simp [h1], fun k' t' hk => ?_⟩
        rw [List.lookup_cons] at hk ⊢
        split at hk
        · simp only [Option.some.injEq] at hk; subst hk; exact ⟨u, rfl, hu⟩
        · exact h2 k' t' hk

theorem mapM_child {f : α → Except PyErr (Tree β)} {t : Tree α} {u : Tree β} (h : mapM f t = .ok u) {k : Str} {c : Tree α}
    (hc : child t k = .ok c) : ∃ c', child u k = .ok c' ∧ mapM f c = .ok c' := by
  cases t with
  | leaf b => simp [child] at hc
  | none => simp [child] at hc
  | list ts =>
    simp only [mapM] at h
    split at h
    · next r hr =>
      simp only [Except.ok.injEq] at h; subst h
      simp only [child] at hc ⊢
      split at hc
      · simp at hc
      · next hd =>
        split at hc
        · next c' hc' =>
          simp only [Except.ok.injEq] at hc; subst hc
          obtain ⟨u, hu, hm⟩ := (mapML_get hr).2 _ _ hc'
          exact ⟨u, by simp [hd, hu], hm⟩
        · simp at hc
    · simp at h
  | tuple ts =>
    simp only [mapM] at h
    split at h
    · next r hr =>
      simp only [Except.ok.injEq] at h; subst h
      simp only [child] at hc ⊢
      split at hc
      · simp at hc
      · next hd =>
        split at hc
        · next c' hc' =>
          simp only [Except.ok.injEq] at hc; subst hc
          obtain ⟨u, hu, hm⟩ := (mapML_get hr).2 _ _ hc'
          exact ⟨u, by simp [hd, hu], hm⟩
        · simp at hc
    · simp at h
  | dict kvs =>
    simp only [mapM] at h
    split at h
    · next r hr =>
      simp only [Except.ok.injEq] at h; subst h
      simp only [child] at hc ⊢
      split at hc
      · next c' hc' =>
        simp only [Except.ok.injEq] at hc; subst hc
        obtain ⟨u, hu, hm⟩ := (mapMD_lookup hr).2 _ _ hc'
        exact ⟨u, by simp [hu], hm⟩
      · simp at hc
    · simp at h

theorem mapM_get {f : α → Except PyErr (Tree β)} {p : List Str} : ∀ {t : Tree α} {u : Tree β} {n : Tree α},
    mapM f t = .ok u → get t p = .ok n → ∃ n', get u p = .ok n' ∧ mapM f n = .ok n' := by
  induction p with
  | nil => intro t u n h hn; simp only [get_nil, Except.ok.injEq] at hn; subst hn; exact ⟨u, by simp, h⟩
  | cons k ks ih =>
    intro t u n h hn
    by_cases hk : k = [] ∧ ks = []
    · obtain ⟨rfl, rfl⟩ := hk
      simp only [get_empty, Except.ok.injEq] at hn; subst hn; exact ⟨u, by simp, h⟩
    · rw [get_cons _ _ _ hk] at hn
      split at hn
      · next c hc =>
        obtain ⟨c', hc', hm⟩ := mapM_child h hc
        obtain ⟨n', hn', hm'⟩ := ih hm hn
        exact ⟨n', by rw [get_cons _ _ _ hk, hc']; exact hn', hm'⟩
      · simp at hn

/-! ### Writing back -/

theorem dictSet_self {γ : Type} {k : Str} {v : γ} : ∀ {kvs : List (Str × γ)}, kvs.lookup k = some v → dictSet kvs k v = kvs
  | (k', v') :: r, h => by
    by_cases e : k' = k
    · subst e
      simp only [List.lookup, beq_self_eq_true, Option.some.injEq] at h
      simp [dictSet, h]
    · have e' : (k == k') = false := by simpa using fun h => e h.symm
      simp only [List.lookup, e'] at h
      simp [dictSet, e, dictSet_self h]

/-- Writing back what is there. -/
theorem set_self {β : Type} {v : Tree β} {p : List Str} : ∀ {t t' : Tree β}, get t p = .ok v → Tree.set t p v = .ok t' → t' = t := by
  unfold Tree.set
  induction p with
  | nil => intro t t' h1 h2; simp [setPath] at h2
  | cons k ks ih =>
    intro t t' h1 h2
    unfold Tree.get at h1
    rw [setPath.eq_def] at h2
    rw [getPath.eq_def] at h1
    simp only at h1 h2
    have hrec : ∀ {c c' : Tree β}, (match getPath (fun _ => false) false c ks with
        | .ok r => Except.ok r.1
        | .error e => .error e) = .ok v → setPath (fun _ => false) v c ks = .ok c' → c' = c := fun a b => ih a b
    have hnil : ∀ {c : Tree β}, ks = [] → (match getPath (fun _ => false) false c ks with
        | .ok r => (Except.ok r.1 : Except PyErr (Tree β))
        | .error e => .error e) = .ok v → c = v := by
      rintro c rfl h
      simpa [getPath] using h
    by_cases h : k = [] ∧ ks = []
    · simp [h] at h2
    · simp only [h, if_false, Bool.false_eq_true] at h1 h2
      cases t with
      | leaf b => simp at h2
      | none => simp at h2
      | list ts =>
        simp only at h1 h2
        by_cases hd : (!isDigit k) = true
        · simp [hd] at h2
        · simp only [hd, if_false, Bool.false_eq_true] at h1 h2
          cases hc : ts[toInt k]? with
          | none => rw [hc] at h2; simp at h2
          | some c =>
            rw [hc] at h1 h2
            simp only at h1 h2
            have hlt : ts.set (toInt k) c = ts := by
              obtain ⟨hi, e⟩ := List.getElem?_eq_some_iff.1 hc
              rw [← e, List.set_getElem_self]
            split at h2
            · next hk =>
              rw [hnil hk h1] at hlt
              simp only [Except.ok.injEq] at h2
              rw [← h2, hlt]
            · split at h2
              · next c' hs =>
                simp only [Except.ok.injEq] at h2
                rw [← h2, hrec h1 hs, hlt]
              · simp at h2
      | tuple ts =>
        simp only at h1 h2
        by_cases hd : (!isDigit k) = true
        · simp [hd] at h2
        · simp only [hd, if_false, Bool.false_eq_true] at h1 h2
          split at h2
          · simp at h2
          · cases hc : ts[toInt k]? with
            | none => rw [hc] at h2; simp at h2
            | some c =>
              rw [hc] at h1 h2
              simp only at h1 h2
              have hlt : ts.set (toInt k) c = ts := by
                obtain ⟨hi, e⟩ := List.getElem?_eq_some_iff.1 hc
                rw [← e, List.set_getElem_self]
              split at h2
              · next c' hs =>
                simp only [Except.ok.injEq] at h2
                rw [← h2, hrec h1 hs, hlt]
              · simp at h2
      | dict kvs =>
        simp only at h1 h2
        cases hc : kvs.lookup k with
        | none => rw [hc] at h1; simp at h1
        | some c =>
          rw [hc] at h1 h2
          simp only at h1 h2
          have hlt := dictSet_self hc
          split at h2
          · next hk =>
            rw [hnil hk h1] at hlt
            simp only [Except.ok.injEq] at h2
            rw [← h2, hlt]
          · split at h2
            · next c' hs =>
              simp only [Except.ok.injEq] at h2
              rw [← h2, hrec h1 hs, hlt]
            · simp at h2

end Verif.Tree
