import Verif.Spec.Tree
import Mathlib.Data.List.Basic

namespace Verif
open TreeSpec
variable {β γ : Type}

/-! ## dictionaries -/

theorem lookup_dictSet_self (kvs : List (Str × γ)) (k : Str) (v : γ) : (dictSet kvs k v).lookup k = some v := by
  induction kvs with
  | nil => simp [dictSet]
  | cons p r ih =>
    obtain ⟨k', v'⟩ := p
    simp only [dictSet]
    split
    · simp
    · next h =>
      have : (k == k') = false := by simpa using fun h' => h h'.symm
      rw [List.lookup_cons]; simp [this, ih]

theorem lookup_dictSet_ne (kvs : List (Str × γ)) {k q : Str} (v : γ) (h : q ≠ k) :
    (dictSet kvs k v).lookup q = kvs.lookup q := by
  induction kvs with
  | nil =>
    have : (q == k) = false := by simpa using h
    simp [dictSet, List.lookup_cons, this]
  | cons p r ih =>
    obtain ⟨k', v'⟩ := p
    simp only [dictSet]
    split
    · next h' =>
      subst h'
      have : (q == k') = false := by simpa using h
      simp [List.lookup_cons, this]
    · rw [List.lookup_cons, List.lookup_cons, ih]

namespace Tree

/-- One step of reading. -/
def child (t : Tree β) (k : Str) : Except PyErr (Tree β) :=
  match t with
  | .dict kvs => match kvs.lookup k with
    | some c => .ok c
    | .none => .error .keyError
  | .list ts | .tuple ts =>
    if !isDigit k then .error .keyError
    else match ts[toInt k]? with
      | some c => .ok c
      | .none => .error .indexError
  | _ => .error .typeError

@[simp] theorem get_nil (t : Tree β) : get t [] = .ok t := by simp [get, getPath]
@[simp] theorem get_empty (t : Tree β) : get t [[]] = .ok t := by simp [get, getPath]

theorem get_cons (t : Tree β) (k : Str) (ks : List Str) (h : ¬ (k = [] ∧ ks = [])) :
    get t (k :: ks) = match child t k with
      | .ok c => get c ks
      | .error e => .error e := by
  unfold get
  rw [getPath.eq_def]
  simp only [h, if_false]
  cases t with
  | leaf b => simp [child]
  | none => simp [child]
  | list ts =>
    simp only [child]
    by_cases hd : isDigit k
    · simp only [hd]; cases ts[toInt k]? <;> simp
    · simp [hd]
  | tuple ts =>
    simp only [child]
    by_cases hd : isDigit k
    · simp only [hd]; cases ts[toInt k]? <;> simp
    · simp [hd]
  | dict kvs =>
    simp only [child]
    cases kvs.lookup k <;> simp

/-- Writing one child of a container (the parent of `k` must be a list or a dictionary, or a tuple when the child itself
is being modified). -/
def putChild (t : Tree β) (k : Str) (c : Tree β) : Tree β :=
  match t with
  | .dict kvs => .dict (dictSet kvs k c)
  | .list ts => .list (ts.set (toInt k) c)
  | .tuple ts => .tuple (ts.set (toInt k) c)
  | t => t

theorem setPath_single {isLeaf : Tree β → Bool} {v t t' : Tree β} {k : Str}
    (h : setPath isLeaf v t [k] = .ok t') :
    k ≠ [] ∧ t' = putChild t k v ∧ child t' k = .ok v := by
  rw [setPath.eq_def] at h
  simp only [and_true] at h
  split at h
  · simp at h
  · next hk =>
    refine ⟨hk, ?_⟩
    split at h
    · simp at h
    · cases t with
      | leaf b => simp at h
      | none => simp at h
      | dict kvs =>
        simp only [if_true, Except.ok.injEq] at h
        subst h
        exact ⟨rfl, by simp [child, lookup_dictSet_self]⟩
      | tuple ts =>
        simp only [if_true] at h
        split at h <;> simp at h
      | list ts =>
        simp only [if_true] at h
        split at h
        · simp at h
        · next hd =>
          split at h
          · simp at h
          · next c hc =>
            simp only [Except.ok.injEq] at h
            subst h
            refine ⟨rfl, ?_⟩
            simp only [child, hd]
            have : toInt k < ts.length := by
              by_contra hlt
              rw [List.getElem?_eq_none (by omega)] at hc
              simp at hc
            simp [List.getElem?_set, this]

theorem setPath_cons {isLeaf : Tree β → Bool} {v t t' : Tree β} {k k2 : Str} {ks : List Str}
    (h : setPath isLeaf v t (k :: k2 :: ks) = .ok t') :
    ∃ c c', child t k = .ok c ∧ setPath isLeaf v c (k2 :: ks) = .ok c' ∧
      t' = putChild t k c' ∧ child t' k = .ok c' := by
  rw [setPath.eq_def] at h
  simp only [List.cons_ne_nil, and_false, if_false, reduceCtorEq] at h
  split at h
  · simp at h
  · cases t with
    | leaf b => simp at h
    | none => simp at h
    | dict kvs =>
      simp only at h
      split at h
      · simp at h
      · next c hc =>
        split at h
        · next c' hc' =>
          simp only [Except.ok.injEq] at h
          subst h
          exact ⟨c, c', by simp [child, hc], hc', rfl, by simp [child, lookup_dictSet_self]⟩
        · simp at h
    | tuple ts =>
      simp only at h
      split at h
      · simp at h
      · next hd =>
        split at h
        · simp at h
        · next c hc =>
          split at h
          · next c' hc' =>
            simp only [Except.ok.injEq] at h
            subst h
            have : toInt k < ts.length := by
              by_contra hlt
              rw [List.getElem?_eq_none (by omega)] at hc
              simp at hc
            exact ⟨c, c', by simp [child, hc, hd], hc', rfl, by simp [child, hd, this]⟩
          · simp at h
    | list ts =>
      simp only at h
      split at h
      · simp at h
      · next hd =>
        split at h
        · simp at h
        · next c hc =>
          split at h
          · next c' hc' =>
            simp only [Except.ok.injEq] at h
            subst h
            have : toInt k < ts.length := by
              by_contra hlt
              rw [List.getElem?_eq_none (by omega)] at hc
              simp at hc
            exact ⟨c, c', by simp [child, hc, hd], hc', rfl, by simp [child, hd, this]⟩
          · simp at h

theorem get_set {isLeaf : Tree β → Bool} {v : Tree β} {p : List Str} {t t' : Tree β}
    (h : setPath isLeaf v t p = .ok t') : get t' p = .ok v := by
  induction p generalizing t t' with
  | nil => simp [setPath] at h
  | cons k ks ih =>
    cases ks with
    | nil =>
      obtain ⟨hk, _, hc⟩ := setPath_single h
      rw [get_cons _ _ _ (by simp [hk]), hc]
      simp
    | cons k2 ks =>
      obtain ⟨c, c', _, h2, _, h4⟩ := setPath_cons h
      rw [get_cons _ _ _ (by simp), h4]
      exact ih h2

theorem child_putChild_ne (t : Tree β) {k q : Str} (c : Tree β) (h : ¬ SameKey k q) (hk : ∀ ts, t = .list ts ∨ t = .tuple ts → isDigit k = true) :
    child (putChild t k c) q = child t q := by
  have hne : q ≠ k := fun e => h (.inl e.symm)
  cases t with
  | leaf b => rfl
  | none => rfl
  | dict kvs => simp [putChild, child, lookup_dictSet_ne _ _ hne]
  | list ts =>
    simp only [putChild, child]
    by_cases hq : isDigit q
    · have : toInt k ≠ toInt q := fun e => h (.inr ⟨hk ts (.inl rfl), hq, e⟩)
      simp [hq, List.getElem?_set, this]
    · simp [hq]
  | tuple ts =>
    simp only [putChild, child]
    by_cases hq : isDigit q
    · have : toInt k ≠ toInt q := fun e => h (.inr ⟨hk ts (.inr rfl), hq, e⟩)
      simp [hq, List.getElem?_set, this]
    · simp [hq]

theorem digit_of_set {isLeaf : Tree β → Bool} {v t t' : Tree β} {k : Str} {ks : List Str}
    (h : setPath isLeaf v t (k :: ks) = .ok t') : ∀ ts, t = .list ts ∨ t = .tuple ts → isDigit k = true := by
  intro ts ht
  rw [setPath.eq_def] at h
  simp only at h
  split at h
  · simp at h
  · split at h
    · simp at h
    · rcases ht with rfl | rfl <;>
      · simp only at h
        by_contra hd
        have hd' : isDigit k = false := by simpa using hd
        simp [hd'] at h

theorem get_set_diverge {isLeaf : Tree β → Bool} {v : Tree β} {c : List Str} {k₁ k₂ : Str} {r₁ r₂ : List Str}
    {t t' : Tree β} (h : setPath isLeaf v t (c ++ k₁ :: r₁) = .ok t') (hk : ¬ SameKey k₁ k₂)
    (hq : Proper (c ++ k₂ :: r₂)) : get t' (c ++ k₂ :: r₂) = get t (c ++ k₂ :: r₂) := by
  induction c generalizing t t' with
  | nil =>
    simp only [List.nil_append] at h hq ⊢
    have hk2 : ¬ (k₂ = [] ∧ r₂ = []) := fun e => hq k₂ (by simp) e.1
    rw [get_cons _ _ _ hk2, get_cons _ _ _ hk2]
    have hd := digit_of_set h
    cases r₁ with
    | nil =>
      obtain ⟨_, rfl, _⟩ := setPath_single h
      rw [child_putChild_ne _ _ hk hd]
    | cons a as =>
      obtain ⟨_, _, _, _, rfl, _⟩ := setPath_cons h
      rw [child_putChild_ne _ _ hk hd]
  | cons a c ih =>
    simp only [List.cons_append] at h hq ⊢
    have ha : ¬ (a = [] ∧ c ++ k₂ :: r₂ = []) := by simp
    rw [get_cons _ _ _ ha, get_cons _ _ _ ha]
    obtain ⟨b, bs, hb⟩ : ∃ b bs, c ++ k₁ :: r₁ = b :: bs := by
      cases c with
      | nil => exact ⟨_, _, rfl⟩
      | cons x xs => exact ⟨_, _, rfl⟩
    rw [hb] at h
    obtain ⟨d, d', h1, h2, _, h4⟩ := setPath_cons h
    rw [h1, h4]
    rw [← hb] at h2
    exact ih h2 (fun k hk => hq k (List.mem_cons_of_mem _ hk))

/-! ## early return -/

theorem getPath_cons_child (isLeaf : Tree β → Bool) (early : Bool) (t : Tree β) (k : Str) (ks : List Str)
    (h : ¬ (k = [] ∧ ks = [])) (hl : isLeaf t = false) :
    getPath isLeaf early t (k :: ks) = match child t k with
      | .ok c => getPath isLeaf early c ks
      | .error e => if e = .typeError ∧ early = true then .ok (t, k :: ks) else .error e := by
  rw [getPath.eq_def]
  simp only [h, if_false, hl]
  cases t with
  | leaf b => cases early <;> simp [child]
  | none => cases early <;> simp [child]
  | list ts =>
    simp only [child]
    by_cases hd : isDigit k
    · simp only [hd]; cases ts[toInt k]? <;> simp
    · simp [hd]
  | tuple ts =>
    simp only [child]
    by_cases hd : isDigit k
    · simp only [hd]; cases ts[toInt k]? <;> simp
    · simp [hd]
  | dict kvs =>
    simp only [child]
    cases kvs.lookup k <;> simp

theorem child_typeError {t : Tree β} {k : Str} (h : child t k = .error .typeError) :
    (∃ b, t = .leaf b) ∨ t = .none := by
  cases t with
  | leaf b => exact .inl ⟨b, rfl⟩
  | none => exact .inr rfl
  | list ts =>
    simp only [child] at h
    split at h
    · simp at h
    · split at h <;> simp at h
  | tuple ts =>
    simp only [child] at h
    split at h
    · simp at h
    · split at h <;> simp at h
  | dict kvs =>
    simp only [child] at h
    split at h <;> simp at h

theorem getPath_split (isLeaf : Tree β → Bool) (t : Tree β) (p : List Str) (hp : Proper p) (n : Tree β)
    (rem : List Str) (h : getPath isLeaf true t p = .ok (n, rem)) :
    ∃ consumed, p = consumed ++ rem ∧ getPath isLeaf false t consumed = .ok (n, []) ∧
      (rem ≠ [] → isLeaf n = true ∨ (∃ b, n = .leaf b) ∨ n = .none) := by
  induction p generalizing t with
  | nil =>
    simp only [getPath, Except.ok.injEq, Prod.mk.injEq] at h
    obtain ⟨rfl, rfl⟩ := h
    exact ⟨[], rfl, by simp [getPath], by simp⟩
  | cons k ks ih =>
    have hk : k ≠ [] := hp k (by simp)
    have hks : Proper ks := fun x hx => hp x (List.mem_cons_of_mem _ hx)
    by_cases hl : isLeaf t = true
    · rw [getPath.eq_def] at h
      simp only [hk, false_and, if_false, hl, if_true, Except.ok.injEq, Prod.mk.injEq] at h
      obtain ⟨rfl, rfl⟩ := h
      exact ⟨[], rfl, by simp [getPath], fun _ => .inl hl⟩
    · have hl' : isLeaf t = false := by simpa using hl
      rw [getPath_cons_child _ _ _ _ _ (by simp [hk]) hl'] at h
      cases hc : child t k with
      | ok c =>
        rw [hc] at h
        obtain ⟨cons', e1, e2, e3⟩ := ih c hks h
        refine ⟨k :: cons', by simp [e1], ?_, e3⟩
        rw [getPath_cons_child _ _ _ _ _ (by simp [hk]) hl', hc]
        exact e2
      | error e =>
        rw [hc] at h
        simp only at h
        split at h
        · next he =>
          simp only [Except.ok.injEq, Prod.mk.injEq] at h
          obtain ⟨rfl, rfl⟩ := h
          exact ⟨[], rfl, by simp [getPath], fun _ => .inr (child_typeError (he.1 ▸ hc))⟩
        · simp at h

/-! ## make_mutable -/

mutual
theorem mutPass_detuple : ∀ t : Tree β, detuple (mutPass t) = detuple t
  | .leaf _ => rfl
  | .none => rfl
  | .list ts => by simp [mutPass, detuple, mutPassL_detuple ts]
  | .tuple ts => by simp [mutPass, detuple]
  | .dict kvs => by simp [mutPass, detuple, mutPassD_detuple kvs]
theorem mutPassL_detuple : ∀ ts : List (Tree β), detupleL (mutPassL ts) = detupleL ts
  | [] => rfl
  | t :: ts => by simp [mutPassL, detupleL, mutPass_detuple t, mutPassL_detuple ts]
theorem mutPassD_detuple : ∀ ts : List (Str × Tree β), detupleD (mutPassD ts) = detupleD ts
  | [] => rfl
  | (k, t) :: ts => by simp [mutPassD, detupleD, mutPass_detuple t, mutPassD_detuple ts]
end

mutual
theorem meetsTuple_eq : ∀ t : Tree β, meetsTuple t = hasTuple t
  | .leaf _ => rfl
  | .none => rfl
  | .list ts => by simp [meetsTuple, hasTuple, meetsTupleL_eq ts]
  | .tuple ts => rfl
  | .dict kvs => by simp [meetsTuple, hasTuple, meetsTupleD_eq kvs]
theorem meetsTupleL_eq : ∀ ts : List (Tree β), meetsTupleL ts = hasTupleL ts
  | [] => rfl
  | t :: ts => by simp [meetsTupleL, hasTupleL, meetsTuple_eq t, meetsTupleL_eq ts]
theorem meetsTupleD_eq : ∀ ts : List (Str × Tree β), meetsTupleD ts = hasTupleD ts
  | [] => rfl
  | (k, t) :: ts => by simp [meetsTupleD, hasTupleD, meetsTuple_eq t, meetsTupleD_eq ts]
end

mutual
theorem detuple_of_noTuple : ∀ t : Tree β, hasTuple t = false → detuple t = t
  | .leaf _, _ => rfl
  | .none, _ => rfl
  | .list ts, h => by simp only [hasTuple] at h; simp [detuple, detupleL_of_noTuple ts h]
  | .tuple ts, h => by simp [hasTuple] at h
  | .dict kvs, h => by simp only [hasTuple] at h; simp [detuple, detupleD_of_noTuple kvs h]
theorem detupleL_of_noTuple : ∀ ts : List (Tree β), hasTupleL ts = false → detupleL ts = ts
  | [], _ => rfl
  | t :: ts, h => by
    simp only [hasTupleL, Bool.or_eq_false_iff] at h
    simp [detupleL, detuple_of_noTuple t h.1, detupleL_of_noTuple ts h.2]
theorem detupleD_of_noTuple : ∀ ts : List (Str × Tree β), hasTupleD ts = false → detupleD ts = ts
  | [], _ => rfl
  | (k, t) :: ts, h => by
    simp only [hasTupleD, Bool.or_eq_false_iff] at h
    simp [detupleD, detuple_of_noTuple t h.1, detupleD_of_noTuple ts h.2]
end

mutual
theorem count_mutPass_le : ∀ t : Tree β, tupleCount (mutPass t) ≤ tupleCount t ∧
    (meetsTuple t = true → tupleCount (mutPass t) < tupleCount t)
  | .leaf _ => by simp [mutPass, tupleCount, meetsTuple]
  | .none => by simp [mutPass, tupleCount, meetsTuple]
  | .list ts => by simpa [mutPass, tupleCount, meetsTuple] using countL_mutPass_le ts
  | .tuple ts => by simp [mutPass, tupleCount]
  | .dict kvs => by simpa [mutPass, tupleCount, meetsTuple] using countD_mutPass_le kvs
theorem countL_mutPass_le : ∀ ts : List (Tree β), tupleCountL (mutPassL ts) ≤ tupleCountL ts ∧
    (meetsTupleL ts = true → tupleCountL (mutPassL ts) < tupleCountL ts)
  | [] => by simp [mutPassL, meetsTupleL]
  | t :: ts => by
    have h1 := count_mutPass_le t
    have h2 := countL_mutPass_le ts
    simp only [mutPassL, tupleCountL, meetsTupleL, Bool.or_eq_true]
    refine ⟨by omega, ?_⟩
    rintro (h | h)
    · have := h1.2 h; omega
    · have := h2.2 h; omega
theorem countD_mutPass_le : ∀ ts : List (Str × Tree β), tupleCountD (mutPassD ts) ≤ tupleCountD ts ∧
    (meetsTupleD ts = true → tupleCountD (mutPassD ts) < tupleCountD ts)
  | [] => by simp [mutPassD, meetsTupleD]
  | (k, t) :: ts => by
    have h1 := count_mutPass_le t
    have h2 := countD_mutPass_le ts
    simp only [mutPassD, tupleCountD, meetsTupleD, Bool.or_eq_true]
    refine ⟨by omega, ?_⟩
    rintro (h | h)
    · have := h1.2 h; omega
    · have := h2.2 h; omega
end

theorem makeMutableLoop_eq : ∀ (f : Nat) (t : Tree β), tupleCount t < f → makeMutableLoop f t = some (detuple t) := by
  intro f
  induction f with
  | zero => intro t h; omega
  | succ f ih =>
    intro t h
    simp only [makeMutableLoop]
    split
    · next hm =>
      rw [ih _ (by have := (count_mutPass_le t).2 hm; omega), mutPass_detuple]
    · next hm =>
      rw [meetsTuple_eq] at hm
      rw [detuple_of_noTuple t (by simpa using hm)]

theorem makeMutable_eq (t : Tree β) : makeMutable t = some (detuple t) :=
  makeMutableLoop_eq _ _ (Nat.lt_succ_self _)

mutual
theorem hasTuple_detuple : ∀ t : Tree β, hasTuple (detuple t) = false
  | .leaf _ => rfl
  | .none => rfl
  | .list ts => by simp [detuple, hasTuple, hasTupleL_detuple ts]
  | .tuple ts => by simp [detuple, hasTuple, hasTupleL_detuple ts]
  | .dict kvs => by simp [detuple, hasTuple, hasTupleD_detuple kvs]
theorem hasTupleL_detuple : ∀ ts : List (Tree β), hasTupleL (detupleL ts) = false
  | [] => rfl
  | t :: ts => by simp [detupleL, hasTupleL, hasTuple_detuple t, hasTupleL_detuple ts]
theorem hasTupleD_detuple : ∀ ts : List (Str × Tree β), hasTupleD (detupleD ts) = false
  | [] => rfl
  | (k, t) :: ts => by simp [detupleD, hasTupleD, hasTuple_detuple t, hasTupleD_detuple ts]
end

mutual
theorem leaves_detuple : ∀ t : Tree β, leaves (detuple t) = leaves t
  | .leaf _ => rfl
  | .none => rfl
  | .list ts => by simp [detuple, leaves, leavesL_detuple ts]
  | .tuple ts => by simp [detuple, leaves, leavesL_detuple ts]
  | .dict kvs => by simp [detuple, leaves, leavesD_detuple kvs]
theorem leavesL_detuple : ∀ ts : List (Tree β), leavesL (detupleL ts) = leavesL ts
  | [] => rfl
  | t :: ts => by simp [detupleL, leavesL, leaves_detuple t, leavesL_detuple ts]
theorem leavesD_detuple : ∀ ts : List (Str × Tree β), leavesD (detupleD ts) = leavesD ts
  | [] => rfl
  | (k, t) :: ts => by simp [detupleD, leavesD, leaves_detuple t, leavesD_detuple ts]
end

theorem detupleL_eq_map (ts : List (Tree β)) : detupleL ts = ts.map detuple := by
  induction ts with
  | nil => rfl
  | cons t ts ih => simp [detupleL, ih]

theorem lookup_detupleD (kvs : List (Str × Tree β)) (k : Str) :
    (detupleD kvs).lookup k = (kvs.lookup k).map detuple := by
  induction kvs with
  | nil => rfl
  | cons p kvs ih =>
    obtain ⟨k', t⟩ := p
    simp only [detupleD, List.lookup_cons]
    cases h : k == k' <;> simp [ih]

theorem child_detuple (t : Tree β) (k : Str) : child (detuple t) k = (child t k).map detuple := by
  cases t with
  | leaf b => rfl
  | none => rfl
  | list ts =>
    simp only [detuple, child, detupleL_eq_map, List.getElem?_map]
    by_cases hd : isDigit k
    · simp only [hd]; cases ts[toInt k]? <;> simp [Except.map]
    · simp [hd, Except.map]
  | tuple ts =>
    simp only [detuple, child, detupleL_eq_map, List.getElem?_map]
    by_cases hd : isDigit k
    · simp only [hd]; cases ts[toInt k]? <;> simp [Except.map]
    · simp [hd, Except.map]
  | dict kvs =>
    simp only [detuple, child, lookup_detupleD]
    cases kvs.lookup k <;> simp [Except.map]

theorem get_detuple (t : Tree β) (p : List Str) : get (detuple t) p = (get t p).map detuple := by
  induction p generalizing t with
  | nil => simp [Except.map]
  | cons k ks ih =>
    by_cases h : k = [] ∧ ks = []
    · obtain ⟨rfl, rfl⟩ := h; simp [Except.map]
    · rw [get_cons _ _ _ h, get_cons _ _ _ h, child_detuple]
      cases child t k with
      | ok c => simp only [Except.map]; exact ih c
      | error e => simp [Except.map]

end Tree
end Verif
