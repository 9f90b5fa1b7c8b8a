import Verif.Lemmas.TreeExtend
import Verif.Spec.Forward

/-! When `extend` succeeds, and what it can put into the tree. -/

namespace Verif.Tree
open TreeSpec ForwardSpec

variable {β : Type}

/-! ### Success -/

/-- The walk along `p` meets only lists and dictionaries and ends at a free place. -/
def Open : Tree β → List Str → Prop
  | _, [] => False
  | .list ts, k :: ks => isDigit k = true ∧ ∀ c, ts[toInt k]? = some c → c = .none ∨ (ks ≠ [] ∧ Open c ks)
  | .dict kvs, k :: ks => ∀ c, kvs.lookup k = some c → ks ≠ [] ∧ Open c ks
  | _, _ :: _ => False

theorem open_fresh {k : Str} (n : Str) (ks : List Str) (h : isDigit n = isDigit k) : Open (freshNode n : Tree β) (k :: ks) := by
  unfold freshNode
  split
  · next hd => exact ⟨by rw [← h, hd], by simp⟩
  · intro c hc; simp at hc

theorem uniform_tail {k : Str} {p q : List Str} (h : Uniform (k :: p) (k :: q)) : Uniform p q := by
  intro c k1 r1 k2 r2 _ h1 h2
  exact h (k :: c) k1 r1 k2 r2 (by simp) (by rw [h1]; rfl) (by rw [h2]; rfl)

theorem uniform_head {k k₁ k₂ : Str} {p q : List Str} (h : Uniform (k :: k₁ :: p) (k :: k₂ :: q)) :
    isDigit k₁ = isDigit k₂ := h [k] k₁ p k₂ q (by simp) rfl rfl

theorem diverge_cons {k k' : Str} {p q : List Str} (h : Diverge (k :: p) (k' :: q)) :
    ¬ SameKey k k' ∨ (k = k' ∧ Diverge p q) := by
  obtain ⟨c, k1, r1, k2, r2, h1, h2, hk⟩ := h
  cases c with
  | nil =>
    simp only [List.nil_append, List.cons.injEq] at h1 h2
    obtain ⟨rfl, rfl⟩ := h1; obtain ⟨rfl, rfl⟩ := h2
    exact .inl hk
  | cons a c =>
    simp only [List.cons_append, List.cons.injEq] at h1 h2
    obtain ⟨rfl, rfl⟩ := h1; obtain ⟨rfl, rfl⟩ := h2
    exact .inr ⟨rfl, c, k1, r1, k2, r2, rfl, rfl, hk⟩

theorem not_diverge_nil {p : List Str} : ¬ Diverge [] p ∧ ¬ Diverge p [] := by
  constructor <;> rintro ⟨c, k1, r1, k2, r2, h1, h2, hk⟩ <;> simp at h1 h2

theorem open_list_iff (ts : List (Tree β)) (k : Str) (ks : List Str) : Open (.list ts) (k :: ks) ↔
    isDigit k = true ∧ ∀ c, ts[toInt k]? = some c → c = .none ∨ (ks ≠ [] ∧ Open c ks) := Iff.rfl

theorem open_dict_iff (kvs : List (Str × Tree β)) (k : Str) (ks : List Str) : Open (.dict kvs) (k :: ks) ↔
    ∀ c, kvs.lookup k = some c → ks ≠ [] ∧ Open c ks := Iff.rfl

theorem get?_padTo (ts : List (Tree β)) (i j : Nat) : (padTo ts i)[j]? = ts[j]? ∨
    (ts[j]? = Option.none ∧ (padTo ts i)[j]? = some .none) := by
  unfold padTo
  by_cases h : j < ts.length
  · left; rw [List.getElem?_append_left h]
  · rw [List.getElem?_append_right (by omega)]
    have hn : ts[j]? = Option.none := List.getElem?_eq_none (by omega)
    by_cases h2 : j - ts.length < i + 1 - ts.length
    · right; refine ⟨hn, ?_⟩; rw [List.getElem?_replicate, if_pos h2]
    · left; rw [hn, List.getElem?_replicate, if_neg h2]

/-- A walk that is open succeeds, records no tuple, can be read and written afterwards, and keeps diverging walks open. -/
theorem extendOne_ok (eqv : Tree β → Tree β → Bool) (fill : Tree β) : ∀ (p : List Str) (t : Tree β) (pre : List Str),
    Open t p → ∃ t', extendOne eqv fill t pre p = .ok (t', []) ∧
      ∀ q, Diverge p q → Uniform p q → Open t q → Open t' q := by
  intro p
  induction p with
  | nil => intro t pre h; exact absurd h (by cases t <;> simp [Open])
  | cons k ks ih =>
    intro t pre h
    rw [extendOne.eq_def]
    simp only
    cases t with
    | leaf b => simp [Open] at h
    | none => simp [Open] at h
    | tuple ts => simp [Open] at h
    | list ts =>
      rw [open_list_iff] at h
      obtain ⟨hd, hc⟩ := h
      simp only [ne_eq, not_true_eq_false, false_and, if_false, hd, Bool.not_true, Bool.false_eq_true]
      -- the child after the walk
      suffices hs : ∃ c' : Tree β, (∀ q, ks ≠ [] → Diverge ks q → Uniform (k :: ks) (k :: q) →
            (∀ c, ts[toInt k]? = some c → c = .none ∨ (q ≠ [] ∧ Open c q)) → q ≠ [] ∧ Open c' q) ∧
          (if isNone ((padTo ts (toInt k)).getD (toInt k) .none) then
            if ks = [] then .ok (.list ((padTo ts (toInt k)).set (toInt k) (if ks = [] then fill else freshNode (ks.headD []))), [])
            else match extendOne eqv fill (if ks = [] then fill else freshNode (ks.headD [])) (pre ++ [k]) ks with
              | .ok (c, rec) => .ok (.list ((padTo ts (toInt k)).set (toInt k) c), [] ++ rec)
              | .error e => .error e
          else if ks = [] then
            if !eqv ((padTo ts (toInt k)).getD (toInt k) .none) fill && !isNone fill then .error .valueError
            else .ok (.list (padTo ts (toInt k)), [])
          else match extendOne eqv fill ((padTo ts (toInt k)).getD (toInt k) .none) (pre ++ [k]) ks with
            | .ok (c, rec) => .ok (.list ((padTo ts (toInt k)).set (toInt k) c), [] ++ rec)
            | .error e => .error e : Except PyErr (Tree β × List (List Str)))
          = .ok (.list ((padTo ts (toInt k)).set (toInt k) c'), []) by
        obtain ⟨c', hc', he⟩ := hs
        refine ⟨_, he, ?_⟩
        intro q hq hu hoq
        cases q with
        | nil => exact absurd hq not_diverge_nil.2
        | cons k' q =>
          rw [open_list_iff] at hoq ⊢
          refine ⟨hoq.1, fun c hcc => ?_⟩
          rcases diverge_cons hq with hk | ⟨rfl, hk⟩
          · have hne : toInt k ≠ toInt k' := fun e => hk (.inr ⟨hd, hoq.1, e⟩)
            rw [List.getElem?_set_ne hne] at hcc
            rcases get?_padTo ts (toInt k) (toInt k') with e | ⟨-, e⟩
            · exact hoq.2 c (by rw [← e, hcc])
            · rw [e] at hcc; cases hcc; exact .inl rfl
          · rw [List.getElem?_set_self (length_padTo _ _)] at hcc
            cases hcc
            have hks : ks ≠ [] := by rintro rfl; exact not_diverge_nil.1 hk
            exact .inr (hc' q hks hk hu hoq.2)
      rcases getD_padTo ts (toInt k) with hg | ⟨hg1, hg2⟩
      · rcases hc _ hg with hn | ⟨hks, ho⟩
        · rw [hn]
          by_cases hks : ks = []
          · subst hks
            exact ⟨fill, fun q h => absurd rfl h, by simp [isNone]⟩
          · obtain ⟨k2, ks2, rfl⟩ := List.exists_cons_of_ne_nil hks
            obtain ⟨c', h1, h2⟩ := ih (freshNode k2) (pre ++ [k]) (open_fresh _ _ rfl)
            refine ⟨c', fun q _ hdq hu _ => ?_, by simp [isNone, h1]⟩
            cases q with
            | nil => exact absurd hdq not_diverge_nil.2
            | cons k3 q =>
              exact ⟨by simp, h2 _ hdq (uniform_tail hu) (open_fresh _ _ (uniform_head hu))⟩
        · have hnn : isNone ((padTo ts (toInt k)).getD (toInt k) .none) = false := by
            cases hx : (padTo ts (toInt k)).getD (toInt k) .none with
            | none => rw [hx] at ho; cases ks <;> simp [Open] at ho
            | _ => rfl
          obtain ⟨c', h1, h2⟩ := ih _ (pre ++ [k]) ho
          refine ⟨c', fun q _ hdq hu hoo => ?_, by rw [hnn, h1]; simp [hks]⟩
          rcases hoo _ hg with h | ⟨h, h'⟩
          · rw [h] at hnn; simp [isNone] at hnn
          · exact ⟨h, h2 _ hdq (uniform_tail hu) h'⟩
      · rw [hg2]
        by_cases hks : ks = []
        · subst hks
          exact ⟨fill, fun q h => absurd rfl h, by simp [isNone]⟩
        · obtain ⟨k2, ks2, rfl⟩ := List.exists_cons_of_ne_nil hks
          obtain ⟨c', h1, h2⟩ := ih (freshNode k2) (pre ++ [k]) (open_fresh _ _ rfl)
          refine ⟨c', fun q _ hdq hu _ => ?_, by simp [isNone, h1]⟩
          cases q with
          | nil => exact absurd hdq not_diverge_nil.2
          | cons k3 q =>
            exact ⟨by simp, h2 _ hdq (uniform_tail hu) (open_fresh _ _ (uniform_head hu))⟩
    | dict kvs =>
      rw [open_dict_iff] at h
      simp only [ne_eq, not_true_eq_false, false_and, if_false]
      have key : ∀ c', (∀ q, ks ≠ [] → Diverge ks q → Uniform (k :: ks) (k :: q) →
            (∀ c, kvs.lookup k = some c → q ≠ [] ∧ Open c q) → q ≠ [] ∧ Open c' q) →
          ∀ q, Diverge (k :: ks) q → Uniform (k :: ks) q → Open (.dict kvs) q → Open (.dict (dictSet kvs k c')) q := by
        intro c' hc' q hq hu hoq
        cases q with
        | nil => exact absurd hq not_diverge_nil.2
        | cons k' q =>
          rw [open_dict_iff] at hoq ⊢
          intro c hcc
          rcases diverge_cons hq with hk | ⟨rfl, hk⟩
          · rw [lookup_dictSet_ne _ _ (fun e => hk (.inl e.symm))] at hcc
            exact hoq c hcc
          · rw [lookup_dictSet_self] at hcc
            cases hcc
            have hks : ks ≠ [] := by rintro rfl; exact not_diverge_nil.1 hk
            exact hc' q hks hk hu hoq
      cases hl : kvs.lookup k with
      | none =>
        simp only
        by_cases hks : ks = []
        · subst hks
          exact ⟨.dict (dictSet kvs k fill), by simp, key _ (fun q h => absurd rfl h)⟩
        · obtain ⟨k2, ks2, rfl⟩ := List.exists_cons_of_ne_nil hks
          obtain ⟨c', h1, h2⟩ := ih (freshNode k2) (pre ++ [k]) (open_fresh _ _ rfl)
          refine ⟨_, by simp [h1], key c' fun q _ hdq hu _ => ?_⟩
          cases q with
          | nil => exact absurd hdq not_diverge_nil.2
          | cons k3 q =>
            exact ⟨by simp, h2 _ hdq (uniform_tail hu) (open_fresh _ _ (uniform_head hu))⟩
      | some cur =>
        simp only
        obtain ⟨hks, ho⟩ := h cur hl
        obtain ⟨c', h1, h2⟩ := ih cur (pre ++ [k]) ho
        refine ⟨_, by simp [hks, h1], key c' fun q _ hdq hu hoo => ?_⟩
        obtain ⟨h, h'⟩ := hoo cur hl
        exact ⟨h, h2 _ hdq (uniform_tail hu) h'⟩

theorem extendAll_ok (eqv : Tree β → Tree β → Bool) : ∀ (pfs : List (List Str × Tree β)) (t : Tree β),
    pfs.Pairwise (fun a b => Diverge a.1 b.1 ∧ Uniform a.1 b.1) → (∀ pf ∈ pfs, Open t pf.1) →
    ∃ t', extendAll eqv t pfs = .ok (t', []) := by
  intro pfs
  induction pfs with
  | nil => intro t _ _; exact ⟨t, rfl⟩
  | cons pf pfs ih =>
    intro t hp ho
    obtain ⟨p, fill⟩ := pf
    rw [List.pairwise_cons] at hp
    obtain ⟨t1, h1, h2⟩ := extendOne_ok eqv fill p t [] (ho (p, fill) (by simp))
    obtain ⟨t', h3⟩ := ih t1 hp.2 (fun pf hpf => h2 _ (hp.1 pf hpf).1 (hp.1 pf hpf).2 (ho pf (by simp [hpf])))
    exact ⟨t', by simp [extendAll, h1, h3]⟩

/-- From nothing, pairwise diverging paths with uniform keys can always be created. -/
theorem extend_none_ok (eqv : Tree β → Tree β → Bool) (pfs : List (List Str × Tree β))
    (hp : pfs.Pairwise fun a b => Diverge a.1 b.1 ∧ Uniform a.1 b.1) (hne : ∀ pf ∈ pfs, pf.1 ≠ [] ∧ Proper pf.1) :
    ∃ t, extend eqv .none pfs = .ok t := by
  unfold extend
  simp only
  split
  · next ts hts =>
    exfalso
    split at hts <;> simp at hts
  · obtain ⟨t, ht⟩ := extendAll_ok eqv pfs
      (if ((pfs.map Prod.fst).filter (fun p => p ≠ [[]])).all (fun p => isDigit (p.headD [])) then .list [] else .dict []) hp (by
        intro pf hpf
        obtain ⟨h1, h2⟩ := hne pf hpf
        obtain ⟨k, ks, e⟩ := List.exists_cons_of_ne_nil h1
        split
        · next hall =>
          rw [List.all_eq_true] at hall
          have := hall pf.1 (by
            rw [List.mem_filter]
            refine ⟨List.mem_map_of_mem hpf, ?_⟩
            simp only [ne_eq, decide_not, Bool.not_eq_eq_eq_not, Bool.not_true, decide_eq_false_iff_not]
            intro e'
            exact h2 [] (by rw [e']; simp) rfl)
          rw [e] at this ⊢
          exact ⟨this, by simp⟩
        · rw [e]; intro c hc; simp at hc)
    rw [ht]
    exact ⟨t, rfl⟩

/-! ### Writing -/

/-- `p` can be written: it goes through lists and dictionaries (tuples are fine before the last step). -/
def Settable : Tree β → List Str → Prop
  | _, [] => False
  | .list ts, k :: ks => isDigit k = true ∧ ∃ c, ts[toInt k]? = some c ∧ (ks = [] ∨ Settable c ks)
  | .dict kvs, k :: ks => ks = [] ∨ ∃ c, kvs.lookup k = some c ∧ Settable c ks
  | .tuple ts, k :: ks => isDigit k = true ∧ ∃ c, ts[toInt k]? = some c ∧ Settable c ks
  | _, _ :: _ => False

theorem set_ok (v : Tree β) : ∀ (p : List Str) (t : Tree β), Proper p → Settable t p → ∃ t', set t p v = .ok t' := by
  intro p
  unfold set
  induction p with
  | nil => intro t _ h; cases t <;> simp [Settable] at h
  | cons k ks ih =>
    intro t hp h
    have hk : k ≠ [] := hp k (by simp)
    have hp' : Proper ks := fun x hx => hp x (by simp [hx])
    rw [setPath.eq_def]
    simp only [hk, false_and, if_false, Bool.false_eq_true]
    cases t with
    | leaf b => simp [Settable] at h
    | none => simp [Settable] at h
    | list ts =>
      simp only [Settable] at h
      obtain ⟨hd, c, hc, h⟩ := h
      simp only [hd, Bool.not_true, Bool.false_eq_true, if_false, hc]
      by_cases hks : ks = []
      · exact ⟨_, by rw [if_pos hks]⟩
      · obtain ⟨c', hc'⟩ := ih c hp' (h.resolve_left hks)
        exact ⟨_, by rw [if_neg hks, hc']⟩
    | tuple ts =>
      simp only [Settable] at h
      obtain ⟨hd, c, hc, h⟩ := h
      have hks : ks ≠ [] := by rintro rfl; cases c <;> simp [Settable] at h
      obtain ⟨c', hc'⟩ := ih c hp' h
      exact ⟨.tuple (ts.set (toInt k) c'), by simp [hd, hc, hks, hc']⟩
    | dict kvs =>
      simp only [Settable] at h
      by_cases hks : ks = []
      · exact ⟨.dict (dictSet kvs k v), by simp [hks]⟩
      · obtain ⟨c, hc, h⟩ := h.resolve_left hks
        obtain ⟨c', hc'⟩ := ih c hp' h
        exact ⟨.dict (dictSet kvs k c'), by simp [hks, hc, hc']⟩

theorem settable_putChild_ne {t c : Tree β} {k k' : Str} {q : List Str} (hk : ¬ SameKey k k')
    (hd : ∀ ts, t = .list ts ∨ t = .tuple ts → isDigit k = true) (h : Settable t (k' :: q)) :
    Settable (putChild t k c) (k' :: q) := by
  cases t with
  | leaf b => exact h
  | none => exact h
  | list ts =>
    simp only [Settable, putChild] at h ⊢
    obtain ⟨h1, d, h2, h3⟩ := h
    refine ⟨h1, d, ?_, h3⟩
    rw [List.getElem?_set_ne (fun e => hk (.inr ⟨hd ts (.inl rfl), h1, e⟩)), h2]
  | tuple ts =>
    simp only [Settable, putChild] at h ⊢
    obtain ⟨h1, d, h2, h3⟩ := h
    refine ⟨h1, d, ?_, h3⟩
    rw [List.getElem?_set_ne (fun e => hk (.inr ⟨hd ts (.inr rfl), h1, e⟩)), h2]
  | dict kvs =>
    simp only [Settable, putChild] at h ⊢
    rcases h with h | ⟨d, h2, h3⟩
    · exact .inl h
    · refine .inr ⟨d, ?_, h3⟩
      rw [lookup_dictSet_ne _ _ (fun e => hk (.inl e.symm)), h2]

theorem settable_putChild_self {t c c' : Tree β} {k : Str} {q : List Str} (hc : child t k = .ok c)
    (h : Settable t (k :: q)) (hq : q ≠ []) (hs : Settable c q → Settable c' q) : Settable (putChild t k c') (k :: q) := by
  cases t with
  | leaf b => exact h
  | none => exact h
  | list ts =>
    simp only [Settable, putChild] at h ⊢
    obtain ⟨h1, d, h2, h3⟩ := h
    simp only [child, h1, Bool.not_true, Bool.false_eq_true, if_false, h2, Except.ok.injEq] at hc
    subst hc
    have hlt : toInt k < ts.length := (List.getElem?_eq_some_iff.1 h2).1
    exact ⟨h1, c', by rw [List.getElem?_set_self hlt], .inr (hs (h3.resolve_left hq))⟩
  | tuple ts =>
    simp only [Settable, putChild] at h ⊢
    obtain ⟨h1, d, h2, h3⟩ := h
    simp only [child, h1, Bool.not_true, Bool.false_eq_true, if_false, h2, Except.ok.injEq] at hc
    subst hc
    have hlt : toInt k < ts.length := (List.getElem?_eq_some_iff.1 h2).1
    exact ⟨h1, c', by rw [List.getElem?_set_self hlt], hs h3⟩
  | dict kvs =>
    simp only [Settable, putChild] at h ⊢
    obtain ⟨d, h2, h3⟩ := h.resolve_left hq
    simp only [child, h2, Except.ok.injEq] at hc
    subst hc
    exact .inr ⟨c', lookup_dictSet_self _ _ _, hs h3⟩

theorem settable_set {v : Tree β} : ∀ {p q : List Str} {t t' : Tree β}, set t p v = .ok t' → Diverge p q →
    Settable t q → Settable t' q := by
  intro p
  unfold set
  induction p with
  | nil => intro q t t' _ h; exact absurd h not_diverge_nil.1
  | cons k ks ih =>
    intro q t t' h hdv hs
    cases q with
    | nil => exact absurd hdv not_diverge_nil.2
    | cons k' q =>
      have hd := digit_of_set h
      cases ks with
      | nil =>
        obtain ⟨_, rfl, _⟩ := setPath_single h
        rcases diverge_cons hdv with hk | ⟨_, hk⟩
        · exact settable_putChild_ne hk hd hs
        · exact absurd hk not_diverge_nil.1
      | cons k2 ks =>
        obtain ⟨c, c', h1, h2, rfl, -⟩ := setPath_cons h
        rcases diverge_cons hdv with hk | ⟨rfl, hk⟩
        · exact settable_putChild_ne hk hd hs
        · exact settable_putChild_self h1 hs (by rintro rfl; exact not_diverge_nil.2 hk) (ih h2 hk)

theorem hasTupleL_get {ts : List (Tree β)} (h : hasTupleL ts = false) {i : Nat} {c : Tree β} (hc : ts[i]? = some c) :
    hasTuple c = false := by
  induction ts generalizing i with
  | nil => simp at hc
  | cons t ts ih =>
    simp only [hasTupleL, Bool.or_eq_false_iff] at h
    cases i with
    | zero => simp only [List.getElem?_cons_zero, Option.some.injEq] at hc; subst hc; exact h.1
    | succ i => exact ih h.2 (by simpa using hc)

theorem hasTupleD_get {ts : List (Str × Tree β)} (h : hasTupleD ts = false) {k : Str} {c : Tree β} (hc : ts.lookup k = some c) :
    hasTuple c = false := by
  induction ts with
  | nil => simp at hc
  | cons t ts ih =>
    obtain ⟨k', t⟩ := t
    simp only [hasTupleD, Bool.or_eq_false_iff] at h
    rw [List.lookup_cons] at hc
    split at hc
    · simp only [Option.some.injEq] at hc; subst hc; exact h.1
    · exact ih h.2 hc

/-- In a tree without tuples, what can be read can be written. -/
theorem settable_of_get {v : Tree β} : ∀ {p : List Str} {t : Tree β}, p ≠ [] → Proper p → hasTuple t = false →
    get t p = .ok v → Settable t p := by
  intro p
  induction p with
  | nil => intro t h; exact absurd rfl h
  | cons k ks ih =>
    intro t _ hp ht hg
    have hk : k ≠ [] := hp k (by simp)
    have hp' : Proper ks := fun x hx => hp x (by simp [hx])
    rw [get_cons _ _ _ (fun e => hk e.1)] at hg
    cases t with
    | leaf b => simp [child] at hg
    | none => simp [child] at hg
    | tuple ts => simp [hasTuple] at ht
    | list ts =>
      simp only [child] at hg
      simp only [Settable]
      by_cases hd : isDigit k = true
      · simp only [hd, Bool.not_true, Bool.false_eq_true, if_false] at hg
        cases hc : ts[toInt k]? with
        | none => rw [hc] at hg; simp at hg
        | some c =>
          rw [hc] at hg
          refine ⟨hd, c, rfl, ?_⟩
          by_cases hks : ks = []
          · exact .inl hks
          · exact .inr (ih hks hp' (hasTupleL_get (by simpa [hasTuple] using ht) hc) hg)
      · simp [hd] at hg
    | dict kvs =>
      simp only [child] at hg
      simp only [Settable]
      cases hc : kvs.lookup k with
      | none => rw [hc] at hg; simp at hg
      | some c =>
        rw [hc] at hg
        by_cases hks : ks = []
        · exact .inl hks
        · exact .inr ⟨c, rfl, ih hks hp' (hasTupleD_get (by simpa [hasTuple] using ht) hc) hg⟩

end Verif.Tree
