import Verif.Lemmas.ExtendOk

/-! `extend` puts nothing into the tree but the fill values. -/

namespace Verif.Tree
open TreeSpec ForwardSpec

variable {β : Type}

theorem mem_dictSet {γ : Type} {kvs : List (Str × γ)} {k : Str} {v : γ} {x : Str × γ} (h : x ∈ dictSet kvs k v) :
    x ∈ kvs ∨ x = (k, v) := by
  induction kvs with
  | nil => simp only [dictSet, List.mem_singleton] at h; exact .inr h
  | cons p r ih =>
    obtain ⟨k', v'⟩ := p
    simp only [dictSet] at h
    split at h
    · next hk =>
      rcases List.mem_cons.1 h with h | h
      · subst hk; exact .inr h
      · exact .inl (List.mem_cons_of_mem _ h)
    · rcases List.mem_cons.1 h with h | h
      · exact .inl (by rw [h]; simp)
      · rcases ih h with h | h
        · exact .inl (List.mem_cons_of_mem _ h)
        · exact .inr h

theorem mem_of_lookup {γ : Type} {kvs : List (Str × γ)} {k : Str} {c : γ} (h : kvs.lookup k = some c) : (k, c) ∈ kvs := by
  induction kvs with
  | nil => simp at h
  | cons p r ih =>
    obtain ⟨k', v'⟩ := p
    rw [List.lookup_cons] at h
    split at h
    · next hk =>
      simp only [beq_iff_eq] at hk; simp only [Option.some.injEq] at h
      subst hk h; simp
    · exact List.mem_cons_of_mem _ (ih h)

theorem not_at_none {q : List ForwardSpec.Step} {b : β} : ¬ At (.none : Tree β) q b := fun h => by cases h

theorem not_at_fresh {n : Str} {q : List ForwardSpec.Step} {b : β} : ¬ At (freshNode n : Tree β) q b := by
  unfold freshNode
  split
  · intro h; cases h with | list hi _ => simp at hi
  · intro h; cases h with | dict hi _ => simp at hi

theorem at_padTo {ts : List (Tree β)} {i j : Nat} {c : Tree β} (h : (padTo ts i)[j]? = some c) :
    ts[j]? = some c ∨ c = .none := by
  rcases get?_padTo ts i j with e | ⟨_, e⟩
  · left; rw [← e, h]
  · right; rw [e] at h; cases h; rfl

theorem getD_padTo_at {ts : List (Tree β)} {i : Nat} {q : List ForwardSpec.Step} {b : β}
    (h : At ((padTo ts i).getD i .none) q b) : At (.list ts) (.idx i :: q) b := by
  rcases getD_padTo ts i with e | ⟨_, e⟩
  · exact .list e h
  · rw [e] at h; exact absurd h not_at_none

/-- New leaves below the step `k`. -/
def NewAt (fill : Tree β) (p : List Str) (q : List ForwardSpec.Step) (b : β) : Prop :=
  ∃ q' r, q = q' ++ r ∧ Spells p q' ∧ At fill r b

theorem newAt_cons {fill : Tree β} {k : Str} {ks : List Str} {s : ForwardSpec.Step} {q : List ForwardSpec.Step} {b : β}
    (hs : Spell k s) (h : NewAt fill ks q b) : NewAt fill (k :: ks) (s :: q) b := by
  obtain ⟨q', r, rfl, h1, h2⟩ := h
  exact ⟨s :: q', r, rfl, .cons hs h1, h2⟩

theorem list_at {ts : List (Tree β)} {k : Str} {ks : List Str} {c' fill : Tree β} {b : β} {q : List ForwardSpec.Step}
    (hd : isDigit k = true)
    (hc : ∀ q, At c' q b → At ((padTo ts (toInt k)).getD (toInt k) .none) q b ∨ NewAt fill ks q b)
    (ha : At (.list ((padTo ts (toInt k)).set (toInt k) c')) q b) :
    At (.list ts) q b ∨ NewAt fill (k :: ks) q b := by
  cases ha with
  | list hi ha =>
    rename_i i t q
    by_cases e : toInt k = i
    · subst e
      rw [List.getElem?_set_self (length_padTo _ _)] at hi
      cases hi
      rcases hc q ha with h | h
      · exact .inl (getD_padTo_at h)
      · exact .inr (newAt_cons (.inr ⟨hd, rfl⟩) h)
    · rw [List.getElem?_set_ne e] at hi
      rcases at_padTo hi with h | rfl
      · exact .inl (.list h ha)
      · exact absurd ha not_at_none

theorem at_list_tuple {ts : List (Tree β)} {q : List ForwardSpec.Step} {b : β} (h : At (.list ts) q b) : At (.tuple ts) q b := by
  cases h with
  | list h1 h2 => exact .tuple h1 h2

theorem at_tuple_list {ts : List (Tree β)} {q : List ForwardSpec.Step} {b : β} (h : At (.tuple ts) q b) : At (.list ts) q b := by
  cases h with
  | tuple h1 h2 => exact .list h1 h2

/-- Every leaf of the new tree was in the old tree or comes from the fill value. -/
theorem extendOne_at {eqv : Tree β → Tree β → Bool} {fill : Tree β} {b : β} :
    ∀ {p : List Str} {t t' : Tree β} {pre : List Str} {rec : List (List Str)} {q : List ForwardSpec.Step},
      extendOne eqv fill t pre p = .ok (t', rec) → At t' q b → At t q b ∨ NewAt fill p q b := by
  intro p
  induction p with
  | nil =>
    intro t t' pre rec q h ha
    rw [extendOne.eq_def] at h
    simp only [Except.ok.injEq, Prod.mk.injEq] at h
    obtain ⟨rfl, -⟩ := h
    exact .inl ha
  | cons k ks ih =>
    intro t t' pre rec q h ha
    have hlist : ∀ (ts : List (Tree β)) (r0 : List (List Str)),
        (if !isDigit k then (.error .keyError : Except PyErr (Tree β × List (List Str)))
        else
        if isNone ((padTo ts (toInt k)).getD (toInt k) .none) then
            if ks = [] then .ok (.list ((padTo ts (toInt k)).set (toInt k) (if ks = [] then fill else freshNode (ks.headD []))), r0)
            else match extendOne eqv fill (if ks = [] then fill else freshNode (ks.headD [])) (pre ++ [k]) ks with
              | .ok (c, rec) => .ok (.list ((padTo ts (toInt k)).set (toInt k) c), r0 ++ rec)
              | .error e => .error e
          else if ks = [] then
            if !eqv ((padTo ts (toInt k)).getD (toInt k) .none) fill && !isNone fill then .error .valueError
            else .ok (.list (padTo ts (toInt k)), r0)
          else match extendOne eqv fill ((padTo ts (toInt k)).getD (toInt k) .none) (pre ++ [k]) ks with
            | .ok (c, rec) => .ok (.list ((padTo ts (toInt k)).set (toInt k) c), r0 ++ rec)
            | .error e => .error e) = .ok (t', rec) → At (.list ts) q b ∨ NewAt fill (k :: ks) q b := by
      intro ts r0 h
      by_cases hd : isDigit k = true
      · simp only [hd, Bool.not_true, Bool.false_eq_true, if_false] at h
        split at h
        · by_cases hks : ks = []
          · subst hks
            simp only [if_true, Except.ok.injEq, Prod.mk.injEq] at h
            obtain ⟨rfl, -⟩ := h
            exact list_at hd (fun q hq => .inr ⟨[], q, rfl, .nil, hq⟩) ha
          · simp only [if_neg hks] at h
            split at h
            · next c rec' hc =>
              simp only [Except.ok.injEq, Prod.mk.injEq] at h
              obtain ⟨rfl, -⟩ := h
              exact list_at hd (fun q hq => (ih hc hq).elim (fun h => absurd h not_at_fresh) .inr) ha
            · simp at h
        · by_cases hks : ks = []
          · simp only [if_pos hks] at h
            split at h
            · simp at h
            · simp only [Except.ok.injEq, Prod.mk.injEq] at h
              obtain ⟨rfl, -⟩ := h
              cases ha with
              | list hi ha =>
                rcases at_padTo hi with h | rfl
                · exact .inl (.list h ha)
                · exact absurd ha not_at_none
          · simp only [if_neg hks] at h
            split at h
            · next c rec' hc =>
              simp only [Except.ok.injEq, Prod.mk.injEq] at h
              obtain ⟨rfl, -⟩ := h
              exact list_at hd (fun q hq => ih hc hq) ha
            · simp at h
      · simp [hd] at h
    rw [extendOne.eq_def] at h
    simp only at h
    cases t with
    | leaf b => simp at h
    | none => simp at h
    | list ts =>
      simp only [ne_eq, not_true_eq_false, false_and, if_false] at h
      exact hlist ts [] h
    | tuple ts =>
      simp only at h
      split at h
      · simp at h
      · exact (hlist ts [pre] h).imp_left at_list_tuple
    | dict kvs =>
      simp only [ne_eq, not_true_eq_false, false_and, if_false] at h
      have hdict : ∀ c', (∀ q, At c' q b → (∃ c, kvs.lookup k = some c ∧ At c q b) ∨ NewAt fill ks q b) →
          At (.dict (dictSet kvs k c')) q b → At (.dict kvs) q b ∨ NewAt fill (k :: ks) q b := by
        intro c' hc ha
        cases ha with
        | dict hi ha =>
          rcases mem_dictSet hi with h | h
          · exact .inl (.dict h ha)
          · cases h
            rcases hc _ ha with ⟨c, h1, h2⟩ | h
            · exact .inl (.dict (mem_of_lookup h1) h2)
            · exact .inr (newAt_cons (.inl rfl) h)
      cases hl : kvs.lookup k with
      | none =>
        rw [hl] at h
        simp only at h
        by_cases hks : ks = []
        · subst hks
          simp only [if_true, Except.ok.injEq, Prod.mk.injEq] at h
          obtain ⟨rfl, -⟩ := h
          exact hdict _ (fun q hq => .inr ⟨[], q, rfl, .nil, hq⟩) ha
        · simp only [if_neg hks] at h
          split at h
          · next c rec' hc =>
            simp only [Except.ok.injEq, Prod.mk.injEq] at h
            obtain ⟨rfl, -⟩ := h
            exact hdict _ (fun q hq => (ih hc hq).elim (fun h => absurd h not_at_fresh) .inr) ha
          · simp at h
      | some cur =>
        rw [hl] at h
        simp only at h
        by_cases hks : ks = []
        · simp only [if_pos hks] at h
          split at h
          · simp at h
          · simp only [Except.ok.injEq, Prod.mk.injEq] at h
            obtain ⟨rfl, -⟩ := h
            exact .inl ha
        · simp only [if_neg hks] at h
          split at h
          · next c rec' hc =>
            simp only [Except.ok.injEq, Prod.mk.injEq] at h
            obtain ⟨rfl, -⟩ := h
            exact hdict _ (fun q hq => (ih hc hq).imp_left fun h => ⟨cur, hl, h⟩) ha
          · simp at h

theorem extendAll_at {eqv : Tree β → Tree β → Bool} {b : β} : ∀ {pfs : List (List Str × Tree β)} {t t' : Tree β}
    {rec : List (List Str)} {q : List ForwardSpec.Step}, extendAll eqv t pfs = .ok (t', rec) → At t' q b →
    At t q b ∨ ∃ pf ∈ pfs, NewAt pf.2 pf.1 q b := by
  intro pfs
  induction pfs with
  | nil =>
    intro t t' rec q h ha
    simp only [extendAll, Except.ok.injEq, Prod.mk.injEq] at h
    obtain ⟨rfl, -⟩ := h
    exact .inl ha
  | cons pf pfs ih =>
    intro t t' rec q h ha
    obtain ⟨p, fill⟩ := pf
    simp only [extendAll] at h
    split at h
    · simp at h
    · next t1 r1 h1 =>
      split at h
      · simp at h
      · next t2 r2 h2 =>
        simp only [Except.ok.injEq, Prod.mk.injEq] at h
        obtain ⟨rfl, -⟩ := h
        rcases ih h2 ha with h | ⟨pf, hpf, h⟩
        · rcases extendOne_at h1 h with h | h
          · exact .inl h
          · exact .inr ⟨_, List.mem_cons_self, h⟩
        · exact .inr ⟨pf, List.mem_cons_of_mem _ hpf, h⟩

mutual
theorem at_detuple : ∀ (t : Tree β) (q : List ForwardSpec.Step) (b : β), At (detuple t) q b ↔ At t q b
  | .leaf _, _, _ => Iff.rfl
  | .none, _, _ => Iff.rfl
  | .list ts, q, b => at_detupleL ts q b
  | .tuple ts, q, b => by
    constructor
    · exact fun h => at_list_tuple ((at_detupleL ts q b).1 h)
    · exact fun h => (at_detupleL ts q b).2 (at_tuple_list h)
  | .dict kvs, q, b => at_detupleD kvs q b
theorem at_detupleL : ∀ (ts : List (Tree β)) (q : List ForwardSpec.Step) (b : β),
    At (.list (detupleL ts)) q b ↔ At (.list ts) q b
  | [], _, _ => Iff.rfl
  | t :: ts, q, b => by
    have h1 := at_detuple t
    have h2 := at_detupleL ts
    constructor
    · intro h; cases h with
      | list hi ha =>
        rename_i i u q
        cases i with
        | zero =>
          simp only [detupleL, List.getElem?_cons_zero, Option.some.injEq] at hi
          subst hi
          exact .list rfl ((h1 q b).1 ha)
        | succ i =>
          cases (h2 (.idx i :: q) b).1 (.list (by simpa [detupleL] using hi) ha) with
          | list hi' ha' => exact .list (by simpa using hi') ha'
    · intro h; cases h with
      | list hi ha =>
        rename_i i u q
        cases i with
        | zero =>
          simp only [List.getElem?_cons_zero, Option.some.injEq] at hi
          subst hi
          exact .list rfl ((h1 q b).2 ha)
        | succ i =>
          cases (h2 (.idx i :: q) b).2 (.list (by simpa using hi) ha) with
          | list hi' ha' => exact .list (by simpa [detupleL] using hi') ha'
theorem at_detupleD : ∀ (ts : List (Str × Tree β)) (q : List ForwardSpec.Step) (b : β),
    At (.dict (detupleD ts)) q b ↔ At (.dict ts) q b
  | [], _, _ => Iff.rfl
  | (k, t) :: ts, q, b => by
    have h1 := at_detuple t
    have h2 := at_detupleD ts
    constructor
    · intro h; cases h with
      | dict hi ha =>
        rename_i k' u q
        simp only [detupleD, List.mem_cons] at hi
        rcases hi with e | hi
        · cases e
          exact .dict List.mem_cons_self ((h1 q b).1 ha)
        · cases (h2 (.key k' :: q) b).1 (.dict hi ha) with
          | dict hi' ha' => exact .dict (List.mem_cons_of_mem _ hi') ha'
    · intro h; cases h with
      | dict hi ha =>
        rename_i k' u q
        rcases List.mem_cons.1 hi with e | hi
        · cases e
          exact .dict (by simp [detupleD]) ((h1 q b).2 ha)
        · cases (h2 (.key k' :: q) b).2 (.dict hi ha) with
          | dict hi' ha' => exact .dict (by simp [detupleD, hi']) ha'
end

/-- From nothing, `extend` builds a tree that contains only the fill values. -/
theorem extend_none_at {eqv : Tree β → Tree β → Bool} {pfs : List (List Str × Tree β)} {t : Tree β} {b : β}
    {q : List ForwardSpec.Step} (h : extend eqv .none pfs = .ok t) (ha : At t q b) : ∃ pf ∈ pfs, NewAt pf.2 pf.1 q b := by
  unfold extend at h
  simp only at h
  have hb : ∀ bb : Bool, ¬ At (if bb then .list [] else .dict [] : Tree β) q b := by
    intro bb h
    cases bb
    · cases h with | dict h1 h2 => simp at h1
    · cases h with | list h1 h2 => simp at h1
  split at h
  · next ts hts => exfalso; split at hts <;> simp at hts
  · split at h
    · simp at h
    · next t1 rec h1 =>
      have hd := detuple_restore h
      have ha1 : At t1 q b := (at_detuple _ _ _).1 (hd ▸ (at_detuple _ _ _).2 ha)
      rcases extendAll_at h1 ha1 with h | h
      · exact absurd h (hb _)
      · exact h

/-- Reading a node places its leaves below it. -/
theorem at_of_get {q : List ForwardSpec.Step} {b : β} : ∀ {p : List Str} {t n : Tree β}, Proper p → get t p = .ok n → At n q b →
    ∃ q', Spells p q' ∧ At t (q' ++ q) b := by
  intro p
  induction p with
  | nil =>
    intro t n _ h ha
    simp only [get_nil, Except.ok.injEq] at h
    subst h
    exact ⟨[], .nil, ha⟩
  | cons k ks ih =>
    intro t n hp h ha
    rw [get_cons _ _ _ (fun e => hp k (by simp) e.1)] at h
    split at h
    · next c hc =>
      obtain ⟨q', h1, h2⟩ := ih (fun x hx => hp x (by simp [hx])) h ha
      cases t with
      | leaf b => simp [child] at hc
      | none => simp [child] at hc
      | list ts =>
        simp only [child] at hc
        split at hc
        · simp at hc
        · next hd =>
          split at hc
          · next c' hc' =>
            simp only [Except.ok.injEq] at hc; subst hc
            exact ⟨.idx (toInt k) :: q', .cons (.inr ⟨by simpa using hd, rfl⟩) h1, .list hc' h2⟩
          · simp at hc
      | tuple ts =>
        simp only [child] at hc
        split at hc
        · simp at hc
        · next hd =>
          split at hc
          · next c' hc' =>
            simp only [Except.ok.injEq] at hc; subst hc
            exact ⟨.idx (toInt k) :: q', .cons (.inr ⟨by simpa using hd, rfl⟩) h1, .tuple hc' h2⟩
          · simp at hc
      | dict kvs =>
        simp only [child] at hc
        split at hc
        · next c' hc' =>
          simp only [Except.ok.injEq] at hc; subst hc
          exact ⟨.key k :: q', .cons (.inl rfl) h1, .dict (mem_of_lookup hc') h2⟩
        · simp at hc
    · simp at h

end Verif.Tree
