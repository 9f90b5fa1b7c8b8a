import Verif.Lemmas.Tree

namespace Verif
open TreeSpec
variable {β : Type}

namespace Tree

theorem getElem?_padTo (ts : List (Tree β)) (i j : Nat) (c : Tree β) (h : ts[j]? = some c) :
    (padTo ts i)[j]? = some c := by
  unfold padTo
  have hj : j < ts.length := by
    by_contra hlt
    rw [List.getElem?_eq_none (by omega)] at h
    simp at h
  rw [List.getElem?_append_left hj, h]

theorem length_padTo (ts : List (Tree β)) (i : Nat) : i < (padTo ts i).length := by
  unfold padTo; simp; omega

theorem getD_padTo (ts : List (Tree β)) (i : Nat) :
    (ts[i]? = some ((padTo ts i).getD i .none)) ∨ (ts[i]? = Option.none ∧ (padTo ts i).getD i .none = .none) := by
  by_cases h : i < ts.length
  · left
    have h1 : ts[i]? = some ts[i] := List.getElem?_eq_getElem h
    have := getElem?_padTo ts i i _ h1
    rw [List.getD_eq_getElem?_getD, this, h1]; rfl
  · right
    refine ⟨List.getElem?_eq_none (by omega), ?_⟩
    unfold padTo
    rw [List.getD_eq_getElem?_getD, List.getElem?_append_right (by omega)]
    rw [List.getElem?_replicate]
    split <;> rfl

theorem isNone_iff (t : Tree β) : isNone t = true ↔ t = .none := by
  cases t <;> simp [isNone]

/-- What one level of the walk does to the children of the current node. -/
structure Step (eqv : Tree β → Tree β → Bool) (fill : Tree β) (t : Tree β) (pre : List Str) (k : Str) (ks : List Str)
    (t' : Tree β) (rec : List (List Str)) : Prop where
  other : ∀ q c, ¬ SameKey k q → child t q = .ok c → child t' q = .ok c
  aliasKey : ∀ q, (∀ c, child t q = .ok c → child t' q = .ok c) ∨ (child t q = child t k ∧ child t' q = child t' k)
  last : ks = [] → (rec = [] ∨ rec = [pre]) ∧ ∃ c', child t' k = .ok c' ∧
    ((c' = fill ∧ ∀ c, child t k = .ok c → c = .none) ∨
      (child t k = .ok c' ∧ (eqv c' fill = true ∨ fill = .none)))
  inner : ks ≠ [] → ∃ c' cur rec', child t' k = .ok c' ∧
    extendOne eqv fill cur (pre ++ [k]) ks = .ok (c', rec') ∧ (rec = rec' ∨ rec = pre :: rec') ∧
    (child t k = .ok cur ∨ (cur = freshNode (ks.headD []) ∧ ∀ c, child t k = .ok c → c = .none))

theorem step_list (eqv : Tree β → Tree β → Bool) (fill : Tree β) (t : Tree β) (ts : List (Tree β)) (pre : List Str)
    (k : Str) (ks : List Str) (hchild : ∀ q, child t q = child (.list ts) q) (r0 : List (List Str))
    (hr0 : r0 = [] ∨ r0 = [pre]) (t' : Tree β) (rec : List (List Str))
    (h : (if !isDigit k then (.error .keyError : Except PyErr (Tree β × List (List Str)))
      else
        let i := toInt k
        let ts' := padTo ts i
        let cur := ts'.getD i .none
        if isNone cur then
          let new := if ks = [] then fill else freshNode (ks.headD [])
          if ks = [] then .ok (.list (ts'.set i new), r0)
          else match extendOne eqv fill new (pre ++ [k]) ks with
            | .ok (c, rec) => .ok (.list (ts'.set i c), r0 ++ rec)
            | .error e => .error e
        else if ks = [] then
          if !eqv cur fill && !isNone fill then .error .valueError
          else .ok (.list ts', r0)
        else match extendOne eqv fill cur (pre ++ [k]) ks with
          | .ok (c, rec) => .ok (.list (ts'.set i c), r0 ++ rec)
          | .error e => .error e) = .ok (t', rec)) :
    Step eqv fill t pre k ks t' rec := by
  by_cases hd : isDigit k = true
  swap
  · have hd' : isDigit k = false := by simpa using hd
    simp [hd'] at h
  simp only [hd, Bool.not_true, Bool.false_eq_true, if_false] at h
  have hlen := length_padTo ts (toInt k)
  have hck : child t k = match ts[toInt k]? with
      | some c => .ok c
      | .none => .error .indexError := by rw [hchild]; simp only [child, hd]; cases ts[toInt k]? <;> simp
  -- reading any child of `list (padTo .. set ..)`
  have hother : ∀ (c0 : Tree β) (q : Str) (c : Tree β), ¬ SameKey k q → child t q = .ok c →
      child (.list ((padTo ts (toInt k)).set (toInt k) c0)) q = .ok c := by
    intro c0 q c hs hq
    rw [hchild] at hq
    simp only [child] at hq ⊢
    by_cases hdq : isDigit q = true
    · simp only [hdq, Bool.not_true, Bool.false_eq_true, if_false] at hq ⊢
      have hne : toInt k ≠ toInt q := fun e => hs (.inr ⟨hd, hdq, e⟩)
      rw [List.getElem?_set_ne hne]
      cases hc : ts[toInt q]? with
      | none => rw [hc] at hq; simp at hq
      | some c1 => rw [hc] at hq; rw [getElem?_padTo _ _ _ _ hc]; exact hq
    · have hdq' : isDigit q = false := by simpa using hdq
      simp [hdq'] at hq
  have halias : ∀ (c0 : Tree β) (q : Str),
      (∀ c, child t q = .ok c → child (.list ((padTo ts (toInt k)).set (toInt k) c0)) q = .ok c) ∨
      (child t q = child t k ∧ child (.list ((padTo ts (toInt k)).set (toInt k) c0)) q
        = child (.list ((padTo ts (toInt k)).set (toInt k) c0)) k) := by
    intro c0 q
    by_cases hs : SameKey k q
    · right
      rw [hchild, hchild]
      rcases hs with rfl | ⟨_, h2, h3⟩
      · exact ⟨rfl, rfl⟩
      · simp [child, hd, h2, h3]
    · exact .inl (fun c hc => hother c0 q c hs hc)
  have hself : ∀ c0, child (.list ((padTo ts (toInt k)).set (toInt k) c0)) k = .ok c0 := by
    intro c0
    simp [child, hd, hlen]
  have hcur := getD_padTo ts (toInt k)
  generalize hcurdef : (padTo ts (toInt k)).getD (toInt k) .none = cur at h hcur
  have hset_cur : (padTo ts (toInt k)).set (toInt k) cur = padTo ts (toInt k) := by
    rw [← hcurdef, List.getD_eq_getElem?_getD, List.getElem?_eq_getElem hlen]
    simp
  -- the old child, when it exists, is `cur`
  have hold : ∀ c, child t k = .ok c → c = cur := by
    intro c hc
    rw [hck] at hc
    rcases hcur with h1 | ⟨h1, _⟩
    · rw [h1] at hc; simpa using hc.symm
    · rw [h1] at hc; simp at hc
  by_cases hn : isNone cur = true
  · rw [if_pos hn] at h
    have hcn : cur = .none := (isNone_iff _).1 hn
    by_cases hks : ks = []
    · simp only [hks, if_true, Except.ok.injEq, Prod.mk.injEq] at h
      obtain ⟨rfl, rfl⟩ := h
      refine ⟨hother _, halias _, fun _ => ⟨hr0, fill, hself _, .inl ⟨rfl, fun c hc => (hold c hc).trans hcn⟩⟩,
        fun hne => absurd hks hne⟩
    · simp only [hks, if_false] at h
      split at h
      · next c' rec' he =>
        simp only [Except.ok.injEq, Prod.mk.injEq] at h
        obtain ⟨rfl, rfl⟩ := h
        refine ⟨hother _, halias _, fun e => absurd e hks, fun _ => ⟨c', _, rec', hself _, he, ?_,
          .inr ⟨rfl, fun c hc => (hold c hc).trans hcn⟩⟩⟩
        rcases hr0 with rfl | rfl
        · exact .inl rfl
        · exact .inr rfl
      · simp at h
  · rw [if_neg hn] at h
    have hcn : cur ≠ .none := fun e => hn ((isNone_iff _).2 e)
    have hck' : child t k = .ok cur := by
      rw [hck]
      rcases hcur with h1 | ⟨_, h1⟩
      · rw [h1]
      · exact absurd h1 hcn
    by_cases hks : ks = []
    · simp only [hks, if_true] at h
      split at h
      · simp at h
      · next hc =>
        simp only [Except.ok.injEq, Prod.mk.injEq] at h
        obtain ⟨rfl, rfl⟩ := h
        have e1 := hother cur
        have e2 := halias cur
        have e3 := hself cur
        rw [hset_cur] at e1 e2 e3
        refine ⟨e1, e2, fun _ => ⟨hr0, cur, e3, .inr ⟨hck', ?_⟩⟩, fun hne => absurd hks hne⟩
        simp only [Bool.and_eq_true, Bool.not_eq_true', not_and, Bool.not_eq_false] at hc
        by_cases he : eqv cur fill = true
        · exact .inl he
        · exact .inr ((isNone_iff _).1 (hc (by simpa using he)))
    · simp only [hks, if_false] at h
      split at h
      · next c' rec' he =>
        simp only [Except.ok.injEq, Prod.mk.injEq] at h
        obtain ⟨rfl, rfl⟩ := h
        refine ⟨hother _, halias _, fun e => absurd e hks, fun _ => ⟨c', _, rec', hself _, he, ?_, .inl hck'⟩⟩
        rcases hr0 with rfl | rfl
        · exact .inl rfl
        · exact .inr rfl
      · simp at h

theorem step_dict (eqv : Tree β → Tree β → Bool) (fill : Tree β) (kvs : List (Str × Tree β)) (pre : List Str)
    (k : Str) (ks : List Str) (t' : Tree β) (rec : List (List Str))
    (h : (match kvs.lookup k with
      | .none =>
        if ks = [] then (.ok (.dict (dictSet kvs k fill), []) : Except PyErr (Tree β × List (List Str)))
        else match extendOne eqv fill (freshNode (ks.headD [])) (pre ++ [k]) ks with
          | .ok (c, rec) => .ok (.dict (dictSet kvs k c), [] ++ rec)
          | .error e => .error e
      | some cur =>
        if ks = [] then
          if !eqv cur fill && !isNone fill then .error .valueError
          else .ok (.dict kvs, [])
        else match extendOne eqv fill cur (pre ++ [k]) ks with
          | .ok (c, rec) => .ok (.dict (dictSet kvs k c), [] ++ rec)
          | .error e => .error e) = .ok (t', rec)) :
    Step eqv fill (.dict kvs) pre k ks t' rec := by
  have hother : ∀ (c0 : Tree β) (q : Str) (c : Tree β), q ≠ k → child (.dict kvs) q = .ok c →
      child (.dict (dictSet kvs k c0)) q = .ok c := by
    intro c0 q c hs hq
    simpa [child, lookup_dictSet_ne _ _ hs] using hq
  have hother' : ∀ (c0 : Tree β) (q : Str) (c : Tree β), ¬ SameKey k q → child (.dict kvs) q = .ok c →
      child (.dict (dictSet kvs k c0)) q = .ok c := by
    intro c0 q c hs hq
    exact hother c0 q c (fun e => hs (.inl e.symm)) hq
  have halias : ∀ (c0 : Tree β) (q : Str),
      (∀ c, child (.dict kvs) q = .ok c → child (.dict (dictSet kvs k c0)) q = .ok c) ∨
      (child (.dict kvs) q = child (.dict kvs) k ∧ child (.dict (dictSet kvs k c0)) q
        = child (.dict (dictSet kvs k c0)) k) := by
    intro c0 q
    by_cases hs : q = k
    · subst hs; exact .inr ⟨rfl, rfl⟩
    · exact .inl (fun c hc => hother c0 q c hs hc)
  have hself : ∀ c0, child (.dict (dictSet kvs k c0)) k = .ok c0 := by
    intro c0; simp [child, lookup_dictSet_self]
  cases hl : kvs.lookup k with
  | none =>
    have hno : ∀ c, child (.dict kvs) k = .ok c → c = .none := by
      intro c hc; simp [child, hl] at hc
    rw [hl] at h
    by_cases hks : ks = []
    · simp only [hks, if_true, Except.ok.injEq, Prod.mk.injEq] at h
      obtain ⟨rfl, rfl⟩ := h
      exact ⟨hother' _, halias _, fun _ => ⟨.inl rfl, fill, hself _, .inl ⟨rfl, hno⟩⟩, fun hne => absurd hks hne⟩
    · simp only [hks, if_false] at h
      split at h
      · next c' rec' he =>
        simp only [Except.ok.injEq, Prod.mk.injEq] at h
        obtain ⟨rfl, rfl⟩ := h
        exact ⟨hother' _, halias _, fun e => absurd e hks, fun _ => ⟨c', _, rec', hself _, he, .inl rfl, .inr ⟨rfl, hno⟩⟩⟩
      · simp at h
  | some cur =>
    have hck : child (.dict kvs) k = .ok cur := by simp [child, hl]
    rw [hl] at h
    by_cases hks : ks = []
    · simp only [hks, if_true] at h
      split at h
      · simp at h
      · next hc =>
        simp only [Except.ok.injEq, Prod.mk.injEq] at h
        obtain ⟨rfl, rfl⟩ := h
        refine ⟨fun _ _ _ h => h, fun _ => .inl (fun _ h => h), fun _ => ⟨.inl rfl, cur, hck, .inr ⟨hck, ?_⟩⟩,
          fun hne => absurd hks hne⟩
        simp only [Bool.and_eq_true, Bool.not_eq_true', not_and, Bool.not_eq_false] at hc
        by_cases he : eqv cur fill = true
        · exact .inl he
        · exact .inr ((isNone_iff _).1 (hc (by simpa using he)))
    · simp only [hks, if_false] at h
      split at h
      · next c' rec' he =>
        simp only [Except.ok.injEq, Prod.mk.injEq] at h
        obtain ⟨rfl, rfl⟩ := h
        exact ⟨hother' _, halias _, fun e => absurd e hks, fun _ => ⟨c', _, rec', hself _, he, .inl rfl, .inl hck⟩⟩
      · simp at h

theorem extend_step {eqv : Tree β → Tree β → Bool} {fill t : Tree β} {pre : List Str} {k : Str} {ks : List Str}
    {t' : Tree β} {rec : List (List Str)} (h : extendOne eqv fill t pre (k :: ks) = .ok (t', rec)) :
    Step eqv fill t pre k ks t' rec := by
  rw [extendOne.eq_def] at h
  simp only at h
  cases t with
  | leaf b => simp at h
  | none => simp at h
  | list ts =>
    simp only [ne_eq, not_true_eq_false, false_and, if_false] at h
    exact step_list eqv fill _ ts pre k ks (fun _ => rfl) [] (.inl rfl) t' rec h
  | tuple ts =>
    simp only at h
    split at h
    · simp at h
    · exact step_list eqv fill (.tuple ts) ts pre k ks (fun _ => rfl) [pre] (.inr rfl) t' rec h
  | dict kvs =>
    simp only [ne_eq, not_true_eq_false, false_and, if_false] at h
    exact step_dict eqv fill kvs pre k ks t' rec h

theorem headD_cons_ne {k : Str} {ks : List Str} (hp : Proper (k :: ks)) : ¬ (k = [] ∧ ks = []) :=
  fun e => hp k (by simp) e.1

/-- The slot that was asked for holds the fill value (or an equal value that was there before). -/
theorem extendOne_read {eqv : Tree β → Tree β → Bool} {fill : Tree β} :
    ∀ {p : List Str} {t t' : Tree β} {pre : List Str} {rec : List (List Str)}, p ≠ [] → Proper p →
      extendOne eqv fill t pre p = .ok (t', rec) →
      ∃ v, get t' p = .ok v ∧ (v = fill ∨ eqv v fill = true ∨ fill = .none) := by
  intro p
  induction p with
  | nil => intro _ _ _ _ h; exact absurd rfl h
  | cons k ks ih =>
    intro t t' pre rec _ hp h
    have hs := extend_step h
    rw [get_cons _ _ _ (headD_cons_ne hp)]
    by_cases hks : ks = []
    · obtain ⟨_, c', h1, h2⟩ := hs.last hks
      rw [h1]
      subst hks
      refine ⟨c', by simp, ?_⟩
      rcases h2 with h2 | h2
      · exact .inl h2.1
      · exact .inr h2.2
    · obtain ⟨c', cur, rec', h1, h2, _, _⟩ := hs.inner hks
      rw [h1]
      exact ih hks (fun x hx => hp x (List.mem_cons_of_mem _ hx)) h2

theorem child_freshNode (n : Str) (q : Str) (c : Tree β) : child (freshNode n) q ≠ .ok c := by
  unfold freshNode
  split
  · simp only [child]; split <;> simp
  · simp [child]

/-- Existing leaves stay. -/
theorem extendOne_leaf {eqv : Tree β → Tree β → Bool} {fill : Tree β} {b : β} :
    ∀ {p : List Str} {t t' : Tree β} {pre : List Str} {rec : List (List Str)} {q : List Str},
      extendOne eqv fill t pre p = .ok (t', rec) → get t q = .ok (.leaf b) → get t' q = .ok (.leaf b) := by
  intro p
  induction p with
  | nil =>
    intro t t' pre rec q h hq
    simp only [extendOne, Except.ok.injEq, Prod.mk.injEq] at h
    obtain ⟨rfl, rfl⟩ := h
    exact hq
  | cons k ks ih =>
    intro t t' pre rec q h hq
    have hs := extend_step h
    cases q with
    | nil => simp only [get_nil, Except.ok.injEq] at hq; subst hq; simp [extendOne] at h
    | cons x xs =>
      by_cases hx : x = [] ∧ xs = []
      · obtain ⟨rfl, rfl⟩ := hx
        simp only [get_empty, Except.ok.injEq] at hq; subst hq; simp [extendOne] at h
      · rw [get_cons _ _ _ hx] at hq ⊢
        cases hc : child t x with
        | error e => rw [hc] at hq; simp at hq
        | ok c =>
          rw [hc] at hq
          simp only at hq
          rcases hs.aliasKey x with h1 | ⟨h1, h2⟩
          · rw [h1 c hc]; exact hq
          · rw [h2]
            rw [hc] at h1
            by_cases hks : ks = []
            · obtain ⟨_, c', h3, h4⟩ := hs.last hks
              rw [h3]
              rcases h4 with ⟨_, h4⟩ | ⟨h4, _⟩
              · have : c = .none := h4 c h1.symm
                subst this
                exfalso
                cases xs with
                | nil => simp at hq
                | cons y ys =>
                  by_cases hy : y = [] ∧ ys = []
                  · obtain ⟨rfl, rfl⟩ := hy; simp at hq
                  · rw [get_cons _ _ _ hy] at hq; simp [child] at hq
              · rw [h4] at h1
                simp only [Except.ok.injEq] at h1
                rw [← h1]; exact hq
            · obtain ⟨c', cur, rec', h3, h4, _, h5⟩ := hs.inner hks
              rw [h3]
              rcases h5 with h5 | ⟨_, h5⟩
              · rw [h5] at h1
                simp only [Except.ok.injEq] at h1
                subst h1
                exact ih h4 hq
              · have : c = .none := h5 c h1.symm
                subst this
                exfalso
                cases xs with
                | nil => simp at hq
                | cons y ys =>
                  by_cases hy : y = [] ∧ ys = []
                  · obtain ⟨rfl, rfl⟩ := hy; simp at hq
                  · rw [get_cons _ _ _ hy] at hq; simp [child] at hq

/-- Successful reads at a diverging path are unchanged. -/
theorem extendOne_frame {eqv : Tree β → Tree β → Bool} {fill v : Tree β} {k₁ k₂ : Str} {r₁ r₂ : List Str}
    (hk : ¬ SameKey k₁ k₂) :
    ∀ {c : List Str} {t t' : Tree β} {pre : List Str} {rec : List (List Str)},
      Proper (c ++ k₂ :: r₂) → extendOne eqv fill t pre (c ++ k₁ :: r₁) = .ok (t', rec) →
      get t (c ++ k₂ :: r₂) = .ok v → get t' (c ++ k₂ :: r₂) = .ok v := by
  intro c
  induction c with
  | nil =>
    intro t t' pre rec hp h hg
    simp only [List.nil_append] at hp h hg ⊢
    have hs := extend_step h
    rw [get_cons _ _ _ (headD_cons_ne hp)] at hg ⊢
    cases hc : child t k₂ with
    | error e => rw [hc] at hg; simp at hg
    | ok c => rw [hc] at hg; rw [hs.other k₂ c hk hc]; exact hg
  | cons a c ih =>
    intro t t' pre rec hp h hg
    simp only [List.cons_append] at hp h hg ⊢
    have hs := extend_step h
    rw [get_cons _ _ _ (headD_cons_ne hp)] at hg ⊢
    have hne : c ++ k₁ :: r₁ ≠ [] := by simp
    have hp' : Proper (c ++ k₂ :: r₂) := fun x hx => hp x (List.mem_cons_of_mem _ hx)
    obtain ⟨c', cur, rec', h3, h4, _, h5⟩ := hs.inner hne
    cases hc : child t a with
    | error e => rw [hc] at hg; simp at hg
    | ok d =>
      rw [hc] at hg
      simp only at hg
      rw [h3]
      rcases h5 with h5 | ⟨_, h5⟩
      · rw [hc] at h5
        simp only [Except.ok.injEq] at h5
        subst h5
        exact ih hp' h4 hg
      · have : d = .none := h5 d hc
        subst this
        exfalso
        have hz : ∃ y ys, c ++ k₂ :: r₂ = y :: ys := by
          cases c with
          | nil => exact ⟨_, _, rfl⟩
          | cons y ys => exact ⟨_, _, rfl⟩
        obtain ⟨y, ys, hz⟩ := hz
        rw [hz] at hg hp'
        rw [get_cons _ _ _ (headD_cons_ne hp')] at hg
        simp [child] at hg

/-- The recorded tuple paths are proper beginnings of the path walked. -/
theorem extendOne_rec {eqv : Tree β → Tree β → Bool} {fill : Tree β} :
    ∀ {p : List Str} {t t' : Tree β} {pre : List Str} {rec : List (List Str)},
      extendOne eqv fill t pre p = .ok (t', rec) → ∀ r ∈ rec, ∃ a k ks, p = a ++ k :: ks ∧ r = pre ++ a := by
  intro p
  induction p with
  | nil =>
    intro t t' pre rec h r hr
    simp only [extendOne, Except.ok.injEq, Prod.mk.injEq] at h
    obtain ⟨_, rfl⟩ := h
    simp at hr
  | cons k ks ih =>
    intro t t' pre rec h r hr
    have hs := extend_step h
    by_cases hks : ks = []
    · obtain ⟨h1, _⟩ := hs.last hks
      rcases h1 with rfl | rfl
      · simp at hr
      · simp only [List.mem_singleton] at hr
        exact ⟨[], k, ks, rfl, by simp [hr]⟩
    · obtain ⟨c', cur, rec', _, h4, h5, _⟩ := hs.inner hks
      have hrec : ∀ r ∈ rec', ∃ a k0 ks0, k :: ks = a ++ k0 :: ks0 ∧ r = pre ++ a := by
        intro r hr
        obtain ⟨a, k0, ks0, e1, e2⟩ := ih h4 r hr
        exact ⟨k :: a, k0, ks0, by simp [e1], by simp [e2]⟩
      rcases h5 with rfl | rfl
      · exact hrec r hr
      · rcases List.mem_cons.1 hr with rfl | hr
        · exact ⟨[], k, ks, rfl, by simp⟩
        · exact hrec r hr

theorem sameKey_symm {a b : Str} (h : SameKey a b) : SameKey b a := by
  rcases h with rfl | ⟨h1, h2, h3⟩
  · exact .inl rfl
  · exact .inr ⟨h2, h1, h3.symm⟩

theorem diverge_symm {p q : List Str} (h : Diverge p q) : Diverge q p := by
  obtain ⟨c, k1, r1, k2, r2, rfl, rfl, hk⟩ := h
  exact ⟨c, k2, r2, k1, r1, rfl, rfl, fun h => hk (sameKey_symm h)⟩

/-- A proper beginning of `p` either diverges from `q` or is a proper beginning of `q`, when `p` and `q` diverge. -/
theorem diverge_prefix {p q a : List Str} {k : Str} {ks : List Str} (h : Diverge p q) (hp : p = a ++ k :: ks) :
    Diverge a q ∨ ∃ k' ks', q = a ++ k' :: ks' := by
  obtain ⟨c, k1, r1, k2, r2, rfl, rfl, hk⟩ := h
  rcases List.append_eq_append_iff.1 hp with ⟨d, h1, h2⟩ | ⟨d, h1, h2⟩
  · -- a = c ++ d
    cases d with
    | nil =>
      right
      simp only [List.append_nil] at h1
      subst h1
      exact ⟨k2, r2, rfl⟩
    | cons x xs =>
      left
      simp only [List.cons_append, List.cons.injEq] at h2
      obtain ⟨rfl, h2⟩ := h2
      exact ⟨c, k1, xs, k2, r2, h1, rfl, hk⟩
  · -- c = a ++ d
    right
    subst h1
    cases d with
    | nil => exact ⟨k2, r2, by simp⟩
    | cons x xs => exact ⟨x, xs ++ k2 :: r2, by simp⟩

/-- Turning the list at `r` into a tuple does not change reads below `r`. -/
theorem get_below {t t' : Tree β} {ts : List (Tree β)} {r : List Str} {k : Str} {ks : List Str}
    (hr : get t r = .ok (.list ts)) (h : set t r (.tuple ts) = .ok t') (hp : Proper (r ++ k :: ks)) :
    get t' (r ++ k :: ks) = get t (r ++ k :: ks) := by
  unfold set at h
  induction r generalizing t t' with
  | nil => simp [setPath] at h
  | cons a r ih =>
    simp only [List.cons_append] at hp ⊢
    have hp' : Proper (r ++ k :: ks) := fun x hx => hp x (List.mem_cons_of_mem _ hx)
    rw [get_cons _ _ _ (headD_cons_ne hp), get_cons _ _ _ (headD_cons_ne hp)]
    have ha : a ≠ [] := hp a (by simp)
    rw [get_cons _ _ _ (fun e => ha e.1)] at hr
    cases r with
    | nil =>
      obtain ⟨_, h2, h3⟩ := setPath_single h
      rw [h3]
      cases hc : child t a with
      | error e => rw [hc] at hr; simp at hr
      | ok c =>
        rw [hc] at hr
        simp only [get_nil, Except.ok.injEq] at hr
        subst hr
        simp only [List.nil_append] at hp' ⊢
        rw [get_cons _ _ _ (headD_cons_ne hp'), get_cons _ _ _ (headD_cons_ne hp')]
        rfl
    | cons b r =>
      obtain ⟨c, c', h1, h2, h3, h4⟩ := setPath_cons h
      rw [h4, h1]
      rw [h1] at hr
      exact ih hr h2 hp'

theorem get_setTuple {t t' : Tree β} {ts : List (Tree β)} {r q : List Str}
    (hr : get t r = .ok (.list ts)) (h : set t r (.tuple ts) = .ok t') (hq : Proper q)
    (hd : Diverge r q ∨ ∃ k ks, q = r ++ k :: ks) : get t' q = get t q := by
  rcases hd with hd | ⟨k, ks, rfl⟩
  · obtain ⟨c, k1, r1, k2, r2, rfl, rfl, hk⟩ := hd
    exact get_set_diverge h hk hq
  · exact get_below hr h hq

theorem restore_read {q : List Str} (hq : Proper q) : ∀ {rs : List (List Str)} {t t' : Tree β},
    restoreTuples t rs = .ok t' → (∀ r ∈ rs, Diverge r q ∨ ∃ k ks, q = r ++ k :: ks) → get t' q = get t q := by
  intro rs
  induction rs with
  | nil =>
    intro t t' h _
    simp only [restoreTuples, Except.ok.injEq] at h
    subst h; rfl
  | cons r rs ih =>
    intro t t' h hd
    simp only [restoreTuples] at h
    split at h
    · simp at h
    · next ts hg =>
      split at h
      · simp at h
      · next t1 hs =>
        rw [ih h (fun r hr => hd r (List.mem_cons_of_mem _ hr))]
        exact get_setTuple hg hs hq (hd r (by simp))
    · simp at h

/-- detupling is insensitive to the list/tuple switch -/
theorem detuple_putChild {t c c' : Tree β} {k : Str} (hc : child t k = .ok c) (h : detuple c' = detuple c) :
    detuple (putChild t k c') = detuple t := by
  cases t with
  | leaf b => rfl
  | none => rfl
  | list ts =>
    simp only [child] at hc
    split at hc
    · simp at hc
    · split at hc
      · next d hd =>
        simp only [Except.ok.injEq] at hc
        subst hc
        simp only [putChild, detuple, detupleL_eq_map, Tree.list.injEq]
        rw [List.map_set, h]
        apply List.ext_getElem?
        intro i
        rw [List.getElem?_set]
        split
        · next e =>
          subst e
          rw [List.getElem?_map, hd]
          have : toInt k < ts.length := by
            by_contra hlt
            rw [List.getElem?_eq_none (by omega)] at hd
            simp at hd
          simp [this]
        · rfl
      · simp at hc
  | tuple ts =>
    simp only [child] at hc
    split at hc
    · simp at hc
    · split at hc
      · next d hd =>
        simp only [Except.ok.injEq] at hc
        subst hc
        simp only [putChild, detuple, detupleL_eq_map, Tree.list.injEq]
        rw [List.map_set, h]
        apply List.ext_getElem?
        intro i
        rw [List.getElem?_set]
        split
        · next e =>
          subst e
          rw [List.getElem?_map, hd]
          have : toInt k < ts.length := by
            by_contra hlt
            rw [List.getElem?_eq_none (by omega)] at hd
            simp at hd
          simp [this]
        · rfl
      · simp at hc
  | dict kvs =>
    simp only [child] at hc
    split at hc
    · next d hd =>
      simp only [Except.ok.injEq] at hc
      subst hc
      simp only [putChild, detuple, Tree.dict.injEq]
      induction kvs with
      | nil => simp at hd
      | cons p r ih =>
        obtain ⟨k', v'⟩ := p
        simp only [dictSet]
        rw [List.lookup_cons] at hd
        split
        · next e =>
          subst e
          simp only [BEq.rfl, Option.some.injEq] at hd
          subst hd
          simp [detupleD, h]
        · next e =>
          have : (k == k') = false := by simpa using fun h' => e h'.symm
          rw [this] at hd
          simp [detupleD, ih hd]
    · simp at hc

theorem detuple_setTuple {ts : List (Tree β)} {r : List Str} : ∀ {t t' : Tree β},
    get t r = .ok (.list ts) → set t r (.tuple ts) = .ok t' → detuple t' = detuple t := by
  unfold set
  induction r with
  | nil => intro t t' _ h; simp [setPath] at h
  | cons a r ih =>
    intro t t' hr h
    cases r with
    | nil =>
      obtain ⟨ha, h2, h3⟩ := setPath_single h
      rw [get_cons _ _ _ (fun e => ha e.1)] at hr
      cases hc : child t a with
      | error e => rw [hc] at hr; simp at hr
      | ok c =>
        rw [hc] at hr
        simp only [get_nil, Except.ok.injEq] at hr
        subst hr
        rw [h2]
        exact detuple_putChild hc rfl
    | cons b r =>
      obtain ⟨c, c', h1, h2, h3, h4⟩ := setPath_cons h
      rw [get_cons _ _ _ (by simp), h1] at hr
      rw [h3]
      exact detuple_putChild h1 (ih hr h2)

theorem detuple_restore : ∀ {rs : List (List Str)} {t t' : Tree β},
    restoreTuples t rs = .ok t' → detuple t' = detuple t := by
  intro rs
  induction rs with
  | nil =>
    intro t t' h
    simp only [restoreTuples, Except.ok.injEq] at h
    subst h; rfl
  | cons r rs ih =>
    intro t t' h
    simp only [restoreTuples] at h
    split at h
    · simp at h
    · next ts hg =>
      split at h
      · simp at h
      · next t1 hs => rw [ih h, detuple_setTuple hg hs]
    · simp at h

theorem get_leaf_of_detuple {t t' : Tree β} {q : List Str} {b : β} (h : detuple t' = detuple t)
    (hq : get t q = .ok (.leaf b)) : get t' q = .ok (.leaf b) := by
  have h1 := get_detuple t q
  have h2 := get_detuple t' q
  rw [h, h1, hq] at h2
  cases hg : get t' q with
  | error e => rw [hg] at h2; simp [Except.map] at h2
  | ok v =>
    rw [hg] at h2
    simp only [Except.map, detuple, Except.ok.injEq] at h2
    cases v <;> simp [detuple] at h2
    rw [h2]

/-! ### all paths -/

theorem extendAll_leaf {eqv : Tree β → Tree β → Bool} {b : β} {q : List Str} :
    ∀ {pfs : List (List Str × Tree β)} {t t' : Tree β} {rec : List (List Str)},
      extendAll eqv t pfs = .ok (t', rec) → get t q = .ok (.leaf b) → get t' q = .ok (.leaf b) := by
  intro pfs
  induction pfs with
  | nil =>
    intro t t' rec h hq
    simp only [extendAll, Except.ok.injEq, Prod.mk.injEq] at h
    obtain ⟨rfl, _⟩ := h; exact hq
  | cons pf pfs ih =>
    intro t t' rec h hq
    obtain ⟨p, fill⟩ := pf
    simp only [extendAll] at h
    split at h
    · simp at h
    · next t1 r1 h1 =>
      split at h
      · simp at h
      · next t2 r2 h2 =>
        simp only [Except.ok.injEq, Prod.mk.injEq] at h
        obtain ⟨rfl, _⟩ := h
        exact ih h2 (extendOne_leaf h1 hq)

theorem extendAll_rec {eqv : Tree β → Tree β → Bool} :
    ∀ {pfs : List (List Str × Tree β)} {t t' : Tree β} {rec : List (List Str)},
      extendAll eqv t pfs = .ok (t', rec) →
      ∀ r ∈ rec, ∃ pf ∈ pfs, ∃ k ks, pf.1 = r ++ k :: ks := by
  intro pfs
  induction pfs with
  | nil =>
    intro t t' rec h
    simp only [extendAll, Except.ok.injEq, Prod.mk.injEq] at h
    obtain ⟨_, rfl⟩ := h; simp
  | cons pf pfs ih =>
    intro t t' rec h r hr
    obtain ⟨p, fill⟩ := pf
    simp only [extendAll] at h
    split at h
    · simp at h
    · next t1 r1 h1 =>
      split at h
      · simp at h
      · next t2 r2 h2 =>
        simp only [Except.ok.injEq, Prod.mk.injEq] at h
        obtain ⟨_, rfl⟩ := h
        rcases List.mem_append.1 hr with hr | hr
        · obtain ⟨a, k, ks, e1, e2⟩ := extendOne_rec h1 r hr
          simp only [List.nil_append] at e2
          subst e2
          exact ⟨(p, fill), by simp, k, ks, e1⟩
        · obtain ⟨pf, hm, k, ks, e⟩ := ih h2 r hr
          exact ⟨pf, List.mem_cons_of_mem _ hm, k, ks, e⟩

theorem extendAll_frame {eqv : Tree β → Tree β → Bool} {v : Tree β} {q : List Str} (hq : Proper q) :
    ∀ {pfs : List (List Str × Tree β)} {t t' : Tree β} {rec : List (List Str)},
      extendAll eqv t pfs = .ok (t', rec) → (∀ pf ∈ pfs, Diverge pf.1 q) → get t q = .ok v → get t' q = .ok v := by
  intro pfs
  induction pfs with
  | nil =>
    intro t t' rec h _ hg
    simp only [extendAll, Except.ok.injEq, Prod.mk.injEq] at h
    obtain ⟨rfl, _⟩ := h; exact hg
  | cons pf pfs ih =>
    intro t t' rec h hd hg
    obtain ⟨p, fill⟩ := pf
    simp only [extendAll] at h
    split at h
    · simp at h
    · next t1 r1 h1 =>
      split at h
      · simp at h
      · next t2 r2 h2 =>
        simp only [Except.ok.injEq, Prod.mk.injEq] at h
        obtain ⟨rfl, _⟩ := h
        refine ih h2 (fun pf hpf => hd pf (List.mem_cons_of_mem _ hpf)) ?_
        obtain ⟨c, k1, r1, k2, r2, e1, e2, hk⟩ := hd (p, fill) (by simp)
        simp only at e1
        subst e1 e2
        exact extendOne_frame hk hq h1 hg

theorem extendAll_read {eqv : Tree β → Tree β → Bool} :
    ∀ {pfs : List (List Str × Tree β)} {t t' : Tree β} {rec : List (List Str)},
      extendAll eqv t pfs = .ok (t', rec) → (∀ pf ∈ pfs, pf.1 ≠ [] ∧ Proper pf.1) →
      pfs.Pairwise (fun a b => Diverge a.1 b.1) →
      ∀ pf ∈ pfs, ∃ v, get t' pf.1 = .ok v ∧ (v = pf.2 ∨ eqv v pf.2 = true ∨ pf.2 = .none) := by
  intro pfs
  induction pfs with
  | nil => intro _ _ _ _ _ _ pf h; simp at h
  | cons pf pfs ih =>
    intro t t' rec h hne hpw
    obtain ⟨p, fill⟩ := pf
    simp only [extendAll] at h
    split at h
    · simp at h
    · next t1 r1 h1 =>
      split at h
      · simp at h
      · next t2 r2 h2 =>
        simp only [Except.ok.injEq, Prod.mk.injEq] at h
        obtain ⟨rfl, _⟩ := h
        rw [List.pairwise_cons] at hpw
        intro pf hpf
        rcases List.mem_cons.1 hpf with rfl | hpf
        · have hp := hne (p, fill) (by simp)
          obtain ⟨v, h3, h4⟩ := extendOne_read hp.1 hp.2 h1
          refine ⟨v, ?_, h4⟩
          exact extendAll_frame hp.2 h2 (fun b hb => diverge_symm (hpw.1 b hb)) h3
        · exact ih h2 (fun pf hpf => hne pf (List.mem_cons_of_mem _ hpf)) hpw.2 pf hpf

theorem get_list_tuple (ts : List (Tree β)) (q : List Str) (hq : q ≠ []) (hp : Proper q) :
    get (.tuple ts) q = get (.list ts) q := by
  cases q with
  | nil => exact absurd rfl hq
  | cons k ks => rw [get_cons _ _ _ (headD_cons_ne hp), get_cons _ _ _ (headD_cons_ne hp)]; rfl

/-- The run of `extend`, put in one form for all kinds of base. -/
theorem extend_run {eqv : Tree β → Tree β → Bool} {base t : Tree β} {pfs : List (List Str × Tree β)}
    (h : extend eqv base pfs = .ok t) :
    ∃ b t1 rec t2, extendAll eqv b pfs = .ok (t1, rec) ∧ restoreTuples t1 rec = .ok t2 ∧
      (∀ q, q ≠ [] → Proper q → get t q = get t2 q) ∧ detuple t = detuple t2 ∧
      (base ≠ .none → (∀ q, q ≠ [] → Proper q → get b q = get base q) ∧ detuple b = detuple base) := by
  unfold extend at h
  simp only at h
  split at h
  · next ts hb =>
    -- tuple base
    have hbase : base = .tuple ts := by
      cases base with
      | none => simp only at hb; split at hb <;> simp at hb
      | _ => simpa using hb
    subst hbase
    split at h
    · simp at h
    · next t1 rec h1 =>
      split at h
      · simp at h
      · next ts' h2 =>
        simp only [Except.ok.injEq] at h
        subst h
        exact ⟨_, t1, rec, _, h1, h2, fun q hq hp => get_list_tuple ts' q hq hp, by simp [detuple],
          fun _ => ⟨fun q hq hp => (get_list_tuple ts q hq hp).symm, by simp [detuple]⟩⟩
      · next t2 _ h2 =>
        simp only [Except.ok.injEq] at h
        subst h
        exact ⟨_, t1, rec, _, h1, h2, fun q hq hp => rfl, rfl,
          fun _ => ⟨fun q hq hp => (get_list_tuple ts q hq hp).symm, by simp [detuple]⟩⟩
  · next b hb =>
    split at h
    · simp at h
    · next t1 rec h1 =>
      refine ⟨_, t1, rec, t, h1, h, fun _ _ _ => rfl, rfl, ?_⟩
      intro hne
      cases base with
      | none => exact absurd rfl hne
      | _ => exact ⟨fun _ _ _ => rfl, rfl⟩

end Tree
end Verif
