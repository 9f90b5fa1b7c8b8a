import Verif.Lemmas.ExtendTuple
import Verif.Lemmas.ConnPlace
import Verif.Lemmas.ConnOuter
import Verif.Lemmas.Sequential
import Verif.Lemmas.Scalers
import Verif.Props.Tree
import Mathlib.Data.List.Perm.Basic

/-! The order of the leaves of a tree that is built from the paths of another one. -/

namespace Verif.Tree
open TreeSpec ForwardSpec PathSpec

variable {β γ δ : Type}

/-- `t` has only parts of the structure of `u` (lists for tuples). -/
inductive Compat : Tree β → Tree γ → Prop
  | none (u) : Compat .none u
  | leaf (b g) : Compat (.leaf b) (.leaf g)
  | list {ts us} : (∀ (i : Nat) t, ts[i]? = some t → t ≠ .none → i < us.length) → (∀ (i : Nat) t u, ts[i]? = some t → t ≠ .none → us[i]? = some u → Compat t u) → Compat (.list ts) (.list us)
  | tuple {ts us} : (∀ (i : Nat) t, ts[i]? = some t → t ≠ .none → i < us.length) → (∀ (i : Nat) t u, ts[i]? = some t → t ≠ .none → us[i]? = some u → Compat t u) → Compat (.list ts) (.tuple us)
  | dict {ts us} : (ts.map Prod.fst).Nodup → (∀ k t, (k, t) ∈ ts → (us.lookup k).isSome = true) → (∀ k t u, (k, t) ∈ ts → us.lookup k = some u → Compat t u) → Compat (.dict ts) (.dict us)

/-- The path leads to a leaf; numbers are positions in lists and tuples. -/
inductive Leads : Tree γ → List Str → Prop
  | leaf (g) : Leads (.leaf g) []
  | list {us k u ks} : isDigit k = true → us[toInt k]? = some u → Leads u ks → Leads (.list us) (k :: ks)
  | tuple {us k u ks} : isDigit k = true → us[toInt k]? = some u → Leads u ks → Leads (.tuple us) (k :: ks)
  | dict {us k u ks} : isDigit k = false → us.lookup k = some u → Leads u ks → Leads (.dict us) (k :: ks)

theorem compat_fresh {u : Tree γ} {k : Str} {ks : List Str} (h : Leads u (k :: ks)) : Compat (freshNode k : Tree β) u := by
  unfold freshNode
  cases h with
  | list hd _ _ => rw [if_pos hd]; exact .list (by simp) (by simp)
  | tuple hd _ _ => rw [if_pos hd]; exact .tuple (by simp) (by simp)
  | dict hd _ _ => rw [hd, if_neg (by simp)]; exact .dict (by simp) (by simp) (by simp)

theorem set_pad {ts : List (Tree β)} {us : List (Tree γ)} {i : Nat} {u : Tree γ} {c : Tree β} (hu : us[i]? = some u) (hc : Compat c u)
    (h1 : ∀ (i : Nat) t, ts[i]? = some t → t ≠ .none → i < us.length) (h2 : ∀ (i : Nat) t u, ts[i]? = some t → t ≠ .none → us[i]? = some u → Compat t u) :
    (∀ (j : Nat) t, ((padTo ts i).set i c)[j]? = some t → t ≠ .none → j < us.length) ∧
    (∀ (j : Nat) t u, ((padTo ts i).set i c)[j]? = some t → t ≠ .none → us[j]? = some u → Compat t u) := by
  have key : ∀ (j : Nat) t, ((padTo ts i).set i c)[j]? = some t → t ≠ .none → (j = i ∧ t = c) ∨ ts[j]? = some t := by
    intro j t hj ht
    by_cases e : j = i
    · subst e
      rw [List.getElem?_set_self (length_padTo _ _)] at hj
      cases hj
      exact .inl ⟨rfl, rfl⟩
    · rw [List.getElem?_set_ne (fun h => e h.symm)] at hj
      rcases at_padTo hj with h | h
      · exact .inr h
      · exact absurd h ht
  refine ⟨fun j t hj ht => ?_, fun j t v hj ht hv => ?_⟩
  · rcases key j t hj ht with ⟨rfl, rfl⟩ | h
    · exact (List.getElem?_eq_some_iff.1 hu).1
    · exact h1 j t h ht
  · rcases key j t hj ht with ⟨rfl, rfl⟩ | h
    · rw [hu] at hv; cases hv; exact hc
    · exact h2 j t v h ht hv

theorem pad_only {ts : List (Tree β)} {us : List (Tree γ)} {i : Nat}
    (h1 : ∀ (i : Nat) t, ts[i]? = some t → t ≠ .none → i < us.length) (h2 : ∀ (i : Nat) t u, ts[i]? = some t → t ≠ .none → us[i]? = some u → Compat t u) :
    (∀ (j : Nat) t, (padTo ts i)[j]? = some t → t ≠ .none → j < us.length) ∧ (∀ (j : Nat) t u, (padTo ts i)[j]? = some t → t ≠ .none → us[j]? = some u → Compat t u) := by
  refine ⟨fun j t hj ht => ?_, fun j t v hj ht hv => ?_⟩
  · rcases at_padTo hj with h | h
    · exact h1 j t h ht
    · exact absurd h ht
  · rcases at_padTo hj with h | h
    · exact h2 j t v h ht hv
    · exact absurd h ht

/-- What one walk needs to know of lists. -/
theorem compat_list {ts : List (Tree β)} {G : Tree γ} {k : Str} {ks : List Str} (hc : Compat (.list ts) G) (hl : Leads G (k :: ks)) :
    ∃ u : Tree γ, isDigit k = true ∧ Leads u ks ∧ (∀ c, Compat c u → Compat (.list ((padTo ts (toInt k)).set (toInt k) c)) G) ∧ Compat (.list (padTo ts (toInt k))) G ∧
      Compat ((padTo ts (toInt k)).getD (toInt k) .none) u := by
  have hcur : ∀ (us : List (Tree γ)) (u : Tree γ), us[toInt k]? = some u → (∀ (i : Nat) t u, ts[i]? = some t → t ≠ .none → us[i]? = some u → Compat t u) →
      Compat ((padTo ts (toInt k)).getD (toInt k) .none) u := by
    intro us u hu h2
    rcases getD_padTo ts (toInt k) with e | ⟨_, e⟩
    · by_cases hn : (padTo ts (toInt k)).getD (toInt k) .none = .none
      · rw [hn]; exact .none _
      · exact h2 _ _ _ e hn hu
    · rw [e]; exact .none _
  cases hc with
  | list h1 h2 =>
    cases hl with
    | list hd hu hl => exact ⟨_, hd, hl, fun c hc => .list (set_pad hu hc h1 h2).1 (set_pad hu hc h1 h2).2, .list (pad_only h1 h2).1 (pad_only h1 h2).2, hcur _ _ hu h2⟩
  | tuple h1 h2 =>
    cases hl with
    | tuple hd hu hl => exact ⟨_, hd, hl, fun c hc => .tuple (set_pad hu hc h1 h2).1 (set_pad hu hc h1 h2).2, .tuple (pad_only h1 h2).1 (pad_only h1 h2).2, hcur _ _ hu h2⟩

theorem compat_dict {kvs : List (Str × Tree β)} {G : Tree γ} {k : Str} {ks : List Str} (hc : Compat (.dict kvs) G) (hl : Leads G (k :: ks)) :
    ∃ u : Tree γ, Leads u ks ∧ (∀ c : Tree β, Compat c u → Compat (.dict (dictSet kvs k c)) G) ∧ ∀ c, kvs.lookup k = some c → Compat c u := by
  cases hc with
  | dict h0 h1 h2 =>
    cases hl with
    | dict hd hu hl =>
      refine ⟨_, hl, fun c hc => .dict (Conn.dictSet_nodup h0 _ _) (fun k' t ht => ?_) (fun k' t v ht hv => ?_), fun c hc => h2 _ _ _ (mem_of_lookup hc) hu⟩
      · rcases mem_dictSet ht with h | h
        · exact h1 k' t h
        · cases h; rw [hu]; rfl
      · rcases mem_dictSet ht with h | h
        · exact h2 k' t v h hv
        · cases h; rw [hu] at hv; cases hv; exact hc

theorem extendOne_compat {eqv : Tree β → Tree β → Bool} {b : β} : ∀ {p : List Str} {t t' : Tree β} {pre : List Str} {rec : List (List Str)} {G : Tree γ},
    extendOne eqv (.leaf b) t pre p = .ok (t', rec) → Compat t G → Leads G p → Compat t' G := by
  intro p
  induction p with
  | nil =>
    intro t t' pre rec G h hc hl
    rw [extendOne.eq_def] at h
    simp only [Except.ok.injEq, Prod.mk.injEq] at h
    obtain ⟨rfl, -⟩ := h
    exact hc
  | cons k ks ih =>
    intro t t' pre rec G h hc hl
    rw [extendOne.eq_def] at h
    simp only at h
    have hfill : ∀ {u : Tree γ}, Leads u [] → Compat (.leaf b) u := by
      intro u hu
      cases hu
      exact .leaf _ _
    have hfresh : ∀ {u : Tree γ}, ks ≠ [] → Leads u ks → Compat (freshNode (ks.headD []) : Tree β) u := by
      intro u hks hu
      obtain ⟨k2, ks2, rfl⟩ := List.exists_cons_of_ne_nil hks
      exact compat_fresh hu
    cases t with
    | leaf b => simp at h
    | none => simp at h
    | tuple ts => cases hc
    | list ts =>
      obtain ⟨u, hd, hlu, hset, hpad, hcur⟩ := compat_list hc hl
      simp only [ne_eq, not_true_eq_false, false_and, if_false] at h
      split at h
      · simp at h
      · split at h
        · by_cases hks : ks = []
          · simp only [if_pos hks, Except.ok.injEq, Prod.mk.injEq] at h
            obtain ⟨rfl, rfl⟩ := h
            exact hset _ (hfill (hks ▸ hlu))
          · simp only [if_neg hks] at h
            split at h
            · next c rec' hc' =>
              simp only [Except.ok.injEq, Prod.mk.injEq] at h
              obtain ⟨rfl, rfl⟩ := h
              exact hset _ (ih hc' (hfresh hks hlu) hlu)
            · simp at h
        · by_cases hks : ks = []
          · simp only [if_pos hks] at h
            split at h
            · simp at h
            · simp only [Except.ok.injEq, Prod.mk.injEq] at h
              obtain ⟨rfl, rfl⟩ := h
              exact hpad
          · simp only [if_neg hks] at h
            split at h
            · next c rec' hc' =>
              simp only [Except.ok.injEq, Prod.mk.injEq] at h
              obtain ⟨rfl, rfl⟩ := h
              exact hset _ (ih hc' hcur hlu)
            · simp at h
    | dict kvs =>
      obtain ⟨u, hlu, hset, hcur⟩ := compat_dict hc hl
      simp only [ne_eq, not_true_eq_false, false_and, if_false] at h
      split at h
      · by_cases hks : ks = []
        · simp only [if_pos hks, Except.ok.injEq, Prod.mk.injEq] at h
          obtain ⟨rfl, rfl⟩ := h
          exact hset _ (hfill (hks ▸ hlu))
        · simp only [if_neg hks] at h
          split at h
          · next c rec' hc' =>
            simp only [Except.ok.injEq, Prod.mk.injEq] at h
            obtain ⟨rfl, rfl⟩ := h
            exact hset _ (ih hc' (hfresh hks hlu) hlu)
          · simp at h
      · next cur hl' =>
        by_cases hks : ks = []
        · simp only [if_pos hks] at h
          split at h
          · simp at h
          · simp only [Except.ok.injEq, Prod.mk.injEq] at h
            obtain ⟨rfl, rfl⟩ := h
            exact hc
        · simp only [if_neg hks] at h
          split at h
          · next c rec' hc' =>
            simp only [Except.ok.injEq, Prod.mk.injEq] at h
            obtain ⟨rfl, rfl⟩ := h
            exact hset _ (ih hc' (hcur _ hl') hlu)
          · simp at h

theorem extendAll_compat {eqv : Tree β → Tree β → Bool} {G : Tree γ} : ∀ {pfs : List (List Str × β)} {t t' : Tree β} {rec : List (List Str)},
    extendAll eqv t (pfs.map fun p => (p.1, .leaf p.2)) = .ok (t', rec) → Compat t G → (∀ pf ∈ pfs, Leads G pf.1) → Compat t' G := by
  intro pfs
  induction pfs with
  | nil =>
    intro t t' rec h hc _
    simp only [List.map_nil, extendAll, Except.ok.injEq, Prod.mk.injEq] at h
    exact h.1 ▸ hc
  | cons pf pfs ih =>
    intro t t' rec h hc hl
    simp only [List.map_cons, extendAll] at h
    split at h
    · simp at h
    · next t1 r1 h1 =>
      split at h
      · simp at h
      · next t2 r2 h2 =>
        simp only [Except.ok.injEq, Prod.mk.injEq] at h
        obtain ⟨rfl, rfl⟩ := h
        exact ih h2 (extendOne_compat h1 hc (hl pf (by simp))) fun pf hpf => hl pf (by simp [hpf])

theorem extend_compat {eqv : Tree β → Tree β → Bool} {G : Tree γ} (hG : ∀ g, G ≠ .leaf g) {pfs : List (List Str × β)} {t : Tree β} (hne : pfs ≠ [])
    (hl : ∀ pf ∈ pfs, Leads G pf.1) (hp : ∀ pf ∈ pfs, Proper pf.1)
    (h : extend eqv .none (pfs.map fun p => (p.1, .leaf p.2)) = .ok t) : Compat t G := by
  unfold extend at h
  simp only at h
  have hfirst : ∀ pf ∈ pfs, ∃ k ks, pf.1 = k :: ks ∧ pf.1 ≠ [[]] := by
    intro pf hpf
    cases hk : pf.1 with
    | nil =>
      have := hl pf hpf
      rw [hk] at this
      cases this
      exact absurd rfl (hG _)
    | cons k ks =>
      refine ⟨k, ks, rfl, fun e => ?_⟩
      exact hp pf hpf [] (by rw [hk, e]; simp) rfl
  generalize hb : ((((pfs.map fun p => (p.1, (Tree.leaf p.2 : Tree β))).map Prod.fst).filter fun p => p ≠ [[]]).all fun p => isDigit (p.headD [])) = bb at h
  have hbase : Compat (if bb = true then .list [] else .dict [] : Tree β) G := by
    rw [List.map_map] at hb
    obtain ⟨pf, hpf⟩ := List.exists_mem_of_ne_nil _ hne
    obtain ⟨k, ks, e, hne'⟩ := hfirst pf hpf
    have hlead := hl pf hpf
    have hfilt : ∀ p ∈ pfs, ∀ k ks, p.1 = k :: ks → (bb = true → isDigit k = true) := by
      intro p hp' k ks e hbt
      rw [hbt, List.all_eq_true] at hb
      obtain ⟨_, _, _, h2⟩ := hfirst p hp'
      have := hb p.1 (List.mem_filter.2 ⟨List.mem_map.2 ⟨p, hp', rfl⟩, by simpa using h2⟩)
      rw [e] at this
      exact this
    have hall : (∀ p ∈ pfs, ∀ k ks, p.1 = k :: ks → isDigit k = true) → bb = true := by
      intro hd
      rw [← hb, List.all_eq_true]
      intro p hp'
      obtain ⟨hp1, -⟩ := List.mem_filter.1 hp'
      obtain ⟨q, hq, rfl⟩ := List.mem_map.1 hp1
      obtain ⟨k, ks, e, -⟩ := hfirst q hq
      show isDigit (q.1.headD []) = true
      rw [e]
      exact hd q hq k ks e
    rw [e] at hlead
    cases hlead with
    | list hd hu hl' =>
      have : bb = true := hall fun p hp' k' ks' e' => by
        have := hl p hp'
        rw [e'] at this
        cases this with
        | list hd _ _ => exact hd
      rw [if_pos this]
      exact .list (by simp) (by simp)
    | tuple hd hu hl' =>
      have : bb = true := hall fun p hp' k' ks' e' => by
        have := hl p hp'
        rw [e'] at this
        cases this with
        | tuple hd _ _ => exact hd
      rw [if_pos this]
      exact .tuple (by simp) (by simp)
    | dict hd hu hl' =>
      have : bb ≠ true := fun hbt => by
        rw [hfilt pf hpf k ks e hbt] at hd
        cases hd
      rw [if_neg this]
      exact .dict (by simp) (by simp) (by simp)
  have hnt : hasTuple (if bb = true then .list [] else .dict [] : Tree β) = false := by cases bb <;> rfl
  split at h
  · next ts hts => exfalso; split at hts <;> simp at hts
  · split at h
    · simp at h
    · next t1 rec h1 =>
      obtain ⟨h2, rfl⟩ := extendAll_noTuple (by
        intro pf hpf
        obtain ⟨q, -, rfl⟩ := List.mem_map.1 hpf
        rfl) h1 hnt
      simp only [restoreTuples, Except.ok.injEq] at h
      subst h
      exact extendAll_compat h1 hbase hl

theorem compat_at {q : List ForwardSpec.Step} {b : β} : ∀ {t : Tree β} {G : Tree γ}, Compat t G → At t q b → ∃ g, At G q g := by
  induction q with
  | nil =>
    intro t G hc ha
    cases ha
    cases hc
    exact ⟨_, .leaf _⟩
  | cons s q ih =>
    intro t G hc ha
    cases ha with
    | list hi ha =>
      rename_i i t'
      have hn : t' ≠ Tree.none := fun e => not_at_none (e ▸ ha)
      cases hc with
      | list h1 h2 =>
        have hlt := h1 _ _ hi hn
        obtain ⟨g, hg⟩ := ih (h2 _ _ _ hi hn (List.getElem?_eq_getElem hlt)) ha
        exact ⟨g, .list (List.getElem?_eq_getElem hlt) hg⟩
      | tuple h1 h2 =>
        have hlt := h1 _ _ hi hn
        obtain ⟨g, hg⟩ := ih (h2 _ _ _ hi hn (List.getElem?_eq_getElem hlt)) ha
        exact ⟨g, .tuple (List.getElem?_eq_getElem hlt) hg⟩
    | tuple hi ha => cases hc
    | dict hi ha =>
      cases hc with
      | dict h0 h1 h2 =>
        obtain ⟨u, hu⟩ := Option.isSome_iff_exists.1 (h1 _ _ hi)
        obtain ⟨g, hg⟩ := ih (h2 _ _ _ hi hu) ha
        exact ⟨g, .dict (mem_of_lookup hu) hg⟩

theorem keysOkL_of_mem : ∀ {ts : List (Tree β)}, (∀ t ∈ ts, KeysOk t) → KeysOkL ts
  | [], _ => trivial
  | t :: ts, h => ⟨h t (by simp), keysOkL_of_mem fun t ht => h t (by simp [ht])⟩

theorem keysOkD_of_mem : ∀ {ts : List (Str × Tree β)}, (∀ k t, (k, t) ∈ ts → KeysOk t) → KeysOkD ts
  | [], _ => trivial
  | (k, t) :: ts, h => ⟨h k t (by simp), keysOkD_of_mem fun k t ht => h k t (by simp [ht])⟩

theorem compat_keysOk {t : Tree β} {G : Tree γ} (h : Compat t G) : KeysOk t := by
  induction h with
  | none u => trivial
  | leaf b g => trivial
  | list h1 h2 ih =>
    refine keysOkL_of_mem fun t ht => ?_
    obtain ⟨i, hi⟩ := List.mem_iff_getElem?.1 ht
    by_cases hn : t = .none
    · subst hn; trivial
    · exact ih i t _ hi hn (List.getElem?_eq_getElem (h1 i t hi hn))
  | tuple h1 h2 ih =>
    refine keysOkL_of_mem fun t ht => ?_
    obtain ⟨i, hi⟩ := List.mem_iff_getElem?.1 ht
    by_cases hn : t = .none
    · subst hn; trivial
    · exact ih i t _ hi hn (List.getElem?_eq_getElem (h1 i t hi hn))
  | dict h0 h1 h2 ih =>
    refine ⟨h0, keysOkD_of_mem fun k t ht => ?_⟩
    obtain ⟨u, hu⟩ := Option.isSome_iff_exists.1 (h1 k t ht)
    exact ih k t u ht hu

theorem leads_of_spells : ∀ {p : List Str} {q : List ForwardSpec.Step} {G : Tree γ} {g : γ}, KeysOk G → Spells p q → At G q g → (∀ k, .key k ∈ q → isDigit k = false) → Leads G p
  | [], q, G, g, hk, hs, ha, _ => by
    cases hs
    cases ha
    exact .leaf _
  | k :: ks, q, G, g, hk, hs, ha, hd => by
    cases hs with
    | cons h1 h2 =>
      cases ha with
      | list hi ha =>
        rcases h1 with h1 | ⟨h1, h3⟩
        · cases h1
        · cases h3
          exact .list h1 hi (leads_of_spells (keysOkL_mem hk (List.mem_of_getElem? hi)) h2 ha fun k hk => hd k (by simp [hk]))
      | tuple hi ha =>
        rcases h1 with h1 | ⟨h1, h3⟩
        · cases h1
        · cases h3
          exact .tuple h1 hi (leads_of_spells (keysOkL_mem hk (List.mem_of_getElem? hi)) h2 ha fun k hk => hd k (by simp [hk]))
      | dict hi ha =>
        rcases h1 with h1 | ⟨h1, h3⟩
        · cases h1
          exact .dict (hd k (by simp)) (lookup_of_mem hk.1 hi) (leads_of_spells (keysOkD_mem hk.2 hi) h2 ha fun k hk => hd k (by simp [hk]))
        · cases h3

theorem spells_place : ∀ {p : List Str} {q q' : List ForwardSpec.Step} {G : Tree γ} {g g' : γ}, KeysOk G → Spells p q → Spells p q' → At G q g → At G q' g' → q = q'
  | [], _, _, _, _, _, _, hs, hs', _, _ => by cases hs; cases hs'; rfl
  | k :: ks, q, q', G, g, g', hk, hs, hs', ha, ha' => by
    cases hs with
    | cons h1 h2 =>
      cases hs' with
      | cons h1' h2' =>
        cases ha with
        | list hi ha =>
          cases ha' with
          | list hi' ha' =>
            rcases h1 with h1 | ⟨_, h1⟩
            · cases h1
            rcases h1' with h1' | ⟨_, h1'⟩
            · cases h1'
            cases h1; cases h1'
            rw [hi] at hi'; cases hi'
            rw [spells_place (keysOkL_mem hk (List.mem_of_getElem? hi)) h2 h2' ha ha']
        | tuple hi ha =>
          cases ha' with
          | tuple hi' ha' =>
            rcases h1 with h1 | ⟨_, h1⟩
            · cases h1
            rcases h1' with h1' | ⟨_, h1'⟩
            · cases h1'
            cases h1; cases h1'
            rw [hi] at hi'; cases hi'
            rw [spells_place (keysOkL_mem hk (List.mem_of_getElem? hi)) h2 h2' ha ha']
        | dict hi ha =>
          cases ha' with
          | dict hi' ha' =>
            rcases h1 with h1 | ⟨_, h1⟩
            · rcases h1' with h1' | ⟨_, h1'⟩
              · cases h1; cases h1'
                have e := lookup_of_mem hk.1 hi
                rw [lookup_of_mem hk.1 hi'] at e
                cases e
                rw [spells_place (keysOkD_mem hk.2 hi) h2 h2' ha ha']
              · cases h1'
            · cases h1

theorem spells_inj : ∀ {p p' : List Str} {q : List ForwardSpec.Step}, Canonical p → Canonical p' → Spells p q → Spells p' q → p = p'
  | [], _, _, _, _, hs, hs' => by cases hs; cases hs'; rfl
  | k :: ks, _, _, hc, hc', hs, hs' => by
    cases hs with
    | cons h1 h2 =>
      cases hs' with
      | cons h1' h2' =>
        have := spells_inj (fun k hk => hc k (by simp [hk])) (fun k hk => hc' k (by simp [hk])) h2 h2'
        rw [this]
        congr 1
        rcases h1 with h1 | ⟨h3, h1⟩
        · rcases h1' with h1' | ⟨_, h1'⟩
          · rw [h1] at h1'; cases h1'; rfl
          · rw [h1] at h1'; cases h1'
        · rcases h1' with h1' | ⟨h4, h1'⟩
          · rw [h1] at h1'; cases h1'
          · rw [h1] at h1'
            have e := ForwardSpec.Step.idx.inj h1'
            rw [← hc k (by simp) h3, ← hc' _ (by simp) h4, e]

theorem get_of_at : ∀ {p : List Str} {q : List ForwardSpec.Step} {G : Tree γ} {g : γ}, KeysOk G → Proper p → Spells p q → At G q g → get G p = .ok (.leaf g)
  | [], _, _, _, _, _, hs, ha => by cases hs; cases ha; exact get_nil _
  | k :: ks, _, _, _, hk, hp, hs, ha => by
    rw [get_cons _ _ _ (fun h => hp k (by simp) h.1)]
    have hp' : Proper ks := fun k hk => hp k (by simp [hk])
    cases hs with
    | cons h1 h2 =>
      cases ha with
      | list hi ha =>
        rcases h1 with h1 | ⟨h3, h1⟩
        · cases h1
        cases h1
        simp only [child, h3, hi]
        exact get_of_at (keysOkL_mem hk (List.mem_of_getElem? hi)) hp' h2 ha
      | tuple hi ha =>
        rcases h1 with h1 | ⟨h3, h1⟩
        · cases h1
        cases h1
        simp only [child, h3, hi]
        exact get_of_at (keysOkL_mem hk (List.mem_of_getElem? hi)) hp' h2 ha
      | dict hi ha =>
        rcases h1 with h1 | ⟨h3, h1⟩
        · cases h1
          simp only [child, lookup_of_mem hk.1 hi]
          exact get_of_at (keysOkD_mem hk.2 hi) hp' h2 ha
        · cases h1

/-- A prefix of an address is not an address. -/
theorem not_prefix {p p' : List Str} {q q' : List ForwardSpec.Step} {G : Tree γ} {g g' : γ} (hk : KeysOk G) (hs : Spells p q) (hs' : Spells p' q') (ha : At G q g)
    (ha' : At G q' g') (hpre : p <+: p') : p = p' := by
  obtain ⟨r, rfl⟩ := hpre
  induction p generalizing q q' G with
  | nil =>
    cases hs
    cases ha
    cases ha'
    cases hs'
    rfl
  | cons k ks ih =>
    cases hs with
    | cons h1 h2 =>
      cases hs' with
      | cons h1' h2' =>
        cases ha with
        | list hi ha =>
          cases ha' with
          | list hi' ha' =>
            rcases h1 with h1 | ⟨_, h1⟩
            · cases h1
            rcases h1' with h1' | ⟨_, h1'⟩
            · cases h1'
            cases h1; cases h1'
            rw [hi] at hi'; cases hi'
            rw [List.cons_append, ← ih (keysOkL_mem hk (List.mem_of_getElem? hi)) h2 ha ha' h2']
        | tuple hi ha =>
          cases ha' with
          | tuple hi' ha' =>
            rcases h1 with h1 | ⟨_, h1⟩
            · cases h1
            rcases h1' with h1' | ⟨_, h1'⟩
            · cases h1'
            cases h1; cases h1'
            rw [hi] at hi'; cases hi'
            rw [List.cons_append, ← ih (keysOkL_mem hk (List.mem_of_getElem? hi)) h2 ha ha' h2']
        | dict hi ha =>
          cases ha' with
          | dict hi' ha' =>
            rcases h1 with h1 | ⟨_, h1⟩
            · rcases h1' with h1' | ⟨_, h1'⟩
              · cases h1; cases h1'
                have e := lookup_of_mem hk.1 hi
                rw [lookup_of_mem hk.1 hi'] at e
                cases e
                rw [List.cons_append, ← ih (keysOkD_mem hk.2 hi) h2 ha ha' h2']
              · cases h1'
            · cases h1

/-- The places of the leaves of a tree in the order of `jax.tree.leaves`. -/
def places (t : Tree γ) : List (List ForwardSpec.Step) := (entries (norm t)).map Prod.fst

theorem entries_nodup {t : Tree γ} (hk : KeysOk t) : (entries (norm t)).Nodup ∧ (places t).Nodup := by
  have h1 := entries_sorted _ (sorted_norm t hk)
  have hirr : ∀ p, ¬ Precedes p p := fun p h => Forward.precedes_asymm h h
  refine ⟨h1.imp fun {a b} h => ?_, List.pairwise_map.2 (h1.imp fun {a b} h => ?_)⟩
  · rintro rfl; exact hirr _ h
  · intro e; rw [e] at h; exact hirr _ h

theorem places_sorted {t : Tree γ} (hk : KeysOk t) : (places t).Pairwise Precedes :=
  List.pairwise_map.2 (entries_sorted _ (sorted_norm t hk))

theorem mem_places {t : Tree γ} {q : List ForwardSpec.Step} : q ∈ places t ↔ ∃ g, At t q g := by
  simp only [places, List.mem_map, Prod.exists, exists_and_right, exists_eq_right, mem_entries, at_norm]

/-- A tree built from the addresses of all leaves of `G` has its values in the order of the leaves of `G`. -/
theorem extend_order {eqv : Tree β → Tree β → Bool} (heqv : ∀ v b, eqv v (.leaf b) = true → v = .leaf b) {G : Tree γ} (hk : KeysOk G)
    (hdig : ∀ q g k, At G q g → .key k ∈ q → isDigit k = false) {pfs : List (List Str × β)} (hnd : (pfs.map Prod.fst).Nodup)
    (hp : ∀ pf ∈ pfs, pf.1 ≠ [] ∧ Proper pf.1 ∧ Canonical pf.1 ∧ ∃ g, get G pf.1 = .ok (.leaf g)) (hlen : pfs.length = (jaxLeaves G).length) {t : Tree β}
    (h : extend eqv .none (pfs.map fun p => (p.1, .leaf p.2)) = .ok t) :
    ∃ pfs' : List (List Str × β), pfs'.Perm pfs ∧ jaxLeaves t = pfs'.map Prod.snd ∧ List.Forall₂ (fun pf q => Spells pf.1 q) pfs' (places G) := by
  have hq : ∀ pf : {x // x ∈ pfs}, ∃ q, Spells pf.1.1 q ∧ ∃ g, At G q g := by
    rintro ⟨pf, hpf⟩
    obtain ⟨_, h2, _, g, hg⟩ := hp pf hpf
    obtain ⟨q, h3, h4⟩ := at_of_get h2 hg (.leaf g)
    rw [List.append_nil] at h4
    exact ⟨q, h3, g, h4⟩
  choose qf hq1 hq2 using hq
  set L : List ((List Str × β) × List ForwardSpec.Step) := pfs.attach.map fun pf => (pf.1, qf pf) with hL
  have hL1 : L.map Prod.fst = pfs := by rw [hL, List.map_map]; exact List.attach_map_subtype_val pfs
  have hLm : ∀ x ∈ L, x.1 ∈ pfs ∧ Spells x.1.1 x.2 ∧ ∃ g, At G x.2 g := by
    intro x hx
    obtain ⟨pf, -, rfl⟩ := List.mem_map.1 hx
    exact ⟨pf.2, hq1 pf, hq2 pf⟩
  have hLp : ∀ pf ∈ pfs, ∃ x ∈ L, x.1 = pf := by
    intro pf hpf
    exact ⟨(pf, qf ⟨pf, hpf⟩), List.mem_map.2 ⟨⟨pf, hpf⟩, by simp, rfl⟩, rfl⟩
  have hdiv : (pfs.map fun p => (p.1, (Tree.leaf p.2 : Tree β))).Pairwise fun a b => Diverge a.1 b.1 := by
    rw [List.pairwise_map]
    rw [List.Nodup, List.pairwise_map] at hnd
    refine hnd.imp_of_mem fun {a b} ha hb hab => ?_
    obtain ⟨x, hx, rfl⟩ := hLp a ha
    obtain ⟨y, hy, rfl⟩ := hLp b hb
    obtain ⟨_, hx1, g, hx2⟩ := hLm x hx
    obtain ⟨_, hy1, g', hy2⟩ := hLm y hy
    exact Conn.diverge_of_free (hp _ ha).2.2.1 (hp _ hb).2.2.1 (fun hpre => hab (not_prefix hk hx1 hy1 hx2 hy2 hpre)) (fun hpre => hab (not_prefix hk hy1 hx1 hy2 hx2 hpre).symm)
  have hcomp : pfs ≠ [] → Compat t G := by
    intro hne
    have hlead : ∀ pf ∈ pfs, Leads G pf.1 := by
      intro pf hpf
      obtain ⟨x, hx, rfl⟩ := hLp pf hpf
      obtain ⟨_, hx1, g, hx2⟩ := hLm x hx
      exact leads_of_spells hk hx1 hx2 (fun k hk => hdig _ _ _ hx2 hk)
    refine extend_compat (fun g e => ?_) hne hlead (fun pf hpf => (hp pf hpf).2.1) h
    obtain ⟨pf, hpf⟩ := List.exists_mem_of_ne_nil _ hne
    have h1 := hlead pf hpf
    rw [e] at h1
    have h2 := (hp pf hpf).1
    cases hpf1 : pf.1 with
    | nil => exact h2 hpf1
    | cons k ks => rw [hpf1] at h1; cases h1
  have hto : ∀ q b, At t q b → ∃ x ∈ L, x.2 = q ∧ x.1.2 = b := by
    intro q b ha
    obtain ⟨pf', hpf', q', r, rfl, hs, har⟩ := extend_none_at h ha
    obtain ⟨pf, hpf, rfl⟩ := List.mem_map.1 hpf'
    cases har
    rw [List.append_nil] at ha ⊢
    obtain ⟨x, hx, rfl⟩ := hLp pf hpf
    obtain ⟨_, hx1, g, hx2⟩ := hLm x hx
    obtain ⟨g', hg'⟩ := compat_at (hcomp (List.ne_nil_of_mem hpf)) ha
    exact ⟨x, hx, spells_place hk hx1 hs hx2 hg', rfl⟩
  have hfrom : ∀ x ∈ L, At t x.2 x.1.2 := by
    intro x hx
    obtain ⟨hx0, hx1, g, hx2⟩ := hLm x hx
    obtain ⟨v, hv, hv'⟩ := Props.C11_extend_reads_fill eqv .none t _ h (by
      intro pf hpf
      obtain ⟨y, hy, rfl⟩ := List.mem_map.1 hpf
      exact ⟨(hp y hy).1, (hp y hy).2.1⟩) hdiv (x.1.1, .leaf x.1.2) (List.mem_map.2 ⟨x.1, hx0, rfl⟩)
    have hvl : v = .leaf x.1.2 := by
      rcases hv' with e | e | e
      · exact e
      · exact heqv _ _ e
      · cases e
    subst hvl
    obtain ⟨q', h3, h4⟩ := at_of_get (hp _ hx0).2.1 hv (.leaf x.1.2)
    rw [List.append_nil] at h4
    obtain ⟨g', hg'⟩ := compat_at (hcomp (List.ne_nil_of_mem hx0)) h4
    rw [spells_place hk hx1 h3 hx2 hg']
    exact h4
  have hkt : KeysOk t := by
    by_cases hne : pfs = []
    · subst hne
      simp only [extend, List.map_nil, List.filter_nil, List.all_nil, if_true, extendAll, restoreTuples, Except.ok.injEq] at h
      subst h
      trivial
    · exact compat_keysOk (hcomp hne)
  have hLn : (L.map Prod.snd).Nodup := by
    rw [List.Nodup, List.pairwise_map]
    have : L.Pairwise fun a b => a.1.1 ≠ b.1.1 := by
      rw [← hL1, List.map_map, List.Nodup, List.pairwise_map] at hnd
      exact hnd
    refine this.imp_of_mem fun {a b} ha hb hab e => hab ?_
    obtain ⟨ha0, ha1, -⟩ := hLm a ha
    obtain ⟨hb0, hb1, -⟩ := hLm b hb
    rw [e] at ha1
    exact spells_inj (hp _ ha0).2.2.1 (hp _ hb0).2.2.1 ha1 hb1
  have hperm : (entries (norm t)).Perm (L.map fun x => (x.2, x.1.2)) := by
    have hn2 : (L.map fun x => (x.2, x.1.2)).Nodup := by
      apply List.Nodup.of_map Prod.fst
      rw [List.map_map]
      exact hLn
    rw [List.perm_ext_iff_of_nodup (entries_nodup hkt).1 hn2]
    rintro ⟨q, b⟩
    rw [mem_entries, at_norm, List.mem_map]
    constructor
    · intro ha
      obtain ⟨x, hx, e1, e2⟩ := hto q b ha
      exact ⟨x, hx, by rw [e1, e2]⟩
    · rintro ⟨x, hx, e⟩
      cases e
      exact hfrom x hx
  have hpl : (places t).Perm (L.map Prod.snd) := by
    have := hperm.map Prod.fst
    rw [List.map_map] at this
    exact this
  have hpG : (L.map Prod.snd).Perm (places G) := by
    refine (List.subperm_of_subset hLn fun q hq => ?_).perm_of_length_le ?_
    · obtain ⟨x, hx, rfl⟩ := List.mem_map.1 hq
      exact mem_places.2 (hLm x hx).2.2
    · rw [places, List.length_map, List.length_map, hL, List.length_map, List.length_attach, hlen, jaxLeaves, ← entries_snd, List.length_map]
  have hpe : places t = places G :=
    (hpl.trans hpG).eq_of_pairwise (fun a b _ _ h h' => absurd h' (Forward.precedes_asymm h)) (places_sorted hkt) (places_sorted hk)
  obtain ⟨L', he, hL'⟩ : Relation.Comp (fun x1 x2 => x1 = List.map (fun x : (List Str × β) × List ForwardSpec.Step => (x.2, x.1.2)) x2) (fun x1 x2 => x1.Perm x2)
      (entries (norm t)) L := by
    rw [List.eq_map_comp_perm]
    exact hperm
  refine ⟨L'.map Prod.fst, hL1 ▸ hL'.map Prod.fst, ?_, ?_⟩
  · rw [jaxLeaves, ← entries_snd, he, List.map_map, List.map_map]
    rfl
  · rw [← hpe, places, he, List.map_map, List.forall₂_map_left_iff, List.forall₂_map_right_iff, List.forall₂_same]
    exact fun x hx => (hLm x (hL'.subset hx)).2.1

end Verif.Tree
