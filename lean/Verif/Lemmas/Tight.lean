import Verif.Lemmas.NonSeqMain
import Verif.Lemmas.TreePrefix
import Verif.Lemmas.ConnOuter

/-! A tree built from nothing by `extend` is determined, up to the order of dictionaries, by where its leaves are. -/

namespace Verif.Tree
open TreeSpec PathSpec DataflowSpec Concretize Conn

variable {β : Type}

/-- Nothing superfluous: containers are not empty, lists do not end with a gap, and dictionaries are used only where lists cannot be. -/
inductive Tight : Tree β → Prop
  | leaf (b : β) : Tight (.leaf b)
  | list {ts : List (Tree β)} : ts ≠ [] → (∀ c, ts.getLast? = some c → c ≠ .none) → (∀ c ∈ ts, c ≠ .none → Tight c) → Tight (.list ts)
  | dict {kvs : List (Str × Tree β)} : (kvs.map Prod.fst).Nodup → (∃ p ∈ kvs, isDigit p.1 = false) →
      (∀ p ∈ kvs, p.1 ≠ [] ∧ Canonical [p.1]) → (∀ p ∈ kvs, Tight p.2) → Tight (.dict kvs)

theorem isDigit_ofNat (i : Nat) : isDigit (ofNat i) = true := by
  unfold isDigit
  have h1 := ofNat_ne_nil i
  have h2 := ofNat_isDigit i
  simp only [Bool.and_eq_true, List.all_eq_true]
  exact ⟨by cases h : ofNat i with
    | nil => exact absurd h h1
    | cons a l => rfl, h2⟩

theorem get_list_ofNat (ts : List (Tree β)) (i : Nat) (r : List Str) : get (.list ts) (ofNat i :: r) = match ts[i]? with
    | some c => get c r
    | Option.none => .error .indexError := by
  rw [get_cons _ _ _ (by rintro ⟨h, -⟩; exact ofNat_ne_nil i h)]
  simp only [child, isDigit_ofNat, Bool.not_true, Bool.false_eq_true, if_false, toInt_ofNat]
  cases ts[i]? <;> rfl

theorem get_dict_cons (kvs : List (Str × Tree β)) {k : Str} (hk : k ≠ []) (r : List Str) : get (.dict kvs) (k :: r) = match kvs.lookup k with
    | some c => get c r
    | Option.none => .error .keyError := by
  rw [get_cons _ _ _ (by rintro ⟨h, -⟩; exact hk h)]
  simp only [child]
  cases kvs.lookup k <;> rfl

theorem get_list_nondigit (ts : List (Tree β)) {k : Str} (hk : k ≠ []) (hd : isDigit k = false) (r : List Str) :
    get (.list ts) (k :: r) = .error .keyError := by
  rw [get_cons _ _ _ (by rintro ⟨h, -⟩; exact hk h)]
  simp [child, hd]

theorem canonical_cons {k : Str} {r : List Str} (hk : Canonical [k]) (hr : Canonical r) : Canonical (k :: r) := by
  intro x hx
  rcases List.mem_cons.1 hx with rfl | hx
  · exact hk _ (by simp)
  · exact hr x hx

theorem proper_cons {k : Str} {r : List Str} (hk : k ≠ []) (hr : Proper r) : Proper (k :: r) := by
  intro x hx
  rcases List.mem_cons.1 hx with rfl | hx
  · exact hk
  · exact hr x hx

theorem canonical_ofNat (i : Nat) : Canonical [ofNat i] := by
  intro x hx _
  rw [List.mem_singleton] at hx
  subst hx
  rw [toInt_ofNat]

theorem Tight.ne_none {t : Tree β} (h : Tight t) : t ≠ .none := by
  rintro rfl; cases h

theorem Tight.leaf_in {t : Tree β} (h : Tight t) : ∃ r k, Proper r ∧ Canonical r ∧ get t r = .ok (.leaf k) := by
  induction h with
  | leaf b => exact ⟨[], b, by simp [Proper], by simp [Canonical], by simp⟩
  | @list ts hne hl _ ih =>
    obtain ⟨c, hc⟩ : ∃ c, ts.getLast? = some c := by
      cases h : ts.getLast? with
      | none => rw [List.getLast?_eq_none_iff] at h; exact absurd h hne
      | some c => exact ⟨c, rfl⟩
    obtain ⟨r, k, h1, h2, h3⟩ := ih c (List.mem_of_getLast? hc) (hl c hc)
    refine ⟨ofNat (ts.length - 1) :: r, k, proper_cons (ofNat_ne_nil _) h1, canonical_cons (canonical_ofNat _) h2, ?_⟩
    rw [get_list_ofNat, ← List.getLast?_eq_getElem?, hc]
    exact h3
  | @dict kvs hn hd hk _ ih =>
    obtain ⟨p, hp, -⟩ := hd
    obtain ⟨r, k, h1, h2, h3⟩ := ih p hp
    refine ⟨p.1 :: r, k, proper_cons (hk p hp).1 h1, canonical_cons (hk p hp).2 h2, ?_⟩
    rw [get_dict_cons _ (hk p hp).1, lookup_of_mem hn hp]
    exact h3

variable {A : Type}

/-- The leaves of both trees are in the same places and stand for the same values up to the order of dictionaries. -/
def SameLeaves (f f' : Str → Tree A) (t t' : Tree Str) : Prop :=
  ∀ r v, Proper r → Canonical r → ((∃ k, get t r = .ok (.leaf k) ∧ (f k).norm = v) ↔ ∃ k, get t' r = .ok (.leaf k) ∧ (f' k).norm = v)

theorem SameLeaves.symm {f f' : Str → Tree A} {t t' : Tree Str} (h : SameLeaves f f' t t') : SameLeaves f' f t' t :=
  fun r v hp hc => (h r v hp hc).symm

theorem substL_eq (f : Str → Tree A) (ts : List (Tree Str)) : substL f ts = ts.map (subst f) := by
  induction ts with
  | nil => rfl
  | cons t ts ih => rw [substL, ih, List.map_cons]

theorem substD_eq (f : Str → Tree A) (kvs : List (Str × Tree Str)) : substD f kvs = kvs.map fun p => (p.1, subst f p.2) := by
  induction kvs with
  | nil => rfl
  | cons p kvs ih => obtain ⟨k, t⟩ := p; rw [substD, ih, List.map_cons]

theorem SameLeaves.moves {f f' : Str → Tree A} {t t' : Tree Str} (h : SameLeaves f f' t t') {r : List Str} {k : Str} (hp : Proper r)
    (hc : Canonical r) (e : get t r = .ok (.leaf k)) : ∃ k', get t' r = .ok (.leaf k') := by
  obtain ⟨k', h', -⟩ := (h r (f k).norm hp hc).1 ⟨k, e, rfl⟩
  exact ⟨k', h'⟩

theorem not_list_dict {f f' : Str → Tree A} {ts : List (Tree Str)} {kvs : List (Str × Tree Str)} (ht : Tight (.dict kvs))
    (h : SameLeaves f f' (.list ts) (.dict kvs)) : False := by
  cases ht with
  | dict hn hd hk hT =>
    obtain ⟨p, hp, hpd⟩ := hd
    obtain ⟨r, k, h1, h2, h3⟩ := (hT p hp).leaf_in
    obtain ⟨k', h'⟩ := h.symm.moves (r := p.1 :: r) (k := k) (proper_cons (hk p hp).1 h1) (canonical_cons (hk p hp).2 h2)
      (by rw [get_dict_cons _ (hk p hp).1, lookup_of_mem hn hp]; exact h3)
    rw [get_list_nondigit _ (hk p hp).1 hpd] at h'
    cases h'

theorem list_le {f f' : Str → Tree A} {ts ts' : List (Tree Str)} (ht : Tight (.list ts)) (h : SameLeaves f f' (.list ts) (.list ts')) :
    ts.length ≤ ts'.length := by
  cases ht with
  | list hne hl hT =>
    obtain ⟨c, hc⟩ : ∃ c, ts.getLast? = some c := by
      cases h : ts.getLast? with
      | none => rw [List.getLast?_eq_none_iff] at h; exact absurd h hne
      | some c => exact ⟨c, rfl⟩
    obtain ⟨r, k, h1, h2, h3⟩ := (hT c (List.mem_of_getLast? hc) (hl c hc)).leaf_in
    obtain ⟨k', h'⟩ := h.moves (r := ofNat (ts.length - 1) :: r) (k := k) (proper_cons (ofNat_ne_nil _) h1)
      (canonical_cons (canonical_ofNat _) h2) (by rw [get_list_ofNat, ← List.getLast?_eq_getElem?, hc]; exact h3)
    rw [get_list_ofNat] at h'
    by_contra hlt
    rw [List.getElem?_eq_none (by omega)] at h'
    cases h'

theorem get_none (r : List Str) (hp : Proper r) (k : β) : get (.none : Tree β) r ≠ .ok (.leaf k) := by
  cases r with
  | nil => simp
  | cons a l =>
    rw [get_cons _ _ _ (by rintro ⟨h, -⟩; exact hp a (by simp) h)]
    simp [child]

theorem SameLeaves.none {f f' : Str → Tree A} {t : Tree Str} (h : SameLeaves f f' .none t) (ht : t ≠ .none → Tight t) : t = .none := by
  by_contra hn
  obtain ⟨r, k, h1, h2, h3⟩ := (ht hn).leaf_in
  obtain ⟨k', h'⟩ := h.symm.moves h1 h2 h3
  exact get_none r h1 _ h'

theorem normL_eq' (ts : List (Tree A)) : normL ts = ts.map norm := by
  induction ts with
  | nil => rfl
  | cons t ts ih => rw [normL, ih, List.map_cons]

theorem Tight.determined {f f' : Str → Tree A} {t : Tree Str} (h : Tight t) : ∀ {t' : Tree Str}, Tight t' → SameLeaves f f' t t' →
    norm (subst f t) = norm (subst f' t') := by
  induction h with
  | leaf b =>
    intro t' _ hs
    obtain ⟨k, h1, h2⟩ := (hs [] (f b).norm (by simp [Proper]) (by simp [Canonical])).1 ⟨b, by simp, rfl⟩
    simp only [get_nil, Except.ok.injEq] at h1
    subst h1
    simp only [subst, h2]
  | @list ts hne hl hT ih =>
    intro t' ht' hs
    cases ht' with
    | leaf b =>
      obtain ⟨k, h1, -⟩ := (hs [] (f' b).norm (by simp [Proper]) (by simp [Canonical])).2 ⟨b, by simp, rfl⟩
      simp at h1
    | dict a b c d => exact (not_list_dict (.dict a b c d) hs).elim
    | @list ts' hne' hl' hT' =>
      have hlen : ts.length = ts'.length := Nat.le_antisymm (list_le (.list hne hl hT) hs) (list_le (.list hne' hl' hT') hs.symm)
      simp only [subst, norm, substL_eq, normL_eq', List.map_map]
      congr 1
      apply List.ext_getElem
      · simp [hlen]
      · intro i h1 h2
        simp only [List.getElem_map, Function.comp_apply]
        have i1 : i < ts.length := by simpa using h1
        have i2 : i < ts'.length := by simpa using h2
        have hs' : SameLeaves f f' ts[i] ts'[i] := by
          intro r v hp hc
          have := hs (ofNat i :: r) v (proper_cons (ofNat_ne_nil _) hp) (canonical_cons (canonical_ofNat _) hc)
          rw [get_list_ofNat, get_list_ofNat, List.getElem?_eq_getElem i1, List.getElem?_eq_getElem i2] at this
          exact this
        by_cases e : ts[i] = .none
        · have e' : ts'[i] = .none := by
            rw [e] at hs'
            exact hs'.none (hT' _ (List.getElem_mem i2))
          rw [e, e']; rfl
        · have e' : ts'[i] ≠ .none := by
            intro e'
            rw [e'] at hs'
            exact e (hs'.symm.none (hT _ (List.getElem_mem i1)))
          exact ih _ (List.getElem_mem i1) e (hT' _ (List.getElem_mem i2) e') hs'
  | @dict kvs hn hd hk hT ih =>
    intro t' ht' hs
    cases ht' with
    | leaf b =>
      obtain ⟨k, h1, -⟩ := (hs [] (f' b).norm (by simp [Proper]) (by simp [Canonical])).2 ⟨b, by simp, rfl⟩
      simp at h1
    | list a b c => exact (not_list_dict (.dict hn hd hk hT) hs.symm).elim
    | @dict kvs' hn' hd' hk' hT' =>
      have child : ∀ {g g' : Str → Tree A} {l l' : List (Str × Tree Str)}, (l.map Prod.fst).Nodup →
          (∀ p ∈ l, p.1 ≠ [] ∧ Canonical [p.1]) → (∀ p ∈ l, Tight p.2) → SameLeaves g g' (.dict l) (.dict l') →
          ∀ p ∈ l, ∃ c', (p.1, c') ∈ l' ∧ SameLeaves g g' p.2 c' := by
        intro g g' l l' hn hk hT hs p hp
        obtain ⟨r, k, h1, h2, h3⟩ := (hT p hp).leaf_in
        obtain ⟨k', h'⟩ := hs.moves (r := p.1 :: r) (k := k) (proper_cons (hk p hp).1 h1) (canonical_cons (hk p hp).2 h2)
          (by rw [get_dict_cons _ (hk p hp).1, lookup_of_mem hn hp]; exact h3)
        rw [get_dict_cons _ (hk p hp).1] at h'
        cases hl : l'.lookup p.1 with
        | none => rw [hl] at h'; cases h'
        | some c' =>
          refine ⟨c', mem_of_lookup hl, ?_⟩
          intro r v hpr hc
          have := hs (p.1 :: r) v (proper_cons (hk p hp).1 hpr) (canonical_cons (hk p hp).2 hc)
          rw [get_dict_cons _ (hk p hp).1, get_dict_cons _ (hk p hp).1, lookup_of_mem hn hp, hl] at this
          exact this
      simp only [subst, norm, substD_eq, normD_eq, List.map_map]
      congr 1
      have e1 : ((kvs.map ((fun p : Str × Tree A => (p.1, norm p.2)) ∘ fun p : Str × Tree Str => (p.1, subst f p.2))).map Prod.fst) =
          kvs.map Prod.fst := by rw [List.map_map]; rfl
      have e2 : ((kvs'.map ((fun p : Str × Tree A => (p.1, norm p.2)) ∘ fun p : Str × Tree Str => (p.1, subst f' p.2))).map Prod.fst) =
          kvs'.map Prod.fst := by rw [List.map_map]; rfl
      refine sorted_perm_eq ?_ (by rw [e1]; exact hn)
      rw [List.perm_ext_iff_of_nodup (List.Nodup.of_map Prod.fst (by rw [e1]; exact hn)) (List.Nodup.of_map Prod.fst (by rw [e2]; exact hn'))]
      intro x
      constructor
      · intro hx
        obtain ⟨p, hp, rfl⟩ := List.mem_map.1 hx
        obtain ⟨c', hc', hs'⟩ := child hn hk hT hs p hp
        refine List.mem_map.2 ⟨(p.1, c'), hc', ?_⟩
        simp only [Function.comp_apply]
        rw [ih p hp (hT' _ hc') hs']
      · intro hx
        obtain ⟨p, hp, rfl⟩ := List.mem_map.1 hx
        obtain ⟨c, hc, hs'⟩ := child hn' hk' hT' hs.symm p hp
        refine List.mem_map.2 ⟨(p.1, c), hc, ?_⟩
        simp only [Function.comp_apply]
        rw [ih _ hc (hT' p hp) hs'.symm]

/-! ### Trees built by `extend` -/

/-- What a list must satisfy. -/
def TightL (ts : List (Tree β)) : Prop := (∀ c, ts.getLast? = some c → c ≠ .none) ∧ ∀ c ∈ ts, c ≠ .none → Tight c

/-- What a dictionary must satisfy, apart from the kinds of its keys. -/
def TightD (kvs : List (Str × Tree β)) : Prop :=
  (kvs.map Prod.fst).Nodup ∧ (∀ p ∈ kvs, p.1 ≠ [] ∧ Canonical [p.1]) ∧ ∀ p ∈ kvs, Tight p.2

theorem tightL_set {ts : List (Tree β)} (h : TightL ts) (i : Nat) {c : Tree β} (hc : Tight c) :
    (padTo ts i).set i c ≠ [] ∧ TightL ((padTo ts i).set i c) := by
  have hlen : i < (padTo ts i).length := length_padTo _ _
  refine ⟨?_, ?_, ?_⟩
  · intro e
    have := congrArg List.length e
    simp at this
    rw [this] at hlen
    simp at hlen
  · intro d hd
    rw [List.getLast?_eq_getElem?, List.length_set] at hd
    by_cases e : i = (padTo ts i).length - 1
    · rw [← e, List.getElem?_set_self hlen] at hd
      cases hd
      exact hc.ne_none
    · rw [List.getElem?_set_ne e] at hd
      have hlt : i < ts.length := by
        by_contra hge
        apply e
        unfold padTo
        simp
        omega
      have hp : padTo ts i = ts := by
        unfold padTo
        rw [show i + 1 - ts.length = 0 by omega]
        simp
      rw [hp, ← List.getLast?_eq_getElem?] at hd
      exact h.1 d hd
  · intro d hd hdn
    rcases List.mem_or_eq_of_mem_set hd with hd | rfl
    · unfold padTo at hd
      rcases List.mem_append.1 hd with hd | hd
      · exact h.2 d hd hdn
      · exact absurd (List.eq_of_mem_replicate hd) hdn
    · exact hc

theorem tightD_set {kvs : List (Str × Tree β)} (h : TightD kvs) {k : Str} (hk : k ≠ [] ∧ Canonical [k]) {c : Tree β} (hc : Tight c) :
    TightD (dictSet kvs k c) := by
  refine ⟨dictSet_nodup h.1 k c, ?_, ?_⟩
  · intro p hp
    rcases mem_dictSet hp with hp | rfl
    · exact h.2.1 p hp
    · exact hk
  · intro p hp
    rcases mem_dictSet hp with hp | rfl
    · exact h.2.2 p hp
    · exact hc

theorem keys_dictSet (kvs : List (Str × Tree β)) (k : Str) (c : Tree β) :
    (∀ x ∈ kvs.map Prod.fst, x ∈ (dictSet kvs k c).map Prod.fst) ∧ k ∈ (dictSet kvs k c).map Prod.fst := by
  rw [dictSet_keys]
  split
  · next h => exact ⟨fun x hx => hx, h⟩
  · exact ⟨fun x hx => List.mem_append_left _ hx, by simp⟩

/-- Containers that can be extended. -/
def Growing : Tree β → Prop
  | .list ts => TightL ts
  | .dict kvs => TightD kvs
  | _ => True

/-- What one step of `extend` makes of a container. -/
def Grown (t t' : Tree β) (k : Str) : Prop :=
  (∃ ts ts', t = .list ts ∧ t' = .list ts' ∧ ts' ≠ [] ∧ TightL ts' ∧ isDigit k = true) ∨
  ∃ kvs kvs', t = .dict kvs ∧ t' = .dict kvs' ∧ TightD kvs' ∧ (∀ x ∈ kvs.map Prod.fst, x ∈ kvs'.map Prod.fst) ∧ k ∈ kvs'.map Prod.fst

theorem Tight.growing {t : Tree β} (h : Tight t) : Growing t := by
  cases h with
  | leaf => trivial
  | list a b c => exact ⟨b, c⟩
  | dict a b c d => exact ⟨a, c, d⟩

theorem Tight.not_tuple {t : Tree β} (h : Tight t) : ∀ ts, t ≠ .tuple ts := by
  rintro ts rfl; cases h

theorem growing_fresh (n : Str) : Growing (freshNode n : Tree β) := by
  unfold freshNode
  split
  · exact ⟨by simp, by simp⟩
  · exact ⟨by simp, by simp, by simp⟩

theorem Grown.tight {t t' : Tree β} {k : Str} (h : Grown t t' k) (ht : Tight t ∨ t = freshNode k) : Tight t' := by
  rcases h with ⟨ts, ts', rfl, rfl, h1, h2, -⟩ | ⟨kvs, kvs', rfl, rfl, h1, h2, h3⟩
  · exact .list h1 h2.1 h2.2
  · refine .dict h1.1 ?_ h1.2.1 h1.2.2
    rcases ht with ht | ht
    · cases ht with
      | dict _ hd _ _ =>
        obtain ⟨p, hp, hpd⟩ := hd
        obtain ⟨q, hq, e⟩ := List.mem_map.1 (h2 p.1 (List.mem_map_of_mem hp))
        exact ⟨q, hq, by rw [e]; exact hpd⟩
    · unfold freshNode at ht
      split at ht
      · cases ht
      · next hd =>
        obtain ⟨q, hq, e⟩ := List.mem_map.1 h3
        exact ⟨q, hq, by rw [e]; simpa using hd⟩

theorem extendOne_grown {eqv : Tree β → Tree β → Bool} {b : β} :
    ∀ {ks : List Str} {k : Str} {t t' : Tree β} {pre : List Str} {rec : List (List Str)}, Proper (k :: ks) → Canonical (k :: ks) →
      Growing t → (∀ ts, t ≠ .tuple ts) → extendOne eqv (.leaf b) t pre (k :: ks) = .ok (t', rec) → rec = [] ∧ Grown t t' k := by
  intro ks
  induction ks with
  | nil =>
    intro k t t' pre rec hp hc hg hnt h
    have hk : k ≠ [] ∧ Canonical [k] := ⟨hp k (by simp), hc⟩
    rw [extendOne.eq_def] at h
    simp only at h
    cases t with
    | leaf b => simp at h
    | none => simp at h
    | tuple ts => exact absurd rfl (hnt ts)
    | list ts =>
      simp only [ne_eq, not_true_eq_false, false_and, if_false, if_true] at h
      by_cases hd : isDigit k = true
      · simp only [hd, Bool.not_true, Bool.false_eq_true, if_false] at h
        split at h
        · simp only [Except.ok.injEq, Prod.mk.injEq] at h
          obtain ⟨rfl, rfl⟩ := h
          obtain ⟨h1, h2⟩ := tightL_set (i := toInt k) hg (.leaf b)
          exact ⟨rfl, .inl ⟨ts, _, rfl, rfl, h1, h2, hd⟩⟩
        · next hcur =>
          split at h
          · simp at h
          · simp only [Except.ok.injEq, Prod.mk.injEq] at h
            obtain ⟨rfl, rfl⟩ := h
            have hlt : toInt k < ts.length := by
              by_contra hge
              rcases getD_padTo ts (toInt k) with e | ⟨-, e⟩
              · rw [List.getElem?_eq_none (by omega)] at e; cases e
              · rw [e] at hcur; exact hcur rfl
            have hpad : padTo ts (toInt k) = ts := by
              unfold padTo
              rw [show toInt k + 1 - ts.length = 0 by omega]
              simp
            rw [hpad]
            refine ⟨rfl, .inl ⟨ts, ts, rfl, rfl, ?_, hg, hd⟩⟩
            rintro rfl
            simp at hlt
      · simp [hd] at h
    | dict kvs =>
      simp only [ne_eq, not_true_eq_false, false_and, if_false, if_true] at h
      cases hl : kvs.lookup k with
      | none =>
        rw [hl] at h
        simp only [Except.ok.injEq, Prod.mk.injEq] at h
        obtain ⟨rfl, rfl⟩ := h
        obtain ⟨h1, h2⟩ := keys_dictSet kvs k (.leaf b)
        exact ⟨rfl, .inr ⟨kvs, _, rfl, rfl, tightD_set hg hk (.leaf b), h1, h2⟩⟩
      | some cur =>
        rw [hl] at h
        simp only at h
        split at h
        · simp at h
        · simp only [Except.ok.injEq, Prod.mk.injEq] at h
          obtain ⟨rfl, rfl⟩ := h
          exact ⟨rfl, .inr ⟨kvs, kvs, rfl, rfl, hg, fun _ h => h, List.mem_map.2 ⟨_, mem_of_lookup hl, rfl⟩⟩⟩
  | cons n ks ih =>
    intro k t t' pre rec hp hc hg hnt h
    have hk : k ≠ [] ∧ Canonical [k] := ⟨hp k (by simp), fun x hx => hc x (by rw [List.mem_singleton] at hx; simp [hx])⟩
    have hp' : Proper (n :: ks) := fun x hx => hp x (List.mem_cons_of_mem _ hx)
    have hc' : Canonical (n :: ks) := fun x hx => hc x (List.mem_cons_of_mem _ hx)
    have hfresh : ∀ {c : Tree β} {pre rec}, extendOne eqv (.leaf b) (freshNode n) pre (n :: ks) = .ok (c, rec) → rec = [] ∧ Tight c := by
      intro c pre rec h
      obtain ⟨h1, h2⟩ := ih hp' hc' (growing_fresh n) (by intro ts; unfold freshNode; split <;> simp) h
      exact ⟨h1, h2.tight (.inr rfl)⟩
    have hold : ∀ {cur c : Tree β} {pre rec}, Tight cur → extendOne eqv (.leaf b) cur pre (n :: ks) = .ok (c, rec) → rec = [] ∧ Tight c := by
      intro cur c pre rec hcur h
      obtain ⟨h1, h2⟩ := ih hp' hc' hcur.growing hcur.not_tuple h
      exact ⟨h1, h2.tight (.inl hcur)⟩
    rw [extendOne.eq_def] at h
    simp only at h
    cases t with
    | leaf b => simp at h
    | none => simp at h
    | tuple ts => exact absurd rfl (hnt ts)
    | list ts =>
      simp only [ne_eq, not_true_eq_false, false_and, if_false, reduceCtorEq, List.headD_cons, List.nil_append] at h
      by_cases hd : isDigit k = true
      · simp only [hd, Bool.not_true, Bool.false_eq_true, if_false] at h
        split at h
        · split at h
          · next c rec' hc1 =>
            simp only [Except.ok.injEq, Prod.mk.injEq] at h
            obtain ⟨rfl, rfl⟩ := h
            obtain ⟨e, hT⟩ := hfresh hc1
            obtain ⟨h1, h2⟩ := tightL_set (i := toInt k) hg hT
            exact ⟨e, .inl ⟨ts, _, rfl, rfl, h1, h2, hd⟩⟩
          · simp at h
        · next hcur =>
          have hcT : Tight ((padTo ts (toInt k)).getD (toInt k) .none) := by
            rcases getD_padTo ts (toInt k) with e | ⟨-, e⟩
            · exact hg.2 _ (List.mem_of_getElem? e) (fun e' => hcur (by rw [e']; rfl))
            · rw [e] at hcur; exact absurd rfl hcur
          split at h
          · next c rec' hc1 =>
            simp only [Except.ok.injEq, Prod.mk.injEq] at h
            obtain ⟨rfl, rfl⟩ := h
            obtain ⟨e, hT⟩ := hold hcT hc1
            obtain ⟨h1, h2⟩ := tightL_set (i := toInt k) hg hT
            exact ⟨e, .inl ⟨ts, _, rfl, rfl, h1, h2, hd⟩⟩
          · simp at h
      · simp [hd] at h
    | dict kvs =>
      simp only [ne_eq, not_true_eq_false, false_and, if_false, reduceCtorEq, List.headD_cons, List.nil_append] at h
      cases hl : kvs.lookup k with
      | none =>
        rw [hl] at h
        simp only at h
        split at h
        · next c rec' hc1 =>
          simp only [Except.ok.injEq, Prod.mk.injEq] at h
          obtain ⟨rfl, rfl⟩ := h
          obtain ⟨e, hT⟩ := hfresh hc1
          obtain ⟨h1, h2⟩ := keys_dictSet kvs k c
          exact ⟨e, .inr ⟨kvs, _, rfl, rfl, tightD_set hg hk hT, h1, h2⟩⟩
        · simp at h
      | some cur =>
        rw [hl] at h
        simp only at h
        split at h
        · next c rec' hc1 =>
          simp only [Except.ok.injEq, Prod.mk.injEq] at h
          obtain ⟨rfl, rfl⟩ := h
          obtain ⟨e, hT⟩ := hold (hg.2.2 _ (mem_of_lookup hl)) hc1
          obtain ⟨h1, h2⟩ := keys_dictSet kvs k c
          exact ⟨e, .inr ⟨kvs, _, rfl, rfl, tightD_set hg hk hT, h1, h2⟩⟩
        · simp at h

theorem extendAll_grown {eqv : Tree β → Tree β → Bool} : ∀ {L : List (List Str × β)} {t t' : Tree β} {rec : List (List Str)},
    (∀ e ∈ L, e.1 ≠ [] ∧ Proper e.1 ∧ Canonical e.1) → Growing t → (∀ ts, t ≠ .tuple ts) →
    extendAll eqv t (L.map fun e => (e.1, .leaf e.2)) = .ok (t', rec) →
    rec = [] ∧ (∀ ts, t = .list ts → ∃ ts', t' = .list ts' ∧ TightL ts' ∧ (L ≠ [] ∨ ts ≠ [] → ts' ≠ [])) ∧
      ∀ kvs, t = .dict kvs → ∃ kvs', t' = .dict kvs' ∧ TightD kvs' ∧ (∀ x ∈ kvs.map Prod.fst, x ∈ kvs'.map Prod.fst) ∧
        ∀ e ∈ L, e.1.headD [] ∈ kvs'.map Prod.fst := by
  intro L
  induction L with
  | nil =>
    intro t t' rec _ hg _ h
    simp only [List.map_nil, extendAll, Except.ok.injEq, Prod.mk.injEq] at h
    obtain ⟨rfl, rfl⟩ := h
    refine ⟨rfl, ?_, ?_⟩
    · rintro ts rfl
      exact ⟨ts, rfl, hg, by simp⟩
    · rintro kvs rfl
      exact ⟨kvs, rfl, hg, fun _ h => h, by simp⟩
  | cons e L ih =>
    intro t t' rec hL hg hnt h
    obtain ⟨p, b⟩ := e
    simp only [List.map_cons, extendAll] at h
    split at h
    · simp at h
    · next t1 r1 h1 =>
      split at h
      · simp at h
      · next t2 r2 h2 =>
        simp only [Except.ok.injEq, Prod.mk.injEq] at h
        obtain ⟨rfl, rfl⟩ := h
        obtain ⟨hne, hp, hc⟩ := hL (p, b) (by simp)
        cases p with
        | nil => exact absurd rfl hne
        | cons k ks =>
          obtain ⟨e1, hgr⟩ := extendOne_grown hp hc hg hnt h1
          have hL' : ∀ e ∈ L, e.1 ≠ [] ∧ Proper e.1 ∧ Canonical e.1 := fun e he => hL e (List.mem_cons_of_mem _ he)
          rcases hgr with ⟨ts, ts', rfl, rfl, a1, a2, -⟩ | ⟨kvs, kvs', rfl, rfl, a1, a2, a3⟩
          · obtain ⟨e2, i1, -⟩ := ih hL' (t := .list ts') a2 (by simp) h2
            refine ⟨by rw [e1, e2]; rfl, ?_, by simp⟩
            rintro ts0 -
            obtain ⟨ts2, b1, b2, b3⟩ := i1 ts' rfl
            exact ⟨ts2, b1, b2, fun _ => b3 (.inr a1)⟩
          · obtain ⟨e2, -, i2⟩ := ih hL' (t := .dict kvs') a1 (by simp) h2
            refine ⟨by rw [e1, e2]; rfl, by simp, ?_⟩
            rintro kvs0 e0
            cases e0
            obtain ⟨kvs2, b1, b2, b3, b4⟩ := i2 kvs' rfl
            refine ⟨kvs2, b1, b2, fun x hx => b3 x (a2 x hx), ?_⟩
            intro e he
            rcases List.mem_cons.1 he with rfl | he
            · exact b3 _ a3
            · exact b4 e he

/-- What `extend` builds from nothing is tight. -/
theorem extend_tight {eqv : Tree β → Tree β → Bool} {L : List (List Str × β)} {t : Tree β} (hL : ∀ e ∈ L, e.1 ≠ [] ∧ Proper e.1 ∧ Canonical e.1)
    (hne : L ≠ []) (h : extend eqv .none (L.map fun e => (e.1, .leaf e.2)) = .ok t) : Tight t := by
  unfold extend at h
  simp only at h
  split at h
  · next ts hts => exfalso; split at hts <;> simp at hts
  · split at h
    · simp at h
    · next t1 rec h1 =>
      split at h1
      · obtain ⟨rfl, i1, -⟩ := extendAll_grown hL (t := .list []) ⟨by simp, by simp⟩ (by simp) h1
        simp only [restoreTuples, Except.ok.injEq] at h
        subst h
        obtain ⟨ts', rfl, b2, b3⟩ := i1 [] rfl
        exact .list (b3 (.inl hne)) b2.1 b2.2
      · next hnd =>
        obtain ⟨rfl, -, i2⟩ := extendAll_grown hL (t := .dict []) ⟨by simp, by simp, by simp⟩ (by simp) h1
        simp only [restoreTuples, Except.ok.injEq] at h
        subst h
        obtain ⟨kvs', rfl, b2, -, b4⟩ := i2 [] rfl
        refine .dict b2.1 ?_ b2.2.1 b2.2.2
        simp only [List.map_map, List.all_filter, List.all_map, List.all_eq_true, not_forall] at hnd
        obtain ⟨e, he, hd⟩ := hnd
        obtain ⟨q, hq, e'⟩ := List.mem_map.1 (b4 e he)
        refine ⟨q, hq, ?_⟩
        rw [e']
        simp only [Function.comp_apply, Bool.or_eq_true, not_or] at hd
        simpa using hd.2

theorem Tight.get {t c : Tree β} {p : List Str} (hp : Proper p) (h : Tight t) (hg : Tree.get t p = .ok c) (hc : ∃ r k, Proper r ∧ Tree.get c r = .ok (.leaf k)) :
    Tight c := by
  induction p generalizing t with
  | nil => simp only [get_nil, Except.ok.injEq] at hg; subst hg; exact h
  | cons k ks ih =>
    have hk : k ≠ [] := hp k (by simp)
    have hp' : Proper ks := fun x hx => hp x (List.mem_cons_of_mem _ hx)
    rw [get_cons _ _ _ (by rintro ⟨h, -⟩; exact hk h)] at hg
    cases h with
    | leaf b => simp [child] at hg
    | @list ts h1 h2 h3 =>
      simp only [child] at hg
      by_cases hd : isDigit k = true
      · simp only [hd, Bool.not_true, Bool.false_eq_true, if_false] at hg
        cases hi : ts[toInt k]? with
        | none => rw [hi] at hg; simp at hg
        | some d =>
          rw [hi] at hg
          simp only at hg
          by_cases hdn : d = .none
          · exfalso
            subst hdn
            obtain ⟨r, b, hr, e⟩ := hc
            refine get_none (ks ++ r) (fun x hx => (List.mem_append.1 hx).elim (hp' x) (hr x)) b ?_
            rw [get_append _ _ _ (fun x hx => (List.mem_append.1 hx).elim (hp' x) (hr x)), hg]
            exact e
          · exact ih hp' (h3 d (List.mem_of_getElem? hi) hdn) hg
      · simp [hd] at hg
    | @dict kvs h1 h2 h3 h4 =>
      simp only [child] at hg
      cases hl : kvs.lookup k with
      | none => rw [hl] at hg; simp at hg
      | some d =>
        rw [hl] at hg
        exact ih hp' (h4 _ (mem_of_lookup hl)) hg

end Verif.Tree
