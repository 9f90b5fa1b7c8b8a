import Verif.Model.Concretize
import Verif.Spec.Concretize

namespace Verif

section Group
variable {κ ι : Type} [DecidableEq κ]

theorem dictAppend_keys (d : List (κ × List ι)) (k : κ) (x : ι) :
    (dictAppend d k x).map Prod.fst = if k ∈ d.map Prod.fst then d.map Prod.fst else d.map Prod.fst ++ [k] := by
  induction d with
  | nil => simp [dictAppend]
  | cons e d ih =>
    obtain ⟨k', xs⟩ := e
    simp only [dictAppend]
    by_cases h : k' = k
    · subst h; simp
    · have hne : ¬ k = k' := fun e => h e.symm
      simp only [h, if_false, List.map_cons, ih, List.mem_cons, hne, false_or]
      split <;> simp

theorem dictAppend_mem {d : List (κ × List ι)} {k : κ} {x : ι} (hd : (d.map Prod.fst).Nodup) {g : κ} {xs : List ι} :
    (g, xs) ∈ dictAppend d k x ↔
      (g ≠ k ∧ (g, xs) ∈ d) ∨ (g = k ∧ ((∃ ys, (k, ys) ∈ d ∧ xs = ys ++ [x]) ∨ (k ∉ d.map Prod.fst ∧ xs = [x]))) := by
  induction d with
  | nil => simp [dictAppend]
  | cons e d ih =>
    obtain ⟨k', zs⟩ := e
    simp only [List.map_cons, List.nodup_cons] at hd
    have ih' := ih hd.2
    simp only [dictAppend]
    by_cases h : k' = k
    · subst h
      simp only [if_true, List.mem_cons, Prod.mk.injEq, List.map_cons]
      constructor
      · rintro (⟨rfl, rfl⟩ | hm)
        · exact Or.inr ⟨rfl, Or.inl ⟨zs, Or.inl ⟨trivial, rfl⟩, rfl⟩⟩
        · refine Or.inl ⟨?_, Or.inr hm⟩
          rintro rfl
          exact hd.1 (List.mem_map_of_mem (f := Prod.fst) hm)
      · rintro (⟨hne, h⟩ | ⟨rfl, ⟨ys, h, rfl⟩ | ⟨h, -⟩⟩)
        · rcases h with ⟨rfl, -⟩ | h
          · exact absurd rfl hne
          · exact Or.inr h
        · rcases h with ⟨-, rfl⟩ | h
          · exact Or.inl ⟨rfl, rfl⟩
          · exact absurd (List.mem_map_of_mem (f := Prod.fst) h) hd.1
        · simp at h
    · have hne : ¬ k = k' := fun e => h e.symm
      simp only [h, if_false, List.mem_cons, Prod.mk.injEq, ih', List.map_cons, hne, false_or, false_and]
      constructor
      · rintro (⟨rfl, rfl⟩ | ⟨h1, h2⟩ | h2)
        · exact Or.inl ⟨h, Or.inl ⟨rfl, rfl⟩⟩
        · exact Or.inl ⟨h1, Or.inr h2⟩
        · exact Or.inr h2
      · rintro (⟨h1, ⟨rfl, rfl⟩ | h2⟩ | h2)
        · exact Or.inl ⟨rfl, rfl⟩
        · exact Or.inr (Or.inl ⟨h1, h2⟩)
        · exact Or.inr (Or.inr h2)

theorem groupItems_foldl (key : ι → κ) (items pre : List ι) (d : List (κ × List ι))
    (hn : (d.map Prod.fst).Nodup) (hk : ∀ k, k ∈ d.map Prod.fst ↔ ∃ x ∈ pre, key x = k)
    (hg : ∀ g xs, (g, xs) ∈ d → xs = pre.filter (fun x => key x = g)) :
    let r := items.foldl (fun d x => dictAppend d (key x) x) d
    (r.map Prod.fst).Nodup ∧ (∀ k, k ∈ r.map Prod.fst ↔ ∃ x ∈ pre ++ items, key x = k) ∧
      (∀ g xs, (g, xs) ∈ r → xs = (pre ++ items).filter (fun x => key x = g)) := by
  induction items generalizing pre d with
  | nil => simpa using ⟨hn, by simpa using hk, hg⟩
  | cons x items ih =>
    simp only [List.foldl_cons]
    have := ih (pre ++ [x]) (dictAppend d (key x) x) ?_ ?_ ?_
    · simpa using this
    · rw [dictAppend_keys]
      split
      · exact hn
      · rename_i h
        refine List.nodup_append.2 ⟨hn, by simp, ?_⟩
        intro a ha b hb
        simp only [List.mem_singleton] at hb
        subst hb; rintro rfl; exact h ha
    · intro k
      rw [dictAppend_keys]
      split
      · rename_i h
        rw [hk]
        constructor
        · rintro ⟨y, hy, e⟩; exact ⟨y, by simp [hy], e⟩
        · rintro ⟨y, hy, e⟩
          simp only [List.mem_append, List.mem_singleton] at hy
          rcases hy with hy | rfl
          · exact ⟨y, hy, e⟩
          · rw [← hk, ← e]; exact h
      · simp only [List.mem_append, hk, List.mem_singleton]
        constructor
        · rintro (⟨y, hy, e⟩ | rfl)
          · exact ⟨y, Or.inl hy, e⟩
          · exact ⟨x, Or.inr rfl, rfl⟩
        · rintro ⟨y, hy | rfl, e⟩
          · exact Or.inl ⟨y, hy, e⟩
          · exact Or.inr e.symm
    · intro g xs h
      rw [dictAppend_mem hn] at h
      rw [List.filter_append]
      rcases h with ⟨hne, h⟩ | ⟨rfl, ⟨ys, h, rfl⟩ | ⟨h, rfl⟩⟩
      · rw [hg _ _ h]
        have : ¬ key x = g := fun e => hne e.symm
        simp [this]
      · rw [hg _ _ h]; simp
      · have : pre.filter (fun y => key y = key x) = [] := by
          rw [List.filter_eq_nil_iff]
          intro y hy hky
          exact h ((hk _).2 ⟨y, hy, by simpa using hky⟩)
        simp [this]

/-- The groups of `groupItems`: keys without repetition, exactly the keys of the items, and each group holds the items
with that key in order. -/
theorem groupItems_spec (key : ι → κ) (items : List ι) :
    ((groupItems key items).map Prod.fst).Nodup ∧
      (∀ k, k ∈ (groupItems key items).map Prod.fst ↔ ∃ x ∈ items, key x = k) ∧
      (∀ g xs, (g, xs) ∈ groupItems key items → xs = items.filter (fun x => key x = g)) := by
  have := groupItems_foldl key items [] [] (by simp) (by simp) (by simp)
  simpa [groupItems] using this

end Group

namespace Concretize
open PathSpec

theorem applyKeys_length (ps : List (List Str)) (us : List (Nat × Str)) : (applyKeys ps us).length = ps.length := by
  unfold applyKeys
  induction us generalizing ps with
  | nil => rfl
  | cons u us ih => simp [ih]

theorem applyKeys_append (ps : List (List Str)) (us vs : List (Nat × Str)) :
    applyKeys ps (us ++ vs) = applyKeys (applyKeys ps us) vs := by
  simp [applyKeys]

theorem applyKeys_not_mem {ps : List (List Str)} {us : List (Nat × Str)} {i : Nat} (h : i ∉ us.map Prod.fst) :
    (applyKeys ps us)[i]? = ps[i]? := by
  unfold applyKeys
  induction us generalizing ps with
  | nil => rfl
  | cons u us ih =>
    simp only [List.map_cons, List.mem_cons, not_or] at h
    rw [List.foldl_cons, ih h.2, List.getElem?_modify]
    have : ¬ u.1 = i := fun e => h.1 e.symm
    simp [this]

theorem applyKeys_mem {ps : List (List Str)} {us : List (Nat × Str)} {i : Nat} {k : Str}
    (hn : (us.map Prod.fst).Nodup) (h : (i, k) ∈ us) :
    (applyKeys ps us)[i]? = (ps[i]?).map (· ++ [k]) := by
  induction us generalizing ps with
  | nil => simp at h
  | cons u us ih =>
    simp only [List.map_cons, List.nodup_cons] at hn
    have e : applyKeys ps (u :: us) = applyKeys (ps.modify u.1 (· ++ [u.2])) us := rfl
    rw [e]
    rcases List.mem_cons.1 h with rfl | h
    · rw [applyKeys_not_mem hn.1, List.getElem?_modify]
      cases ps[i]? <;> simp
    · rw [ih hn.2 h, List.getElem?_modify]
      have : ¬ u.1 = i := by
        rintro e; exact hn.1 (e ▸ List.mem_map_of_mem (f := Prod.fst) h)
      cases ps[i]? <;> simp [this]

/-- All updates of one round. -/
def updates (fresh : Nat → Nat → Str) (c : Nat) : List (List Str × List (List Str × Nat)) → Option (List (Nat × Str))
  | [] => some []
  | g :: gs => (assign fresh c g.2).bind fun us => (updates fresh c gs).map (us ++ ·)

theorem level_eq (fresh : Nat → Nat → Str) (c : Nat) (gs : List (List Str × List (List Str × Nat)))
    (ps : List (List Str)) :
    gs.foldlM (fun ps g => (assign fresh c g.2).map (applyKeys ps)) ps = (updates fresh c gs).map (applyKeys ps) := by
  induction gs generalizing ps with
  | nil => simp [updates, applyKeys]
  | cons g gs ih =>
    simp only [List.foldlM_cons, updates]
    cases h : assign fresh c g.2 with
    | none => rfl
    | some us =>
      simp only [Option.map_some, Option.bind_some, Option.bind_eq_bind]
      rw [ih]
      cases updates fresh c gs with
      | none => rfl
      | some vs => simp [applyKeys_append]

/-- The free indices suffice. -/
theorem available_enough (n : Nat) (xs : List Nat) :
    n ≤ ((List.range n).filter (fun m => m ∉ xs)).length + xs.length := by
  induction xs generalizing n with
  | nil =>
    have : (List.range n).filter (fun m => decide (m ∉ ([] : List Nat))) = List.range n :=
      List.filter_eq_self.2 (by simp)
    rw [this]; simp
  | cons x xs ih =>
    have key : ((List.range n).filter (fun m => m ∉ xs)).length ≤
        ((List.range n).filter (fun m => m ∉ x :: xs)).length + 1 := by
      have h1 : (List.range n).filter (fun m => m ∉ x :: xs) =
          ((List.range n).filter (fun m => m ∉ xs)).filter (fun m => m ≠ x) := by
        rw [List.filter_filter]
        refine List.filter_congr fun m _ => ?_
        simp [not_or]
      rw [h1]
      have hnd : ((List.range n).filter (fun m => decide (m ∉ xs))).Nodup := List.nodup_range.filter _
      generalize (List.range n).filter (fun m => decide (m ∉ xs)) = l at hnd
      induction l with
      | nil => simp
      | cons a l ihl =>
        rw [List.nodup_cons] at hnd
        by_cases hax : a = x
        · subst hax
          have : l.filter (fun m => m ≠ a) = l := by
            rw [List.filter_eq_self]
            intro b hb
            simp only [ne_eq, decide_not, Bool.not_eq_eq_eq_not, Bool.not_true, decide_eq_false_iff_not]
            rintro rfl; exact hnd.1 hb
          rw [List.filter_cons_of_neg (by simp), this]; simp
        · simp only [ne_eq, decide_not, hax, decide_false, Bool.not_false, List.filter_cons_of_pos, List.length_cons]
          have := ihl hnd.2
          simp only [ne_eq, decide_not] at this
          omega
    have := ih n
    simp only [List.length_cons]
    omega

theorem filter_add_filterMap_head (grp : List (List Str × Nat)) (c : Nat) :
    (grp.filter (fun it => it.1.drop c = [])).length + (grp.filterMap (fun it => (it.1.drop c).head?)).length
      = grp.length := by
  induction grp with
  | nil => rfl
  | cons it grp ih =>
    cases h : it.1.drop c with
    | nil =>
      simp only [List.filterMap_cons, h, List.head?_nil, List.filter_cons, decide_true, if_true, List.length_cons]
      omega
    | cons a l =>
      simp only [List.filterMap_cons, h, List.head?_cons, List.filter_cons, reduceCtorEq, decide_false,
        List.length_cons]
      simp only [Bool.false_eq_true, if_false]
      omega

theorem toInt_ofNat (n : Nat) : toInt (ofNat n) = n := by
  unfold toInt ofNat
  have := Nat.ofDigitChars_toDigits (n := n) (b := 10) (by omega) (by omega)
  simpa [Nat.ofDigitChars] using this

theorem ofNat_inj {m n : Nat} (h : ofNat m = ofNat n) : m = n := by
  rw [← toInt_ofNat m, h, toInt_ofNat]

theorem zipWith_fst (es : List (List Str × Nat)) (avail : List Nat) (h : es.length ≤ avail.length) :
    (List.zipWith (fun (it : List Str × Nat) n => (it.2, ofNat n)) es avail).map Prod.fst = es.map Prod.snd := by
  induction es generalizing avail with
  | nil => simp
  | cons e es ih =>
    cases avail with
    | nil => simp at h
    | cons a avail =>
      simp only [List.zipWith_cons_cons, List.map_cons, List.cons.injEq, true_and]
      exact ih avail (by simpa using h)

theorem zipWith_snd (es : List (List Str × Nat)) (avail : List Nat) :
    ((List.zipWith (fun (it : List Str × Nat) n => (it.2, ofNat n)) es avail).map Prod.snd).Sublist
      (avail.map ofNat) := by
  induction es generalizing avail with
  | nil => simp
  | cons e es ih =>
    cases avail with
    | nil => simp
    | cons a avail =>
      simp only [List.zipWith_cons_cons, List.map_cons]
      exact (ih avail).cons₂ _

theorem assign_spec (fresh : Nat → Nat → Str) (c : Nat) (grp : List (List Str × Nat))
    (hn : (grp.map Prod.snd).Nodup) :
    ∃ us, assign fresh c grp = some us ∧ (us.map Prod.fst).Nodup ∧
      (∀ i k, (i, k) ∈ us → (∃ p, (p, i) ∈ grp ∧ p.drop c = []) ∧ 1 < grp.length ∧
        ((∀ q ∈ grp, ∀ i, (q.1.drop c).head? ≠ some (fresh c i)) → ∀ q ∈ grp, (q.1.drop c).head? ≠ some k) ∧
        (∀ P : Str → Prop, (∀ n, P (ofNat n)) → (∀ i, P (fresh c i)) → P k)) ∧
      (1 < grp.length → ∀ p i, (p, i) ∈ grp → p.drop c = [] → i ∈ us.map Prod.fst) ∧
      ((∀ q ∈ grp, q.1.drop c = []) → (us.map Prod.snd).Nodup) := by
  unfold assign
  by_cases h1 : grp.length ≤ 1 ∨ grp.filter (fun it => it.1.drop c = []) = []
  · refine ⟨[], by simp only [h1, if_true], by simp, by simp, ?_, by simp⟩
    intro hl p i hm hp
    rcases h1 with h1 | h1
    · omega
    · rw [List.filter_eq_nil_iff] at h1
      exact absurd (by simpa using hp) (h1 _ hm)
  have hl : 1 < grp.length := by
    rw [not_or] at h1; omega
  simp only [h1, if_false]
  have hnd : ((grp.filter (fun it => it.1.drop c = [])).map Prod.snd).Nodup :=
    (List.filter_sublist.map _).nodup hn
  by_cases h2 : (grp.filterMap (fun it => (it.1.drop c).head?)).any (fun k => !isDigit k) = true
  · simp only [h2, if_true]
    refine ⟨_, rfl, ?_, ?_, ?_, ?_⟩
    · rw [List.map_map]; exact hnd
    · intro i k hik
      simp only [List.mem_map, List.mem_filter, decide_eq_true_eq, Prod.mk.injEq] at hik
      obtain ⟨⟨p, j⟩, ⟨hm, hp⟩, rfl, rfl⟩ := hik
      exact ⟨⟨p, hm, hp⟩, hl, fun hf q hq => hf q hq _, fun P _ hf => hf _⟩
    · intro _ p i hm hp
      rw [List.map_map, List.mem_map]
      exact ⟨(p, i), List.mem_filter.2 ⟨hm, by simpa using hp⟩, rfl⟩
    · intro hall
      exfalso
      have : grp.filterMap (fun it => (it.1.drop c).head?) = [] := by
        rw [List.filterMap_eq_nil_iff]
        intro it hit
        rw [hall it hit]; rfl
      rw [this] at h2
      simp at h2
  · simp only [h2]
    have hen := available_enough grp.length ((grp.filterMap (fun it => (it.1.drop c).head?)).map toInt)
    have hsum := filter_add_filterMap_head grp c
    rw [List.length_map] at hen
    have hle : ¬ ((List.range grp.length).filter
        (fun n => n ∉ (grp.filterMap (fun it => (it.1.drop c).head?)).map toInt)).length <
        (grp.filter (fun it => it.1.drop c = [])).length := by omega
    simp only [hle, if_false, Bool.false_eq_true]
    have havn : ((List.range grp.length).filter
        (fun n => n ∉ (grp.filterMap (fun it => (it.1.drop c).head?)).map toInt)).Nodup := List.nodup_range.filter _
    have havm : ∀ n ∈ ((List.range grp.length).filter
        (fun n => n ∉ (grp.filterMap (fun it => (it.1.drop c).head?)).map toInt)),
        n ∉ (grp.filterMap (fun it => (it.1.drop c).head?)).map toInt := by
      intro n hn'
      simpa using (List.mem_filter.1 hn').2
    generalize hav : (List.range grp.length).filter
        (fun n => n ∉ (grp.filterMap (fun it => (it.1.drop c).head?)).map toInt) = avail at *
    have hfst : (List.zipWith (fun (it : List Str × Nat) n => (it.2, ofNat n))
        (grp.filter (fun it => it.1.drop c = [])) avail).map Prod.fst
        = (grp.filter (fun it => it.1.drop c = [])).map Prod.snd := zipWith_fst _ _ (by omega)
    refine ⟨_, rfl, ?_, ?_, ?_, ?_⟩
    · rw [hfst]; exact hnd
    · intro i k hik
      have hi : i ∈ (grp.filter (fun it => it.1.drop c = [])).map Prod.snd := by
        rw [← hfst]; exact List.mem_map_of_mem (f := Prod.fst) hik
      obtain ⟨⟨p, j⟩, hm, rfl⟩ := List.mem_map.1 hi
      simp only [List.mem_filter, decide_eq_true_eq] at hm
      have hk : ∃ n ∈ avail, k = ofNat n := by
        have := (zipWith_snd _ _).subset (List.mem_map_of_mem (f := Prod.snd) hik)
        obtain ⟨n, hn', e⟩ := List.mem_map.1 this
        exact ⟨n, hn', e.symm⟩
      obtain ⟨n, hna, rfl⟩ := hk
      refine ⟨⟨p, hm⟩, hl, ?_, ?_⟩
      · intro _ q hq e
        refine havm n hna ?_
        rw [List.mem_map]
        exact ⟨ofNat n, List.mem_filterMap.2 ⟨q, hq, e⟩, toInt_ofNat n⟩
      · intro P hP _; exact hP n
    · intro _ p i hm hp
      rw [hfst, List.mem_map]
      exact ⟨(p, i), List.mem_filter.2 ⟨hm, by simpa using hp⟩, rfl⟩
    · intro _
      have hsub := zipWith_snd (grp.filter (fun it => it.1.drop c = [])) avail
      refine hsub.nodup ?_
      unfold List.Nodup
      rw [List.pairwise_map]
      exact havn.imp fun h e => h (ofNat_inj e)

/-- What one round does to each path. -/
theorem level_spec (fresh : Nat → Nat → Str) (ps : List (List Str)) (c : Nat) :
    ∃ ps', level fresh ps c = some ps' ∧ ps'.length = ps.length ∧
      ∀ (i : Nat) (p : List Str), ps[i]? = some p →
        (ps'[i]? = some p ∧ (p.drop c = [] → ∀ (j : Nat) (q : List Str), j ≠ i → ps[j]? = some q → q.take c ≠ p.take c)) ∨
        (∃ k, ps'[i]? = some (p ++ [k]) ∧ p.drop c = [] ∧
          (∃ (j : Nat) (q : List Str), j ≠ i ∧ ps[j]? = some q ∧ q.take c = p.take c) ∧
          ((∀ q ∈ ps, ∀ i, (q.drop c).head? ≠ some (fresh c i)) →
            ∀ (j : Nat) (q : List Str), ps[j]? = some q → q.take c = p.take c → (q.drop c).head? ≠ some k) ∧
          (∀ P : Str → Prop, (∀ n, P (ofNat n)) → (∀ i, P (fresh c i)) → P k) ∧
          ((∀ q ∈ ps, q.drop c = []) →
            ∀ (j : Nat) (q : List Str) (k' : Str), j ≠ i → ps[j]? = some q → q.take c = p.take c → ps'[j]? = some (q ++ [k']) → k' ≠ k)) := by
  obtain ⟨hkn, hkm, hgr⟩ := groupItems_spec (fun it : List Str × Nat => it.1.take c) ps.zipIdx
  have hzi : ((ps.zipIdx).map Prod.snd).Nodup := by
    rw [List.zipIdx_map_snd]; exact List.nodup_range'
  have hmz : ∀ p i, (p, i) ∈ ps.zipIdx ↔ ps[i]? = some p := fun p i => List.mk_mem_zipIdx_iff_getElem?
  -- the updates of all groups
  have main : ∀ gs : List (List Str × List (List Str × Nat)), (gs.map Prod.fst).Nodup →
      (∀ g ∈ gs, g.2 = ps.zipIdx.filter (fun it => it.1.take c = g.1)) →
      ∃ us, updates fresh c gs = some us ∧ (us.map Prod.fst).Nodup ∧
        (∀ i k, (i, k) ∈ us → ∃ g ∈ gs, ∃ us', assign fresh c g.2 = some us' ∧ (i, k) ∈ us') ∧
        (∀ g ∈ gs, ∃ us', assign fresh c g.2 = some us' ∧ us' ⊆ us) := by
    intro gs
    induction gs with
    | nil => intro _ _; exact ⟨[], rfl, by simp, by simp, by simp⟩
    | cons g gs ih =>
      intro hn hg
      simp only [List.map_cons, List.nodup_cons] at hn
      obtain ⟨vs, hvs, hvn, hv1, hv2⟩ := ih hn.2 (fun g' h' => hg g' (List.mem_cons_of_mem _ h'))
      have hgn : (g.2.map Prod.snd).Nodup := by
        rw [hg g (List.mem_cons_self ..)]
        exact (List.filter_sublist.map _).nodup hzi
      obtain ⟨us, hus, hun, hu1, -, -⟩ := assign_spec fresh c g.2 hgn
      refine ⟨us ++ vs, by simp [updates, hus, hvs], ?_, ?_, ?_⟩
      · rw [List.map_append, List.nodup_append]
        refine ⟨hun, hvn, ?_⟩
        rintro a ha b hb rfl
        obtain ⟨⟨i, k⟩, hu, rfl⟩ := List.mem_map.1 ha
        obtain ⟨⟨i', k'⟩, hv, e⟩ := List.mem_map.1 hb
        simp only at e; subst e
        obtain ⟨⟨p, hp, -⟩, -⟩ := hu1 _ _ hu
        obtain ⟨g', hg', us', hus', hm'⟩ := hv1 _ _ hv
        have hgn' : (g'.2.map Prod.snd).Nodup := by
          rw [hg g' (List.mem_cons_of_mem _ hg')]
          exact (List.filter_sublist.map _).nodup hzi
        obtain ⟨us'', e'', -, hu1', -, -⟩ := assign_spec fresh c g'.2 hgn'
        rw [hus'] at e''
        cases e''
        obtain ⟨⟨p', hp', -⟩, -⟩ := hu1' _ _ hm'
        rw [hg g (List.mem_cons_self ..), List.mem_filter, hmz] at hp
        rw [hg g' (List.mem_cons_of_mem _ hg'), List.mem_filter, hmz] at hp'
        have : p = p' := by rw [hp.1] at hp'; exact Option.some.inj hp'.1
        subst this
        have e1 := of_decide_eq_true hp.2
        have e2 := of_decide_eq_true hp'.2
        simp only at e1 e2
        exact hn.1 (by rw [← e1, e2]; exact List.mem_map_of_mem (f := Prod.fst) hg')
      · intro i k h
        rcases List.mem_append.1 h with h | h
        · exact ⟨g, List.mem_cons_self .., us, hus, h⟩
        · obtain ⟨g', hg', r⟩ := hv1 _ _ h
          exact ⟨g', List.mem_cons_of_mem _ hg', r⟩
      · intro g' hg'
        rcases List.mem_cons.1 hg' with rfl | hg'
        · exact ⟨us, hus, List.subset_append_left _ _⟩
        · obtain ⟨us', h1, h2⟩ := hv2 _ hg'
          exact ⟨us', h1, fun x hx => List.mem_append_right _ (h2 hx)⟩
  obtain ⟨us, hus, hun, hu1, hu2⟩ := main (groupsAt c ps) hkn (fun g hg => hgr g.1 g.2 hg)
  refine ⟨applyKeys ps us, by rw [level, level_eq, hus]; rfl, applyKeys_length _ _, ?_⟩
  intro i p hip
  -- the group of `i`
  have hgi : ∃ g ∈ groupsAt c ps, g.1 = p.take c := by
    have := (hkm (p.take c)).2 ⟨(p, i), (hmz p i).2 hip, rfl⟩
    obtain ⟨g, hg, e⟩ := List.mem_map.1 this
    exact ⟨g, hg, e⟩
  obtain ⟨g, hg, hg1⟩ := hgi
  have hg2 : g.2 = ps.zipIdx.filter (fun it => it.1.take c = p.take c) := by
    rw [← hg1]; exact hgr g.1 g.2 hg
  have hgm : ∀ q j, (q, j) ∈ g.2 ↔ ps[j]? = some q ∧ q.take c = p.take c := by
    intro q j; rw [hg2, List.mem_filter, hmz]; simp
  have hgn : (g.2.map Prod.snd).Nodup := by
    rw [hg2]; exact (List.filter_sublist.map _).nodup hzi
  obtain ⟨us', hus', hun', hu1', hu3', hu4'⟩ := assign_spec fresh c g.2 hgn
  have hsub : us' ⊆ us := by
    obtain ⟨us'', h1, h2⟩ := hu2 g hg
    rw [hus'] at h1; cases h1; exact h2
  have hback : ∀ j q k, (j, k) ∈ us → ps[j]? = some q → q.take c = p.take c → (j, k) ∈ us' := by
    intro j q k hjk hj hq
    obtain ⟨g', hg', us'', h1, h2⟩ := hu1 _ _ hjk
    have hgn' : (g'.2.map Prod.snd).Nodup := by
      rw [hgr g'.1 g'.2 hg']; exact (List.filter_sublist.map _).nodup hzi
    obtain ⟨us3, e3, -, h3, -, -⟩ := assign_spec fresh c g'.2 hgn'
    rw [h1] at e3; cases e3
    obtain ⟨⟨q', hq', -⟩, -⟩ := h3 _ _ h2
    rw [hgr g'.1 g'.2 hg', List.mem_filter, hmz] at hq'
    have : q' = q := by rw [hj] at hq'; exact (Option.some.inj hq'.1).symm
    subst this
    have e : g'.1 = p.take c := by rw [← hq]; exact (of_decide_eq_true hq'.2).symm
    have e2 : g'.2 = g.2 := by rw [hg2, ← e]; exact hgr g'.1 g'.2 hg'
    rw [e2, hus'] at h1; cases h1; exact h2
  by_cases hi : i ∈ us.map Prod.fst
  · right
    obtain ⟨⟨i', k⟩, hk, rfl⟩ := List.mem_map.1 hi
    have hk' : (i', k) ∈ us' := hback _ _ _ hk hip rfl
    obtain ⟨⟨p', hp', hd⟩, hl, hf, hcan⟩ := hu1' _ _ hk'
    have : p' = p := by
      have := ((hgm _ _).1 hp').1
      simp only at hip
      rw [hip] at this; exact (Option.some.inj this).symm
    subst this
    refine ⟨k, by rw [applyKeys_mem hun hk]; simp only at hip; rw [hip]; rfl, hd, ?_, ?_, hcan, ?_⟩
    · -- another member of the group
      have hnd := hgn
      obtain ⟨a, b, l, hl'⟩ : ∃ a b l, g.2 = a :: b :: l := by
        match g.2, hl with
        | a :: b :: l, _ => exact ⟨a, b, l, rfl⟩
      by_cases ha : a.2 = i'
      · refine ⟨b.2, b.1, ?_, ?_⟩
        · rintro e
          rw [hl', List.map_cons, List.map_cons, List.nodup_cons] at hnd
          exact hnd.1 (by simp [ha, e])
        · exact (hgm b.1 b.2).1 (by rw [hl']; simp)
      · exact ⟨a.2, a.1, ha, (hgm a.1 a.2).1 (by rw [hl']; simp)⟩
    · intro hfr j q hj hq
      refine hf ?_ (q, j) ((hgm _ _).2 ⟨hj, hq⟩)
      rintro ⟨q', j'⟩ hm n
      exact hfr q' (List.mem_of_getElem? ((hgm _ _).1 hm).1) n
    · intro hall j q k' hji hj hq hj'
      have hnd := hu4' (by
        rintro ⟨q', j'⟩ hm
        exact hall q' (List.mem_of_getElem? ((hgm _ _).1 hm).1))
      have hjm : j ∈ us.map Prod.fst := by
        by_cases hjm : j ∈ us.map Prod.fst
        · exact hjm
        · rw [applyKeys_not_mem hjm, hj] at hj'
          have := congrArg List.length (Option.some.inj hj')
          simp at this
      obtain ⟨⟨j', k''⟩, hk'', rfl⟩ := List.mem_map.1 hjm
      simp only at hj hji hj'
      rw [applyKeys_mem hun hk'', hj] at hj'
      have : k'' = k' := by simpa using hj'
      subst this
      have hk3 := hback _ _ _ hk'' hj hq
      rintro rfl
      -- two different entries of us' with the same key
      have hnd' := hnd
      unfold List.Nodup at hnd'
      rw [List.pairwise_map] at hnd'
      clear hun' hu1' hu3' hu4' hus' hsub hback hnd
      induction us' with
      | nil => simp at hk3
      | cons u us' ihu =>
        rw [List.pairwise_cons] at hnd'
        rcases List.mem_cons.1 hk3 with rfl | h3 <;> rcases List.mem_cons.1 hk' with e4 | h4
        · exact hji (by simpa using (Prod.mk.inj e4).1.symm)
        · exact hnd'.1 _ h4 rfl
        · subst e4; exact hnd'.1 _ h3 rfl
        · exact ihu h3 h4 hnd'.2
  · left
    refine ⟨by rw [applyKeys_not_mem hi, hip], ?_⟩
    intro hd j q hji hj hq
    have h1 : 1 < g.2.length := by
      have m1 := (hgm p i).2 ⟨hip, rfl⟩
      have m2 := (hgm q j).2 ⟨hj, hq⟩
      match hgl : g.2, m1, m2 with
      | [a], m1, m2 =>
        simp only [List.mem_singleton] at m1 m2
        rw [← m1] at m2
        exact absurd (Prod.mk.inj m2).2 hji
      | a :: b :: l, _, _ => simp
    have := hu3' h1 p i ((hgm p i).2 ⟨hip, rfl⟩) hd
    obtain ⟨x, hx, e⟩ := List.mem_map.1 this
    exact hi (e ▸ List.mem_map_of_mem (f := Prod.fst) (hsub hx))

/-- The loop invariant before the round with `cur_len = c`. -/
structure Inv (fresh : Nat → Nat → Str) (os : List (List Str)) (c : Nat) (ps : List (List Str)) : Prop where
  len : ps.length = os.length
  ext : ∀ (i : Nat) (o p : List Str), os[i]? = some o → ps[i]? = some p → o <+: p ∧ (p = o ∨ p.length ≤ c)
  free : ∀ (i j : Nat) (p q : List Str), ps[i]? = some p → ps[j]? = some q → i ≠ j → p.length < c → ¬ p <+: q
  lone : (∀ c i, ∀ o ∈ os, fresh c i ∉ o) → ∀ (i : Nat) (o : List Str), os[i]? = some o →
    (∀ (j : Nat) (q : List Str), j ≠ i → os[j]? = some q → ¬ o <+: q) →
    ps[i]? = some o ∧ ∀ (j : Nat) (q : List Str), j ≠ i → ps[j]? = some q → ¬ o <+: q
  pred : ∀ P : Str → Prop, (∀ n, P (ofNat n)) → (∀ c i, P (fresh c i)) →
    (∀ o ∈ os, ∀ k ∈ o, P k) → ∀ p ∈ ps, ∀ k ∈ p, P k

theorem prefix_concat {p q : List Str} {k : Str} (h : p <+: q ++ [k]) : p <+: q ∨ p = q ++ [k] := by
  rcases List.prefix_concat_iff.1 h with h | h
  · exact Or.inr h
  · exact Or.inl h

theorem getElem?_lt {α : Type} {l : List α} {i : Nat} {a : α} (h : l[i]? = some a) : i < l.length :=
  (List.getElem?_eq_some_iff.1 h).1

theorem take_eq_of_drop_nil {p : List Str} {c : Nat} (h : p.drop c = []) : p.take c = p := by
  rw [List.drop_eq_nil_iff] at h
  exact List.take_of_length_le h

theorem inv_step {fresh : Nat → Nat → Str} {os ps : List (List Str)} {c : Nat} (h : Inv fresh os c ps) :
    ∃ ps', level fresh ps c = some ps' ∧ Inv fresh os (c + 1) ps' := by
  obtain ⟨ps', hl, hlen, hsp⟩ := level_spec fresh ps c
  refine ⟨ps', hl, ?_⟩
  have hget : ∀ (i : Nat) (p' : List Str), ps'[i]? = some p' → ∃ p, ps[i]? = some p := by
    intro i p' hi
    have := getElem?_lt hi
    rw [hlen] at this
    exact ⟨_, List.getElem?_eq_getElem this⟩
  -- a path that was extended has exactly `c` components
  have hexact : ∀ (i : Nat) (p : List Str), ps[i]? = some p → p.drop c = [] →
      (∃ (j : Nat) (q : List Str), j ≠ i ∧ ps[j]? = some q ∧ q.take c = p.take c) → p.length = c := by
    rintro i p hi hd ⟨j, q, hji, hj, hq⟩
    have hle : p.length ≤ c := List.drop_eq_nil_iff.1 hd
    rcases Nat.lt_or_ge p.length c with hlt | hge
    · exfalso
      refine h.free i j p q hi hj (fun e => hji e.symm) hlt ?_
      have e := take_eq_of_drop_nil hd
      rw [← e, ← hq]; exact List.take_prefix _ _
    · omega
  refine ⟨by rw [hlen, h.len], ?_, ?_, ?_, ?_⟩
  · intro i o p' ho hp'
    obtain ⟨p, hp⟩ := hget i p' hp'
    obtain ⟨e1, e2⟩ := h.ext i o p ho hp
    rcases hsp i p hp with ⟨hs, -⟩ | ⟨k, hs, hd, hex, -⟩
    · have e0 := Option.some.inj (hs.symm.trans hp'); subst e0
      refine ⟨e1, ?_⟩
      rcases e2 with e2 | e2
      · exact Or.inl e2
      · right; omega
    · have e0 := Option.some.inj (hs.symm.trans hp'); subst e0
      refine ⟨e1.trans (List.prefix_append _ _), Or.inr ?_⟩
      have := hexact i p hp hd hex
      simp [this]
  · intro i j p' q' hp' hq' hij hlt hpre
    obtain ⟨p, hp⟩ := hget i p' hp'
    obtain ⟨q, hq⟩ := hget j q' hq'
    rcases hsp i p hp with ⟨hs, hno⟩ | ⟨k, hs, hd, hex, -⟩
    · have e0 := Option.some.inj (hs.symm.trans hp'); subst e0
      have hd : p.drop c = [] := List.drop_eq_nil_iff.2 (by omega)
      have key : ¬ p <+: q := by
        intro hpq
        have h1 := hno hd j q (fun e => hij e.symm) hq
        rcases Nat.lt_or_ge p.length c with hlt' | hge
        · exact h.free i j p q hp hq hij hlt' hpq
        · have : p.length = c := by omega
          refine h1 ?_
          rw [take_eq_of_drop_nil hd]
          obtain ⟨r, rfl⟩ := hpq
          rw [← this]; simp
      rcases hsp j q hq with ⟨hs', -⟩ | ⟨k, hs', hd', hex', -⟩
      · have e0' := Option.some.inj (hs'.symm.trans hq'); subst e0'; exact key hpre
      · have e0' := Option.some.inj (hs'.symm.trans hq'); subst e0'
        have hqc := hexact j q hq hd' hex'
        rcases prefix_concat hpre with h1 | h1
        · exact key h1
        · have := congrArg List.length h1
          simp at this; omega
    · have e0 := Option.some.inj (hs.symm.trans hp'); subst e0
      have := hexact i p hp hd hex
      simp at hlt; omega
  · intro hfr i o ho hlone
    obtain ⟨h1, h2⟩ := h.lone hfr i o ho hlone
    have hfresh : ∀ q ∈ ps, ∀ n, (q.drop c).head? ≠ some (fresh c n) := by
      intro q hq n e
      obtain ⟨j, hj⟩ := List.getElem?_of_mem hq
      have hjl := getElem?_lt hj
      rw [h.len] at hjl
      obtain ⟨-, e2⟩ := h.ext j _ q (List.getElem?_eq_getElem hjl) hj
      rcases e2 with e2 | e2
      · refine hfr c n q (by rw [e2]; exact List.getElem_mem _) ?_
        exact List.mem_of_mem_drop (List.mem_of_mem_head? (by rw [e]; rfl))
      · rw [List.drop_eq_nil_iff.2 e2] at e; simp at e
    constructor
    · rcases hsp i o h1 with ⟨hs, -⟩ | ⟨k, hs, hd, ⟨j, q, hji, hj, hq⟩, -⟩
      · exact hs
      · exfalso
        refine h2 j q hji hj ?_
        rw [take_eq_of_drop_nil hd] at hq
        rw [← hq]; exact List.take_prefix _ _
    · intro j q' hji hq' hpre
      obtain ⟨q, hq⟩ := hget j q' hq'
      rcases hsp j q hq with ⟨hs, -⟩ | ⟨k, hs, hd, hex, hnk, -⟩
      · have e0' := Option.some.inj (hs.symm.trans hq'); subst e0'; exact h2 j q hji hq hpre
      · have e0' := Option.some.inj (hs.symm.trans hq'); subst e0'
        rcases prefix_concat hpre with h3 | h3
        · exact h2 j q hji hq h3
        · have hqc := hexact j q hq hd hex
          refine hnk hfresh i o h1 ?_ ?_
          · rw [h3, ← hqc]; simp
          · rw [h3, ← hqc]; simp
  · intro P hP hfc hoc p' hp'
    obtain ⟨i, hi⟩ := List.getElem?_of_mem hp'
    obtain ⟨p, hp⟩ := hget i p' hi
    have hpc := h.pred P hP hfc hoc p (List.mem_of_getElem? hp)
    rcases hsp i p hp with ⟨hs, -⟩ | ⟨k, hs, hd, hex, hnk, hcan, -⟩
    · rw [hs] at hi; cases hi; exact hpc
    · rw [hs] at hi; cases hi
      intro k' hk'
      rcases List.mem_append.1 hk' with hk' | hk'
      · exact hpc k' hk'
      · simp only [List.mem_singleton] at hk'
        subst hk'
        exact hcan P hP (hfc c)

theorem inv_run {fresh : Nat → Nat → Str} {os ps : List (List Str)} {c : Nat} (h : Inv fresh os c ps) (n : Nat) :
    ∃ ps', (List.range' c n).foldlM (level fresh) ps = some ps' ∧ Inv fresh os (c + n) ps' := by
  induction n generalizing c ps with
  | zero => exact ⟨ps, rfl, h⟩
  | succ n ih =>
    obtain ⟨p1, e1, h1⟩ := inv_step h
    obtain ⟨p2, e2, h2⟩ := ih h1
    refine ⟨p2, ?_, ?_⟩
    · rw [List.range'_succ, List.foldlM_cons, e1]; exact e2
    · have : c + (n + 1) = c + 1 + n := by omega
      rw [this]; exact h2

theorem foldl_min_le (l : List Nat) (a : Nat) : l.foldl min a ≤ a ∧ ∀ x ∈ l, l.foldl min a ≤ x := by
  induction l generalizing a with
  | nil => simp
  | cons b l ih =>
    obtain ⟨h1, h2⟩ := ih (min a b)
    simp only [List.foldl_cons, List.mem_cons, forall_eq_or_imp]
    refine ⟨by omega, by omega, h2⟩

theorem foldl_max_ge (l : List Nat) (a : Nat) : a ≤ l.foldl max a ∧ ∀ x ∈ l, x ≤ l.foldl max a := by
  induction l generalizing a with
  | nil => simp
  | cons b l ih =>
    obtain ⟨h1, h2⟩ := ih (max a b)
    simp only [List.foldl_cons, List.mem_cons, forall_eq_or_imp]
    refine ⟨by omega, by omega, h2⟩

theorem minLen_le {os : List (List Str)} {p : List Str} (h : p ∈ os) : minLen os ≤ p.length :=
  (foldl_min_le _ _).2 _ (List.mem_map_of_mem h)

theorem le_maxLen {os : List (List Str)} {p : List Str} (h : p ∈ os) : p.length ≤ maxLen os :=
  (foldl_max_ge _ _).2 _ (List.mem_map_of_mem h)

theorem inv_init (fresh : Nat → Nat → Str) (os : List (List Str)) : Inv fresh os (minLen os) os where
  len := rfl
  ext := by
    intro i o p h1 h2
    rw [h1] at h2; cases h2
    exact ⟨List.prefix_rfl, Or.inl rfl⟩
  free := by
    intro i j p q hp _ _ hlt
    have := minLen_le (List.mem_of_getElem? hp)
    omega
  lone := fun _ i o ho hl => ⟨ho, hl⟩
  pred := fun _ _ _ h => h

theorem prefixFree_of_index {ps : List (List Str)}
    (h : ∀ (i j : Nat) (p q : List Str), ps[i]? = some p → ps[j]? = some q → i ≠ j → ¬ p <+: q) : PrefixFree ps := by
  unfold PrefixFree
  rw [List.pairwise_iff_getElem]
  intro i j hi hj hij
  exact ⟨h i j _ _ (List.getElem?_eq_getElem hi) (List.getElem?_eq_getElem hj) (by omega),
    h j i _ _ (List.getElem?_eq_getElem hj) (List.getElem?_eq_getElem hi) (by omega)⟩

/-- The whole function: it returns, and every fact about its result. -/
theorem concretize_run (fresh : Nat → Nat → Str) (os : List (List Str)) (hne : os ≠ []) :
    ∃ ps, concretizePaths fresh os = some ps ∧ Inv fresh os (maxLen os + 1) ps ∧ PrefixFree ps := by
  have hmm : minLen os ≤ maxLen os := by
    obtain ⟨p, hp⟩ := List.exists_mem_of_ne_nil _ hne
    exact Nat.le_trans (minLen_le hp) (le_maxLen hp)
  obtain ⟨p1, e1, h1⟩ := inv_run (inv_init fresh os) (maxLen os - minLen os)
  have e0 : minLen os + (maxLen os - minLen os) = maxLen os := by omega
  rw [e0] at h1
  obtain ⟨p2, e2, h2⟩ := inv_step h1
  have hrun : concretizePaths fresh os = some p2 := by
    unfold concretizePaths
    rw [if_neg hne]
    have : maxLen os + 1 - minLen os = (maxLen os - minLen os) + 1 := by omega
    rw [this, List.range'_concat, List.foldlM_append, e1]
    simp only [Nat.one_mul, e0]
    show (List.foldlM (level fresh) p1 [maxLen os]) = _
    rw [List.foldlM_cons, e2]; rfl
  refine ⟨p2, hrun, h2, ?_⟩
  obtain ⟨p2', e2', hlen, hsp⟩ := level_spec fresh p1 (maxLen os)
  rw [e2] at e2'; cases e2'
  have hall : ∀ q ∈ p1, q.drop (maxLen os) = [] := by
    intro q hq
    rw [List.drop_eq_nil_iff]
    obtain ⟨j, hj⟩ := List.getElem?_of_mem hq
    have hjl := getElem?_lt hj
    rw [h1.len] at hjl
    obtain ⟨-, e | e⟩ := h1.ext j _ q (List.getElem?_eq_getElem hjl) hj
    · rw [e]; exact le_maxLen (List.getElem_mem _)
    · exact e
  refine prefixFree_of_index ?_
  intro i j p' q' hp' hq' hij hpre
  have hil := getElem?_lt hp'
  have hjl := getElem?_lt hq'
  rw [hlen] at hil hjl
  have hp := List.getElem?_eq_getElem hil
  have hq := List.getElem?_eq_getElem hjl
  generalize p1[i] = p at hp
  generalize p1[j] = q at hq
  rcases Nat.lt_or_ge p'.length (maxLen os + 1) with hlt | hge
  · exact h2.free i j p' q' hp' hq' hij hlt hpre
  · -- both were extended in the last round
    have hpl : p.length ≤ maxLen os := List.drop_eq_nil_iff.1 (hall p (List.mem_of_getElem? hp))
    have hql : q.length ≤ maxLen os := List.drop_eq_nil_iff.1 (hall q (List.mem_of_getElem? hq))
    have hle := hpre.length_le
    rcases hsp i p hp with ⟨hs, -⟩ | ⟨k, hs, hd, hex, -, -, hdist⟩
    · have e0 := Option.some.inj (hs.symm.trans hp'); subst e0; omega
    rcases hsp j q hq with ⟨hs', -⟩ | ⟨k', hs', hd', hex', -⟩
    · have e0' := Option.some.inj (hs'.symm.trans hq'); subst e0'; omega
    have e0 := Option.some.inj (hs.symm.trans hp'); subst e0
    have hs'' := hs'
    have e0' := Option.some.inj (hs'.symm.trans hq'); subst e0'
    simp only [List.length_append, List.length_singleton] at hge hle
    have heq : p ++ [k] = q ++ [k'] := hpre.eq_of_length (by simp; omega)
    have hpq := List.append_inj heq (by omega)
    have hkk : k = k' := by simpa using hpq.2
    exact hdist hall j q k' (fun e => hij e.symm) hq (by rw [hpq.1]) hs'' hkk.symm

end Concretize
end Verif
