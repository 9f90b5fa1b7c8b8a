import Verif.Lemmas.EinsumParse
import Verif.Lemmas.NdArr

/-! Contractions with and without batch index. -/

namespace Verif.Einsum
open EinsumSpec

variable {K : Type} [CommSemiring K]

theorem lookup_zip_none {l : List Char} {v : List Nat} {c : Char} (h : c ∉ l) : (l.zip v).lookup c = Option.none := by
  rw [List.lookup_eq_none_iff]
  intro p hp
  rw [bne_iff_ne]
  rintro rfl
  exact h (List.of_mem_zip hp).1

/-- A sum over indices as a sum over lists of values. -/
theorem sumOver_lists {F : (Char → Nat) → K} {g : Char → Nat} : ∀ {l : List Char} (_ : l.Nodup) (σ : Char → Nat),
    sumOver (l.map fun c => (c, g c)) F σ = ((NArr.indices (l.map g)).map fun v => F fun c => ((l.zip v).lookup c).getD (σ c)).sum
  | [], _, σ => by simp [sumOver, NArr.indices]
  | c :: l, hn, σ => by
    obtain ⟨hc, hn⟩ := List.nodup_cons.1 hn
    have hsum : ∀ (n : Nat) (h : Nat → List K), (((List.range n).flatMap h)).sum = ∑ k ∈ Finset.range n, (h k).sum := by
      intro n h
      induction n with
      | zero => simp
      | succ n ih => rw [List.range_succ, List.flatMap_append, List.sum_append, ih, Finset.sum_range_succ]; simp
    simp only [List.map_cons, sumOver, NArr.indices]
    rw [List.map_flatMap, hsum]
    refine Finset.sum_congr rfl fun k _ => ?_
    rw [sumOver_lists hn, List.map_map]
    refine congrArg List.sum (List.map_congr_left fun v _ => congrArg F (funext fun x => ?_))
    show _ = (((c :: l).zip (k :: v)).lookup x).getD _
    rw [List.zip_cons_cons]
    by_cases hx : x = c
    · subst hx
      rw [lookup_zip_none hc]
      simp
    · have : (x == c) = false := by simpa using hx
      rw [List.lookup_cons, this, Function.update_of_ne hx]

theorem assign_lookup : ∀ (s : Str) (i : List Nat) (c : Char), assign s i c = ((s.zip i).lookup c).getD 0
  | [], _, _ => by simp [assign]
  | _ :: _, [], _ => by simp [assign]
  | a :: s, k :: i, c => by
    rw [assign_cons, List.zip_cons_cons, List.lookup_cons]
    by_cases h : c = a
    · subst h; simp
    · have : (c == a) = false := by simpa using h
      rw [this, Function.update_of_ne h, assign_lookup s i c]

theorem lookup_append (l l' : List (Char × Nat)) (c : Char) : (l ++ l').lookup c = (l.lookup c).or (l'.lookup c) := by
  induction l with
  | nil => rfl
  | cons a l ih =>
    rw [List.cons_append, List.lookup_cons, List.lookup_cons]
    cases c == a.1 <;> simp [ih]

theorem nodup_summed (subs : List Str) (out : Str) : (summed subs out).Nodup := (List.nodup_dedup _).filter _

theorem mem_summed {subs : List Str} {out : Str} {c : Char} : c ∈ summed subs out ↔ c ∈ subs.flatten ∧ c ∉ out := by
  unfold summed
  rw [List.mem_filter, List.mem_dedup]
  simp

/-- A contraction with the batch index in front of the inputs and of the output, in terms of a contraction of the samples. -/
theorem einsum_batch {ls is : List Str} {out : Str} {b : Char} {f : Char → Nat} (hb : b ∉ (ls ++ is).flatten) (hbo : b ∉ out)
    (hout : out.Nodup) (hsub : ∀ c ∈ out, c ∈ (ls ++ is).flatten) (hne : is ≠ [])
    {P D : List (NArr K)} {B : Nat} (hP : P.map NArr.shape = ls.map fun s => s.map f) (hD : D.map NArr.shape = is.map fun s => B :: s.map f) :
    ∃ y, einsum (ls ++ is.map (b :: ·)) (P ++ D) (b :: out) = .ok y ∧ y.shape = B :: out.map f ∧
      ∀ n i, i.length = out.length → y.val (n :: i) = entry f (ls.zip (P.map NArr.val) ++ is.zip (D.map fun x j => x.val (n :: j))) out i := by
  have hPl : ls.length = P.length := by simpa using (congrArg List.length hP).symm
  have hDl : is.length = D.length := by simpa using (congrArg List.length hD).symm
  let f' := Function.update f b B
  have hf' : ∀ s ∈ ls ++ is, s.map f' = s.map f := fun s hs => List.map_congr_left fun c hc =>
    Function.update_of_ne (by rintro rfl; exact hb (List.mem_flatten.2 ⟨s, hs, hc⟩)) _ _
  have hshapes : ∀ p ∈ (ls ++ is.map (b :: ·)).zip ((P ++ D).map NArr.shape), p.2 = p.1.map f' := by
    rw [List.map_append, hP, hD, List.zip_append (by simp)]
    intro p hp
    rcases List.mem_append.1 hp with hp | hp
    · rw [List.zip_map_right, List.mem_map] at hp
      obtain ⟨q, hq, rfl⟩ := hp
      have : q.1 ∈ ls := (List.of_mem_zip hq).1
      have e : q.1 = q.2 := by
        obtain ⟨i, hi, e⟩ := List.getElem_of_mem hq
        rw [List.getElem_zip] at e
        rw [← e]
      show q.2.map f = q.1.map f'
      rw [hf' q.1 (by simp [this]), e]
    · rw [List.zip_map, List.mem_map] at hp
      obtain ⟨q, hq, rfl⟩ := hp
      have : q.1 ∈ is := (List.of_mem_zip hq).1
      have e : q.1 = q.2 := by
        obtain ⟨i, hi, e⟩ := List.getElem_of_mem hq
        rw [List.getElem_zip] at e
        rw [← e]
      show B :: q.2.map f = (b :: q.1).map f'
      rw [List.map_cons, hf' q.1 (by simp [this]), e]
      simp [f']
  obtain ⟨m, hm, hdim⟩ := recordAll_dim hshapes
  have hflat : ∀ c, c ∈ (ls ++ is.map (b :: ·)).flatten ↔ c = b ∨ c ∈ (ls ++ is).flatten := by
    intro c
    rw [List.flatten_append, List.mem_append, List.flatten_append, List.mem_append, List.mem_flatten (L := is), List.mem_flatten (L := is.map (b :: ·))]
    constructor
    · rintro (h | ⟨s, hs, h⟩)
      · exact .inr (.inl h)
      · obtain ⟨t, ht, rfl⟩ := List.mem_map.1 hs
        rcases List.mem_cons.1 h with rfl | h
        · exact .inl rfl
        · exact .inr (.inr ⟨t, ht, h⟩)
    · rintro (rfl | h | ⟨s, hs, h⟩)
      · obtain ⟨s, hs⟩ := List.exists_mem_of_ne_nil _ hne
        exact .inr ⟨c :: s, List.mem_map.2 ⟨s, hs, rfl⟩, by simp⟩
      · exact .inl h
      · exact .inr ⟨b :: s, List.mem_map.2 ⟨s, hs, rfl⟩, by simp [h]⟩
  have hlen : (ls ++ is.map (b :: ·)).length = (P ++ D).length := by simp [hPl, hDl]
  have hdim' : ∀ c ∈ (ls ++ is.map (b :: ·)).flatten, dim m c = f' c := by
    intro c hc
    obtain ⟨s, hs, hc⟩ := List.mem_flatten.1 hc
    obtain ⟨k, hk, rfl⟩ := List.getElem_of_mem hs
    refine hdim (_, ((P ++ D).map NArr.shape)[k]'(by rw [List.length_map, ← hlen]; exact hk)) ?_ c hc
    rw [List.mem_iff_getElem]
    exact ⟨k, by rw [List.length_zip, List.length_map, ← hlen, Nat.min_self]; exact hk, by rw [List.getElem_zip]⟩
  refine ⟨⟨(b :: out).map (dim m), fun i => sumOver (((ls ++ is.map (b :: ·)).flatten.dedup.filter fun c => c ∉ b :: out).map fun c => (c, dim m c)) (product ((ls ++ is.map (b :: ·)).zip (P ++ D))) (assign (b :: out) i)⟩, ?_, ?_, ?_⟩
  · unfold einsum
    rw [if_neg (by simpa using hlen), hm]
    simp only
    rw [if_pos ⟨List.nodup_cons.2 ⟨hbo, hout⟩, fun c hc => (hflat c).2 ((List.mem_cons.1 hc).imp id (hsub c))⟩]
  · show List.map (dim m) (b :: out) = _
    rw [List.map_cons, hdim' b ((hflat b).2 (.inl rfl))]
    refine congrArg₂ _ (by simp [f']) (List.map_congr_left fun c hc => ?_)
    rw [hdim' c ((hflat c).2 (.inr (hsub c hc)))]
    exact Function.update_of_ne (by rintro rfl; exact hbo hc) _ _
  · intro n i hi
    set rest := summed (ls ++ is) out with hrest
    have hperm : (((ls ++ is.map (b :: ·)).flatten.dedup.filter fun c => c ∉ b :: out).map fun c => (c, dim m c)).Perm (rest.map fun c => (c, f c)) := by
      have hp : ((ls ++ is.map (b :: ·)).flatten.dedup.filter fun c => c ∉ b :: out).Perm rest := by
        refine (List.perm_ext_iff_of_nodup ((List.nodup_dedup _).filter _) (nodup_summed _ _)).2 fun c => ?_
        rw [List.mem_filter, List.mem_dedup, hflat, mem_summed]
        simp only [List.mem_cons, not_or, decide_eq_true_eq]
        constructor
        · rintro ⟨h | h, h1, h2⟩
          · exact absurd h h1
          · exact ⟨h, h2⟩
        · rintro ⟨h, h2⟩
          exact ⟨.inr h, (by rintro rfl; exact hb h), h2⟩
      have := hp.map fun c => (c, dim m c)
      refine this.trans (List.Perm.of_eq (List.map_congr_left fun c hc => ?_))
      have hc' := (mem_summed.1 hc).1
      rw [hdim' c ((hflat c).2 (.inr hc'))]
      exact congrArg _ (Function.update_of_ne (by rintro rfl; exact hb hc') _ _)
    show sumOver _ _ _ = _
    rw [sumOver_perm hperm (by
      rw [(hperm.map Prod.fst).nodup_iff, List.map_map]
      show (rest.map id).Nodup
      rw [List.map_id]
      exact nodup_summed _ _), sumOver_lists (nodup_summed _ _)]
    have hfst : (ls.zip (P.map NArr.val) ++ is.zip (D.map fun x j => x.val (n :: j))).map Prod.fst = ls ++ is := by
      rw [List.map_append, List.map_fst_zip (by simp [hPl]), List.map_fst_zip (by simp [hDl])]
    unfold entry
    simp only
    rw [hfst, ← hrest]
    refine congrArg List.sum (List.map_congr_left fun v _ => ?_)
    have hσ : ∀ c, c ≠ b → ((rest.zip v).lookup c).getD (assign (b :: out) (n :: i) c) = valueOf (out ++ rest) (i ++ v) c := by
      intro c hc
      rw [assign_cons, Function.update_of_ne hc, assign_lookup]
      unfold valueOf
      rw [List.zip_append hi.symm, lookup_append]
      by_cases hco : c ∈ out
      · rw [lookup_zip_none (fun h => (mem_summed.1 h).2 hco)]
        simp
      · rw [lookup_zip_none hco]
        cases (rest.zip v).lookup c <;> simp
    have hσb : ((rest.zip v).lookup b).getD (assign (b :: out) (n :: i) b) = n := by
      rw [lookup_zip_none (fun h => hb (mem_summed.1 h).1), assign_cons]
      simp
    unfold product
    rw [List.zip_append hPl, List.map_append, List.prod_append, List.map_append, List.prod_append]
    congr 1
    · rw [List.zip_map_right, List.map_map]
      refine congrArg List.prod (List.map_congr_left fun q hq => ?_)
      show q.2.val _ = q.2.val _
      refine congrArg _ (List.map_congr_left fun c hc => hσ c ?_)
      rintro rfl
      exact hb (List.mem_flatten.2 ⟨q.1, by simp [(List.of_mem_zip hq).1], hc⟩)
    · rw [List.zip_map_left, List.zip_map_right, List.map_map, List.map_map]
      refine congrArg List.prod (List.map_congr_left fun q hq => ?_)
      show q.2.val ((b :: q.1).map _) = q.2.val _
      rw [List.map_cons, hσb]
      refine congrArg _ (congrArg _ (List.map_congr_left fun c hc => hσ c ?_))
      rintro rfl
      exact hb (List.mem_flatten.2 ⟨q.1, by simp [(List.of_mem_zip hq).1], hc⟩)

end Verif.Einsum
