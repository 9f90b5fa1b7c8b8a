import Verif.Lemmas.Einsum
import Verif.Spec.Einsum
import Verif.Lemmas.Str
import Verif.Lemmas.TreeBack
import Verif.Lemmas.Sequential

/-! Parsing of subscript strings. -/

namespace Verif.Einsum
open Tree EinsumSpec
open ForwardSpec (At KeysOk)

theorem splitArrow_none {s : Str} (h : '-' ∉ s) : splitArrow s = Option.none := by
  induction s with
  | nil => rfl
  | cons a s ih =>
    cases s with
    | nil => rfl
    | cons b s =>
      unfold splitArrow
      rw [if_neg (by rintro ⟨rfl, -⟩; exact h (by simp)), ih fun hc => h (by simp [hc])]
      rfl

theorem splitArrow_append {s : Str} (h : '-' ∉ s) (o : Str) : splitArrow (s ++ '-' :: '>' :: o) = some (s, o) := by
  induction s with
  | nil => simp [splitArrow]
  | cons a s ih =>
    have ih := ih fun hc => h (by simp [hc])
    cases s with
    | nil =>
      simp only [List.cons_append, List.nil_append] at ih ⊢
      unfold splitArrow
      rw [if_neg (by rintro ⟨rfl, -⟩; exact h (by simp)), ih]
      rfl
    | cons b s =>
      simp only [List.cons_append] at ih ⊢
      unfold splitArrow
      rw [if_neg (by rintro ⟨rfl, -⟩; exact h (by simp)), ih]
      rfl

theorem mem_joinWith {sep c : Char} : ∀ {l : List Str}, c ∈ joinWith sep l → c = sep ∨ ∃ w ∈ l, c ∈ w
  | [], h => by cases h
  | [w], h => .inr ⟨w, by simp, h⟩
  | w :: w' :: l, h => by
    rw [joinWith, List.mem_append, List.mem_cons] at h
    rcases h with h | h | h
    · exact .inr ⟨w, by simp, h⟩
    · exact .inl h
    · rcases mem_joinWith h with h | ⟨v, hv, h⟩
      · exact .inl h
      · exact .inr ⟨v, by simp [List.mem_cons.1 hv], h⟩

theorem mem_joinWith_of {sep c : Char} : ∀ {l : List Str}, (∃ w ∈ l, c ∈ w) → c ∈ joinWith sep l
  | [], ⟨w, h, _⟩ => by cases h
  | [w], ⟨v, h, hc⟩ => by rw [List.mem_singleton] at h; subst h; exact hc
  | w :: w' :: l, ⟨v, h, hc⟩ => by
    rw [joinWith, List.mem_append, List.mem_cons]
    rcases List.mem_cons.1 h with rfl | h
    · exact .inl hc
    · exact .inr (.inr (mem_joinWith_of ⟨v, h, hc⟩))

theorem reduce_aux : ∀ (l : List Str) (carry : Str), carry ≠ [] →
    l.foldl (fun carry s => if carry = [] then s else carry ++ ',' :: s) carry = joinWith ',' (carry :: l)
  | [], carry, _ => rfl
  | s :: l, carry, h => by
    rw [List.foldl_cons, if_neg h, reduce_aux l _ (by simp)]
    cases l with
    | nil => simp [joinWith]
    | cons a l => simp [joinWith]

theorem reduceInputs_eq {l : List Str} (h : l.length ≤ 1 ∨ l.headD [] ≠ []) : reduceInputs l = joinWith ',' l := by
  unfold reduceInputs
  cases l with
  | nil => rfl
  | cons s l =>
    rw [List.foldl_cons, if_pos rfl]
    by_cases hs : s = []
    · subst hs
      have : l = [] := by
        rcases h with h | h
        · simpa using h
        · simp at h
      subst this
      rfl
    · exact reduce_aux l s hs

theorem mem_letters {c : Char} : c ∈ letters ↔ c.isAlpha = true := by
  constructor
  · intro h
    have : letters.all Char.isAlpha = true := by decide +kernel
    exact List.all_eq_true.1 this c h
  · intro h
    have : c.toNat < 123 := by
      simp only [Char.isAlpha, Char.isUpper, Char.isLower, Bool.or_eq_true, Bool.and_eq_true, decide_eq_true_eq] at h
      rcases h with h | h
      · exact Nat.lt_of_le_of_lt (UInt32.le_iff_toNat_le.1 h.2) (by decide)
      · exact Nat.lt_of_le_of_lt (UInt32.le_iff_toNat_le.1 h.2) (by decide)
    have key : ∀ n < 123, (Char.ofNat n).isAlpha = true → Char.ofNat n ∈ letters := by decide +kernel
    have := key c.toNat this
    rw [Char.ofNat_toNat] at this
    exact this h

theorem letters_not {c : Char} (h : c ∈ letters) : c ≠ ',' ∧ c ≠ '-' ∧ c ≠ '>' := by
  refine ⟨?_, ?_, ?_⟩ <;> rintro rfl <;> revert h <;> decide

/-- The output of the subscripts. -/
def output (ls is : List Str) (o : Option Str) : Str := o.getD (inferOutput (joinWith ',' (ls ++ is)))

theorem inferOutput_spec {s : Str} : (inferOutput s).Pairwise (· ≤ ·) ∧ (inferOutput s).Nodup ∧ ∀ c, c ∈ inferOutput s ↔ c ≠ ',' ∧ s.count c = 1 := by
  have hp := List.perm_insertionSort (· ≤ ·) ((s.filter fun c => c ≠ ',').dedup.filter fun c => s.count c = 1)
  refine ⟨List.pairwise_insertionSort _ _, hp.nodup_iff.2 ((List.nodup_dedup _).filter _), fun c => ?_⟩
  unfold inferOutput
  rw [hp.mem_iff, List.mem_filter, List.mem_dedup, List.mem_filter]
  simp only [decide_eq_true_eq, ne_eq, decide_not, Bool.not_eq_eq_eq_not, Bool.not_true, decide_eq_false_iff_not]
  constructor
  · rintro ⟨⟨-, h⟩, h'⟩; exact ⟨h, h'⟩
  · rintro ⟨h, h'⟩
    exact ⟨⟨List.count_pos_iff.1 (by omega), h⟩, h'⟩

theorem count_joinWith {c : Char} (hc : c ≠ ',') : ∀ l : List Str, (joinWith ',' l).count c = l.flatten.count c
  | [] => rfl
  | [w] => by simp [joinWith]
  | w :: w' :: l => by
    have : (',' == c) = false := by simpa using fun e => hc e.symm
    rw [joinWith, List.count_append, List.count_cons, count_joinWith hc (w' :: l), List.flatten_cons, List.count_append, this]
    simp

theorem perm_infer {s t : Str} (h : ∀ c, c ≠ ',' → s.count c = t.count c) : inferOutput s = inferOutput t := by
  obtain ⟨a1, a2, a3⟩ := inferOutput_spec (s := s)
  obtain ⟨b1, b2, b3⟩ := inferOutput_spec (s := t)
  have hp : (inferOutput s).Perm (inferOutput t) := (List.perm_ext_iff_of_nodup a2 b2).2 fun c => by
    rw [a3, b3]
    exact and_congr_right fun hc => by rw [h c hc]
  exact hp.eq_of_pairwise (fun a b _ _ h1 h2 => Char.le_antisymm h1 h2) a1 b1

theorem inputList_leaf {shapes : Tree (List Nat)} {s : Str} (hv : validChars s = true) (b : Bool) (hb : b = true → ∃ sh, shapes = .leaf sh) :
    inputList (.leaf s) shapes b = .ok (splitOn ',' s) := by
  unfold inputList
  simp only [hv]
  cases b with
  | false => rfl
  | true =>
    obtain ⟨sh, rfl⟩ := hb rfl
    simp only [Bool.not_true, Bool.false_eq_true, if_false, if_true]
    have hl : ∀ l : List Str, flatL (normL (l.map Tree.leaf)) = l := by
      intro l
      induction l with
      | nil => rfl
      | cons a l ih => simp [normL, flatL, Tree.norm, flat, ih]
    show Except.ok (jaxLeaves (Tree.list ((splitOn ',' s).map Tree.leaf))) = _
    exact congrArg _ (hl _)

theorem leaves_of_at {r : Tree Str} {u : Tree Str} (hu : KeysOk u) (hs : sameStruct r.norm u.norm = true) (ha : ∀ p v, At r p v → At u p v) : jaxLeaves r = jaxLeaves u := by
  have h := sameStruct_entries _ _ hs
  have : Tree.entries r.norm = Tree.entries u.norm := by
    refine List.ext_getElem (by simpa using congrArg List.length h) fun k h1 h2 => ?_
    have e : (Tree.entries r.norm)[k].1 = (Tree.entries u.norm)[k].1 := by
      have := congrArg (fun l => l[k]?) h
      simp only [List.getElem?_map, List.getElem?_eq_getElem h1, List.getElem?_eq_getElem h2, Option.map_some, Option.some.injEq] at this
      exact this
    have a1 := (mem_entries r.norm _ _).1 (List.getElem_mem h1)
    have a2 : At u.norm (Tree.entries u.norm)[k].1 (Tree.entries u.norm)[k].2 := (mem_entries u.norm _ _).1 (List.getElem_mem h2)
    rw [← e] at a2
    exact Prod.ext e (at_unique hu (ha _ _ (at_norm.1 a1)) (at_norm.1 a2))
  show flat r.norm = flat u.norm
  rw [← entries_snd, ← entries_snd, this]

theorem second_leaves {t : Tree (List Nat)} {u : Tree Str} (hk : KeysOk t) (hu : KeysOk u) (hs : sameStruct t.norm u.norm = true) :
    ∃ r, jaxMap second t [u] = .ok r ∧ jaxLeaves r = jaxLeaves u := by
  have hs' : sameStruct (map (fun a => (a, ([] : List (Tree Str)))) t.norm) u.norm = true := by
    rw [sameStruct_iff, map_map]
    exact (sameStruct_iff _ _).1 hs
  obtain ⟨z, hz, hleaf⟩ := zipPre_same _ u hu hs'
  have hfst := zipPre_fst _ _ hz
  let g : (List Nat × List (Tree Str)) × Tree Str → Str := fun x => match x.2 with
    | .leaf b => b
    | _ => []
  have hm : mapM (fun x : List Nat × List (Tree Str) => second x.1 x.2) (map (fun x => (x.1.1, x.1.2 ++ [x.2])) z) = .ok (map g z) := by
    rw [mapM_comp]
    refine mapM_leaf _ g z fun x hx => ?_
    obtain ⟨b, hb⟩ := hleaf x hx
    have : x.1.2 = [] := by
      obtain ⟨p, hp⟩ := mem_flat_at.1 hx
      have : At (map Prod.fst z) p x.1 := at_map.2 ⟨x, hp, rfl⟩
      rw [hfst] at this
      obtain ⟨y, -, e⟩ := at_map.1 this
      rw [← e]
    show second x.1.1 (x.1.2 ++ [x.2]) = _
    rw [this, hb]
    simp [second, g, hb]
  have hstr : map (fun _ => ()) (map g z) = map (fun _ => ()) t.norm := by
    have := congrArg (map fun _ => ()) hfst
    rw [map_map, map_map] at this
    rw [map_map]
    exact this
  refine ⟨map g z, by unfold jaxMap; rw [zipAll, hz]; exact hm, leaves_of_at hu ?_ fun p v hv => ?_⟩
  · rw [sameStruct_iff, ← Tree.norm_map, hstr, Tree.norm_map, norm_norm hk]
    exact (sameStruct_iff _ _).1 hs
  · obtain ⟨x, hx, e⟩ := at_map.1 hv
    obtain ⟨b, hb⟩ := hleaf x (mem_flat_at.2 ⟨p, hx⟩)
    have : b = v := by rw [← e]; simp [g, hb]
    subst this
    have hsub := zipPre_at (a := x.1) (v := x.2) hz hx
    rw [hb] at hsub
    exact sub_leaf.1 hsub

/-- Parsing a subscript string. -/
theorem concretise_text {ls is : List Str} {o : Option Str} (h : Subscripts ls is o) {shapes : Tree (List Nat)} (hr : List.Forall₂ (fun s sh => s.length = sh.length) is (jaxLeaves shapes))
    {hp : Bool} (hpar : hp = true → ls ≠ []) (hfree : ∃ c ∈ letters, c ∉ (ls ++ is).flatten ∧ c ∉ output ls is o) :
    ∃ b, concretise (.leaf (text (ls ++ is) o)) hp shapes = .ok ⟨ls, is, output ls is o, b⟩ ∧ b ∈ letters ∧ b ∉ (ls ++ is).flatten ∧ b ∉ output ls is o := by
  have hall : ∀ s ∈ ls ++ is, ∀ c ∈ s, c ∈ letters := fun s hs => by
    rcases List.mem_append.1 hs with hs | hs
    · exact fun c hc => mem_letters.2 (h.leading s hs c hc)
    · exact fun c hc => mem_letters.2 (h.inputs s hs c hc)
  have hne : ls ++ is ≠ [] := by simp [h.nonempty]
  have hcomma : ∀ s ∈ ls ++ is, ',' ∉ s := fun s hs hc => (letters_not (hall s hs _ hc)).1 rfl
  have hdash : ∀ l, (∀ s ∈ l, s ∈ ls ++ is) → '-' ∉ joinWith ',' l := by
    intro l hl hc
    rcases mem_joinWith hc with hc | ⟨w, hw, hc⟩
    · cases hc
    · exact (letters_not (hall w (hl w hw) _ hc)).2.1 rfl
  have hvalid : ∀ l, (∀ s ∈ l, s ∈ ls ++ is) → validChars (joinWith ',' l) = true := by
    intro l hl
    unfold validChars
    rw [List.all_eq_true]
    intro c hc
    rw [decide_eq_true_eq]
    rcases mem_joinWith hc with hc | ⟨w, hw, hc⟩
    · exact .inr hc
    · exact .inl (hall w (hl w hw) c hc)
  obtain ⟨wt, hparts, hwt⟩ : ∃ wt, parts (.leaf (text (ls ++ is) o)) shapes = .ok (Option.none, .leaf (text (ls ++ is) o), Option.none, wt) ∧ (wt = true → ∃ sh, shapes = .leaf sh) := by
    unfold parts
    cases shapes with
    | leaf sh => exact ⟨true, rfl, fun _ => ⟨sh, rfl⟩⟩
    | none => exact ⟨false, rfl, fun h => by cases h⟩
    | list ts => exact ⟨false, rfl, fun h => by cases h⟩
    | tuple ts => exact ⟨false, rfl, fun h => by cases h⟩
    | dict kvs => exact ⟨false, rfl, fun h => by cases h⟩
  have hsplit : splitOutput (.leaf (text (ls ++ is) o)) Option.none = .ok (.leaf (joinWith ',' (ls ++ is)), o) := by
    unfold splitOutput
    cases o with
    | none =>
      have : text (ls ++ is) Option.none = joinWith ',' (ls ++ is) := by simp [text]
      rw [this]
      simp only
      rw [splitArrow_none (hdash _ fun s hs => hs)]
    | some o =>
      have : text (ls ++ is) (some o) = joinWith ',' (ls ++ is) ++ '-' :: '>' :: o := rfl
      rw [this]
      simp only
      rw [splitArrow_append (hdash _ fun s hs => hs)]
      simp only
      rw [splitArrow_none fun hc => (letters_not (mem_letters.2 (h.out o rfl _ hc))).2.1 rfl]
      rfl
  have hlen : is.length = (jaxLeaves shapes).length := hr.length_eq
  obtain ⟨lead, hlead, hl1, hl2⟩ : ∃ lead, splitLeading Option.none (.leaf (joinWith ',' (ls ++ is))) (jaxLeaves shapes).length = (lead, .leaf (joinWith ',' is)) ∧
      (lead = if ls = [] then Option.none else some (joinWith ',' ls)) ∧ (lead.map (splitOn ',')).getD [] = ls := by
    unfold splitLeading
    simp only
    rw [splitOn_joinWith _ _ hne hcomma, ← hlen]
    by_cases hls : ls = []
    · subst hls
      refine ⟨Option.none, ?_, by simp, rfl⟩
      rw [if_neg (by simp)]
      simp
    · refine ⟨some (joinWith ',' ls), ?_, by simp [hls], ?_⟩
      · rw [if_pos (by have := List.length_pos_iff.2 hls; simp; omega), List.length_append, Nat.add_sub_cancel, List.take_left, List.drop_left]
      · simp only [Option.map_some, Option.getD_some]
        exact splitOn_joinWith _ _ hls fun s hs => hcomma s (by simp [hs])
  have hin := inputList_leaf (shapes := shapes) (hvalid is fun s hs => by simp [hs]) wt hwt
  rw [splitOn_joinWith _ _ h.nonempty fun s hs => hcomma s (by simp [hs])] at hin
  have hred : reduceInputs is = joinWith ',' is := reduceInputs_eq h.first
  have hcnt : ∀ c, c ≠ ',' → (lead.getD [] ++ joinWith ',' is).count c = (joinWith ',' (ls ++ is)).count c := by
    intro c hc
    rw [count_joinWith hc, List.flatten_append, List.count_append, List.count_append, count_joinWith hc, hl1]
    split
    · next e => subst e; rfl
    · rw [Option.getD_some, count_joinWith hc]
  have hout : o.getD (inferOutput (lead.getD [] ++ joinWith ',' is)) = output ls is o := by
    unfold output
    rw [perm_infer hcnt]
  have hused : ∀ c, c ≠ ',' → (c ∈ lead.getD [] ++ joinWith ',' is ++ output ls is o ↔ c ∈ (ls ++ is).flatten ∨ c ∈ output ls is o) := by
    intro c hc
    rw [List.mem_append, ← List.count_pos_iff, hcnt c hc, count_joinWith hc, List.count_pos_iff]
  have hvlead : validChars (lead.getD []) = true := by
    rw [hl1]
    split
    · rfl
    · exact hvalid ls fun s hs => by simp [hs]
  have hvout : (o.getD []).all (fun c => decide (c ∈ letters)) = true := by
    rw [List.all_eq_true]
    intro c hc
    rw [decide_eq_true_eq]
    cases o with
    | none => cases hc
    | some o => exact mem_letters.2 (h.out o rfl c hc)
  have hfind : ∃ b, letters.find? (fun c => !(lead.getD [] ++ joinWith ',' is ++ output ls is o).contains c) = some b := by
    obtain ⟨c, hc, h1, h2⟩ := hfree
    rw [← Option.isSome_iff_exists, List.find?_isSome]
    refine ⟨c, hc, ?_⟩
    rw [Bool.not_eq_true', List.contains_eq_mem, decide_eq_false_iff_not, hused c (letters_not hc).1]
    exact fun h => h.elim h1 h2
  obtain ⟨b, hb⟩ := hfind
  have hbl := List.mem_of_find?_eq_some hb
  have hbf := List.find?_some hb
  rw [Bool.not_eq_true', List.contains_eq_mem, decide_eq_false_iff_not, hused b (letters_not hbl).1] at hbf
  refine ⟨b, ?_, hbl, fun hc => hbf (.inl hc), fun hc => hbf (.inr hc)⟩
  have hz : ((is.zip (jaxLeaves shapes)).all fun p => decide (p.1.length = p.2.length)) = true := by
    rw [List.all_eq_true]
    intro p hp
    rw [decide_eq_true_eq]
    exact (List.forall₂_iff_zip.1 hr).2 hp
  unfold concretise
  rw [hparts]
  simp only [hsplit, hlead]
  rw [if_neg, if_neg (by rw [hvout]; simp), if_neg (by rw [hvlead]; simp), hin]
  · simp only [hred, hout, hb]
    rw [splitOn_joinWith _ _ h.nonempty fun s hs => hcomma s (by simp [hs]), if_pos hz, hl2]
  · rintro ⟨e, hpe⟩
    rw [hl1, if_neg (hpar hpe)] at e
    cases e

end Verif.Einsum
