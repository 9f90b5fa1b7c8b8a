import Verif.Lemmas.Repr

/-! # Properties of the printed form of modules and models -/

namespace Verif.Props
open Verif Tree Repr ReprSpec

/-- **C96** The text of a tree shows, line by line and apart from indentation, an opening bracket, every item in order (with its key) followed by a comma, and a closing bracket: nothing is left out and nothing is
added, whatever the nesting and however many lines a leaf has. -/
theorem C96_content (f : Fmt) (hf : ∀ c ∈ f.base, c = ' ') (t : Tree Str) (ht : KeysOneLine t) :
    (splitOn '\n' (fmt f 0 t)).map lstrip = (lines (fun s => splitOn '\n' (truncate f.maxChars s)) [] t).map lstrip := view_fmt hf 0 t ht

theorem shown_one (f : Fmt) (hm : f.maxChars = Option.none) {s : Str} (hs : '\n' ∉ s) : shown f s = one s := by
  unfold shown one
  rw [hm]
  exact splitOn_noSep _ _ hs

theorem view_plain (f : Fmt) (hf : ∀ c ∈ f.base, c = ' ') (hm : f.maxChars = Option.none) {t : Tree Str} (ht : Plain t) : view (fmt f 0 t) = lines one [] t := by
  rw [view_fmt hf 0 t (keysOneLine_of_plain t ht), lines_congr (shown_one f hm (by decide)) (fun s hs => shown_one f hm hs) t ht]
  exact (List.map_congr_left fun x hx => lstrip_flush (flush_lines t ht [] (by unfold Flush; decide) x hx)).trans (List.map_id' _)

/-- **C96** Different trees are printed differently, if leaves and keys are texts on one line that cannot be confused with brackets. -/
theorem C96_faithful (f : Fmt) (hf : ∀ c ∈ f.base, c = ' ') (hm : f.maxChars = Option.none) (t t' : Tree Str) (ht : Plain t) (ht' : Plain t') (h : fmt f 0 t = fmt f 0 t') : t = t' := by
  have e := congrArg view h
  rw [view_plain f hf hm ht, view_plain f hf hm ht'] at e
  exact (lines_inj t ht t' ht' [] [] [] (by rw [e])).1

theorem model_lines {name : Str} (hn : '\n' ∉ name) (t : Tree Str) :
    splitOn '\n' (modelRepr name t) = (name ++ ['(']) :: (splitOn '\n' (fmt ⟨1, Option.none, "  ".toList⟩ 0 t) ++ [[')']]) := by
  have e : modelRepr name t = (name ++ ['(']) ++ '\n' :: (fmt ⟨1, Option.none, "  ".toList⟩ 0 t ++ '\n' :: [')']) := by simp [modelRepr]
  rw [e, split_cat, split_cat, splitOn_noSep _ (name ++ ['(']) (by simpa using hn)]
  rfl

/-- **C96** Models with the same text have the same name and the same tree of (texts of) modules. -/
theorem C96_model (name name' : Str) (hn : '\n' ∉ name) (hn' : '\n' ∉ name') (t t' : Tree Str) (ht : Plain t) (ht' : Plain t') (h : modelRepr name t = modelRepr name' t') :
    name = name' ∧ t = t' := by
  have e := congrArg (splitOn '\n') h
  rw [model_lines hn, model_lines hn'] at e
  obtain ⟨h1, h2⟩ := List.cons.inj e
  refine ⟨List.append_cancel_right h1, ?_⟩
  have h3 := List.append_cancel_right h2
  refine C96_faithful ⟨1, Option.none, "  ".toList⟩ (by decide) rfl t t' ht ht' ?_
  rw [← joinWith_splitOn '\n' (fmt _ 0 t), h3, joinWith_splitOn]

/-- **C96** The text of a `NonSequentialModel` shows that of its modules, and then every connection once, in order, as `from -> to`. -/
theorem C96_connections (name : Str) (t : Tree Str) (conns : List (Str × Tree Str)) (hne : edges conns ≠ []) (h : ∀ e ∈ edges conns, '\n' ∉ e.1 ∧ ∃ p, e.2 = .leaf p ∧ '\n' ∉ p) :
    splitOn '\n' (nonSeqRepr name t conns) = splitOn '\n' (modelRepr name t) ++ "Connections:".toList :: (edges conns).map fun e => e.1 ++ (" -> ".toList ++ pathStr e.2) := by
  have hl : conns.flatMap connLines = (edges conns).map fun e => e.1 ++ (" -> ".toList ++ pathStr e.2) := by
    clear hne h
    induction conns with
    | nil => rfl
    | cons c conns ih =>
      unfold edges at ih ⊢
      rw [List.flatMap_cons, List.flatMap_cons, List.map_append, ih]
      congr 1
      obtain ⟨k, v⟩ := c
      cases v <;> simp [connLines, List.map_map, Function.comp_def]
  have hc : conns.isEmpty = false := by
    cases conns with
    | nil => exact absurd rfl hne
    | cons c conns => rfl
  have e : nonSeqRepr name t conns = modelRepr name t ++ '\n' :: ("Connections:".toList ++ '\n' :: joinWith '\n' (conns.flatMap connLines)) := by
    unfold nonSeqRepr
    rw [hc]
    simp
  rw [e, split_cat, split_cat, hl, splitOn_joinWith]
  · rfl
  · simpa using hne
  · intro w hw
    obtain ⟨x, hx, rfl⟩ := List.mem_map.1 hw
    obtain ⟨h1, p, h2, h3⟩ := h x hx
    rw [h2]
    simp [pathStr, h1, h3]

/-- **C96** With a limit of at least 3 characters every line of a leaf is at most that long; a shorter line is shown as it is, a longer one by its beginning followed by three dots. -/
theorem C96_width_partial (m : Int) (hm : 3 ≤ m) (s : Str) :
    (∀ x ∈ splitOn '\n' (truncate (some m) s), (x.length : Int) ≤ m) ∧
      splitOn '\n' (truncate (some m) s) = (splitOn '\n' s).map fun x => if (x.length : Int) ≤ m then x else x.take (m.toNat - 3) ++ "...".toList := by
  have hline : ∀ x : Str, truncLine m x = if (x.length : Int) ≤ m then x else x.take (m.toNat - 3) ++ "...".toList := by
    intro x
    unfold truncLine slice
    by_cases h : (x.length : Int) ≤ m
    · rw [if_neg (by omega), if_pos h]
    · rw [if_pos (by omega), if_neg h, if_pos (by omega)]
      congr 2
      omega
  have hno : ∀ x : Str, '\n' ∉ x → '\n' ∉ truncLine m x := by
    intro x hx
    rw [hline]
    split_ifs
    · exact hx
    · intro h
      rcases List.mem_append.1 h with h | h
      · exact hx (List.mem_of_mem_take h)
      · exact absurd h (by decide)
  have hall : splitOn '\n' (truncate (some m) s) = (splitOn '\n' s).map (truncLine m) := by
    unfold truncate
    simp only
    split_ifs with h
    · rw [splitOn_joinWith]
      · simp [splitOn_ne_nil]
      · intro w hw
        obtain ⟨x, hx, rfl⟩ := List.mem_map.1 hw
        exact hno x (splitOn_mem_noSep _ _ _ hx)
    · rw [splitOn_noSep _ _ h, splitOn_noSep _ _ (hno s h)]
      rfl
  refine ⟨fun x hx => ?_, ?_⟩
  · rw [hall] at hx
    obtain ⟨y, -, rfl⟩ := List.mem_map.1 hx
    rw [hline]
    split_ifs with h
    · exact h
    · simp
      omega
  · rw [hall]
    exact List.map_congr_left fun x _ => hline x

/-- **C96** (refutation) With a limit of 0, 1 or 2 characters a line of at least 3 is not shortened: it loses characters at its end and gets three dots, and is then longer than the limit. -/
theorem C96_width_refuted (m : Nat) (hm : m < 3) (s : Str) (hs : 3 ≤ s.length) (hn : '\n' ∉ s) : (truncate (some m) s).length = s.length + m ∧ m < (truncate (some m) s).length := by
  have : (truncate (some m) s).length = s.length + m := by
    unfold truncate truncLine slice
    simp only
    rw [if_neg hn, if_pos (by omega), if_neg (by omega), List.length_append, List.length_take]
    simp
    omega
  omega

theorem flat_items (f : Fmt) (n : Nat) (ss : List Str) (hm : f.maxChars = Option.none) (hs : ∀ s ∈ ss, '\n' ∉ s) : fmtL f n (ss.map Tree.leaf) = ss.map (lead f n ++ ·) := by
  induction ss with
  | nil => rfl
  | cons s ss ih =>
    rw [List.map_cons, fmtL, ih fun s h => hs s (List.mem_cons_of_mem _ h), fmt, top, if_neg (by omega), hm]
    show item f n s :: _ = _
    rw [item, if_neg (hs s (by simp)), List.map_cons]

/-- **C96** The items of a list without further containers are indented by one level, exactly. (Part: for nested containers see `C96_indentation_refuted`.) -/
theorem C96_indentation_partial (f : Fmt) (hb : '\n' ∉ f.base) (hm : f.maxChars = Option.none) (ss : List Str) (hne : ss ≠ []) (hs : ∀ s ∈ ss, '\n' ∉ s) :
    splitOn '\n' (fmt f 0 (.list (ss.map Tree.leaf))) =
      (f.base ++ ['[']) :: (ss.map (fun s => f.base ++ (List.replicate f.indentation ' ' ++ (s ++ [',']))) ++ [f.base ++ [']']]) := by
  have hpad : pad f 1 = List.replicate f.indentation ' ' := by simp [pad]
  have hlead : lead f 0 = f.base ++ List.replicate f.indentation ' ' := by rw [← hpad]; rfl
  have hj : ∀ (l : List Str) (b : Str), l ≠ [] → (∀ x ∈ l, '\n' ∉ x) → splitOn '\n' (joinComma l ++ (",\n".toList ++ b)) = l.map (· ++ [',']) ++ splitOn '\n' b := by
    intro l b
    induction l with
    | nil => exact fun h => absurd rfl h
    | cons x l ih =>
      intro _ hx
      have e : ∀ r : Str, x ++ (",\n".toList ++ r) = (x ++ [',']) ++ '\n' :: r := fun r => by simp
      have hx0 : '\n' ∉ x ++ [','] := by simpa using hx x (by simp)
      cases l with
      | nil => rw [joinComma, e, split_cat, splitOn_noSep _ _ hx0]; rfl
      | cons y r =>
        rw [joinComma, List.append_assoc, List.append_assoc, e, split_cat, splitOn_noSep _ _ hx0, ih (by simp) fun z hz => hx z (List.mem_cons_of_mem _ hz)]
        rfl
  have he : (ss.map (Tree.leaf (β := Str))).isEmpty = false := by cases ss <;> simp_all
  rw [fmt, he, top, if_pos rfl, flat_items f 0 ss hm hs]
  simp only [Bool.false_eq_true, if_false]
  unfold container
  rw [show ∀ r : Str, f.base ++ '[' :: '\n' :: r = (f.base ++ ['[']) ++ '\n' :: r from fun r => by simp, split_cat, splitOn_noSep _ (f.base ++ ['[']) (by simpa using hb), hj _ _ (by simpa using hne)]
  · rw [show pad f 0 = [] by simp [pad], List.nil_append, splitOn_noSep _ (f.base ++ [']']) (by simpa using hb), List.map_map, hlead]
    have : ∀ x : Str, f.base ++ List.replicate f.indentation ' ' ++ x ++ [','] = f.base ++ (List.replicate f.indentation ' ' ++ (x ++ [','])) := fun x => by simp
    simp only [Function.comp_def, this]
    rfl
  · intro x hx
    obtain ⟨y, hy, rfl⟩ := List.mem_map.1 hx
    rw [hlead]
    intro h
    rcases List.mem_append.1 h with h | h
    · rcases List.mem_append.1 h with h | h
      · exact hb h
      · exact absurd (List.eq_of_mem_replicate h) (by decide)
    · exact hs y hy h

/-- **C96** (refutation) `indentation` spaces for each level: in a list inside a list the inner item has twice the base indentation and three levels of it, where two were asked for, and the inner closing bracket is
not below its opening bracket. -/
theorem C96_indentation_refuted (i : Nat) (b : Str) (hb : '\n' ∉ b) (s : Str) (hs : '\n' ∉ s) :
    splitOn '\n' (fmt ⟨i, Option.none, b⟩ 0 (.list [.list [.leaf s]])) =
      [b ++ ['['], b ++ (List.replicate i ' ' ++ ['[']), b ++ (List.replicate i ' ' ++ (b ++ (List.replicate (2 * i) ' ' ++ (s ++ [','])))),
        b ++ (List.replicate i ' ' ++ (b ++ (List.replicate i ' ' ++ [']', ',']))), b ++ [']']] := by
  have hr : ∀ n (r : Str), '\n' ∉ r → '\n' ∉ List.replicate n ' ' ++ r := by
    intro n r hr h
    rcases List.mem_append.1 h with h | h
    · exact absurd (List.eq_of_mem_replicate h) (by decide)
    · exact hr h
  have hbr : ∀ r : Str, '\n' ∉ r → '\n' ∉ b ++ r := by
    intro r hr h
    exact (List.mem_append.1 h).elim hb hr
  have hinner : splitOn '\n' (fmt ⟨i, Option.none, b⟩ 1 (.list [.leaf s])) = [['['], b ++ (List.replicate (2 * i) ' ' ++ (s ++ [','])), b ++ (List.replicate (1 * i) ' ' ++ [']'])] := by
    have e : fmt ⟨i, Option.none, b⟩ 1 (.list [.leaf s]) = ['['] ++ '\n' :: ((b ++ (List.replicate (2 * i) ' ' ++ (s ++ [',']))) ++ '\n' :: (b ++ (List.replicate (1 * i) ' ' ++ [']']))) := by
      simp [fmt, fmtL, top, container, joinComma, item, hs, lead, pad, truncate]
    rw [e, split_cat, split_cat, splitOn_noSep _ ['['] (by decide), splitOn_noSep _ _ (hbr _ (hr _ _ (by simpa using hs))), splitOn_noSep _ _ (hbr _ (hr _ _ (by decide)))]
    rfl
  have hmem : '\n' ∈ fmt ⟨i, Option.none, b⟩ 1 (.list [.leaf s]) := by
    refine Decidable.byContradiction fun h => ?_
    rw [splitOn_noSep _ _ h] at hinner
    exact absurd (congrArg List.length hinner) (by simp)
  have e : fmt ⟨i, Option.none, b⟩ 0 (.list [.list [.leaf s]]) = (b ++ ['[']) ++ '\n' :: ((b ++ (List.replicate (1 * i) ' ' ++ ['['])) ++ '\n' ::
      ((b ++ (List.replicate (1 * i) ' ' ++ (b ++ (List.replicate (2 * i) ' ' ++ (s ++ [',']))))) ++ '\n' ::
        ((b ++ (List.replicate (1 * i) ' ' ++ (b ++ (List.replicate (1 * i) ' ' ++ [']', ','])))) ++ '\n' :: (b ++ [']'])))) := by
    rw [fmt]
    simp [fmtL, top, container, joinComma, item, hmem, indentAll, hinner, lead, pad, joinWith]
  rw [e, split_cat, split_cat, split_cat, split_cat, splitOn_noSep _ (b ++ ['[']) (hbr _ (by decide)), splitOn_noSep _ (b ++ (_ ++ ['['])) (hbr _ (hr _ _ (by decide))),
    splitOn_noSep _ (b ++ (_ ++ (b ++ (_ ++ (s ++ [','])))) ) (hbr _ (hr _ _ (hbr _ (hr _ _ (by simpa using hs))))), splitOn_noSep _ (b ++ (_ ++ (b ++ (_ ++ [']', ','])))) (hbr _ (hr _ _ (hbr _ (hr _ _ (by decide))))),
    splitOn_noSep _ (b ++ [']']) (hbr _ (by decide)), Nat.one_mul]
  rfl

theorem group3_filter : ∀ l : Str, ',' ∉ l → (group3 l).filter (',' ≠ ·) = l
  | [], _ => rfl
  | [a], h => by simpa [group3] using h
  | [a, b], h => by simpa [group3] using h
  | [a, b, c], h => by simpa [group3] using h
  | a :: b :: c :: d :: r, h => by
    simp only [List.mem_cons, not_or] at h
    have := group3_filter (d :: r) fun e => (List.mem_cons.1 e).elim h.2.2.2.1 h.2.2.2.2
    rw [group3, List.filter_cons_of_pos (by simpa using h.1), List.filter_cons_of_pos (by simpa using h.2.1), List.filter_cons_of_pos (by simpa using h.2.2.1),
      List.filter_cons_of_neg (by simp), this]

theorem group3_mem {c : Char} (hc : c ≠ ',') : ∀ l : Str, c ∈ group3 l → c ∈ l
  | [], h => h
  | [_], h => h
  | [_, _], h => h
  | [_, _, _], h => h
  | a :: b :: d :: e :: r, h => by
    simp only [group3, List.mem_cons] at h
    rcases h with h | h | h | h | h
    · simp [h]
    · simp [h]
    · simp [h]
    · exact absurd h hc
    · have := group3_mem hc (e :: r) h
      exact List.mem_cons_of_mem _ (List.mem_cons_of_mem _ (List.mem_cons_of_mem _ this))

theorem ofNat_digit {n : Nat} {c : Char} (h : c ∈ ofNat n) : c.isDigit = true := Nat.isDigit_of_mem_toDigits (by omega) (by omega) h

theorem num_inj : Function.Injective num := by
  intro m n h
  have h1 : group3 (ofNat m).reverse = group3 (ofNat n).reverse := List.reverse_inj.1 h
  have hc : ∀ k, ',' ∉ (ofNat k).reverse := fun k e => absurd (ofNat_digit (List.mem_reverse.1 e)) (by decide)
  have h2 := congrArg (List.filter (',' ≠ ·)) h1
  rw [group3_filter _ (hc m), group3_filter _ (hc n)] at h2
  have h3 : ofNat m = ofNat n := List.reverse_inj.1 h2
  have hm := Nat.ofDigitChars_toDigits (n := m) (b := 10) (by omega) (by omega)
  have hn := Nat.ofDigitChars_toDigits (n := n) (b := 10) (by omega) (by omega)
  unfold ofNat at h3
  rw [h3, hn] at hm
  exact hm.symm

theorem num_paren (n : Nat) : ')' ∉ num n := by
  intro h
  have := group3_mem (by decide) _ (List.mem_reverse.1 h)
  exact absurd (ofNat_digit (List.mem_reverse.1 this)) (by decide)

/-- **C96** The text of a module tells (given its name) whether it is ready and, if it is, how many trainable floats it has and whether they are frozen; unknown and no trainable floats are not told apart. -/
theorem C96_module (a b : Info) (hn : a.name = b.name) :
    moduleRepr a = moduleRepr b ↔
      a.ready = b.ready ∧ (a.ready = true → a.floats.getD 0 = b.floats.getD 0 ∧ (a.floats.getD 0 ≠ 0 → a.trainable = b.trainable)) := by
  have hnum := num_inj
  have hdig := num_paren
  obtain ⟨name, fa, ra, ta⟩ := a
  obtain ⟨name', fb, rb, tb⟩ := b
  obtain rfl : name = name' := hn
  have hfl : ∀ (m n : Nat) (x y : Str), num m ++ ')' :: x = num n ++ ')' :: y → m = n ∧ x = y := fun m n x y h => by
    obtain ⟨h1, h2⟩ := colon_inj (hdig m) (hdig n) h
    exact ⟨hnum h1, h2⟩
  have hf2 : ∀ (m n : Nat) (x y : Str), " (trainable floats: ".toList ++ (num m ++ ')' :: x) = " (trainable floats: ".toList ++ (num n ++ ')' :: y) ↔ m = n ∧ x = y := fun m n x y =>
    ⟨fun h => hfl m n x y (List.append_cancel_left h), by rintro ⟨rfl, rfl⟩; rfl⟩
  have hu : ∀ (m : Nat) (x : Str), " (uninitialized)".toList ≠ " (trainable floats: ".toList ++ (num m ++ x) := by
    intro m x h
    have := congrArg (fun l : Str => l[2]?) h
    simp at this
  have key : ∀ i : Info, moduleRepr i = i.name ++
      (if i.ready = false then " (uninitialized)".toList else if i.floats.getD 0 = 0 then [] else " (trainable floats: ".toList ++ (num (i.floats.getD 0) ++ ')' :: if i.trainable then [] else " [frozen])".toList)) := by
    rintro ⟨nm, fl, r, t⟩
    rcases r with _ | _ <;> rcases fl with _ | _ | m <;> rcases t with _ | _ <;> simp [moduleRepr]
  rw [key, key]
  simp only [List.append_cancel_left_eq]
  cases ra <;> cases rb
  · simp
  · simp only [if_true, Bool.true_eq_false, if_false, Bool.false_eq_true, false_and, iff_false]
    by_cases h : fb.getD 0 = 0
    · rw [if_pos h]; exact nofun
    · rw [if_neg h]; exact hu _ _
  · simp only [if_true, Bool.true_eq_false, if_false, Bool.false_eq_true, false_and, iff_false]
    by_cases h : fa.getD 0 = 0
    · rw [if_pos h]; exact nofun
    · rw [if_neg h]; exact fun e => hu _ _ e.symm
  · simp only [Bool.true_eq_false, if_false, true_and, forall_const]
    by_cases h1 : fa.getD 0 = 0 <;> by_cases h2 : fb.getD 0 = 0
    · rw [if_pos h1, if_pos h2]; simp [h1, h2]
    · rw [if_pos h1, if_neg h2]
      exact ⟨nofun, fun h => absurd (h.1.symm.trans h1) h2⟩
    · rw [if_neg h1, if_pos h2]
      exact ⟨nofun, fun h => absurd (h.1.trans h2) h1⟩
    · rw [if_neg h1, if_neg h2, hf2]
      refine and_congr_right fun h3 => ?_
      simp only [h1, ne_eq, not_false_eq_true, forall_const]
      cases ta <;> cases tb <;> simp

/-! ## Examples -/

/-- A dictionary with a list, an empty tuple and `None` in it. -/
def exPrinted : Tree Str := .dict [("a".toList, .list [.leaf "ReLU".toList, .leaf "Bias (uninitialized)".toList]), ("b".toList, .tuple []), ("c".toList, .none), ("d".toList, .leaf "Flatten".toList)]

example : Plain exPrinted ∧ KeysOneLine exPrinted := by
  simp [exPrinted, Plain, PlainD, PlainL, PlainKey, PlainLeaf, KeysOneLine, KeysOneLineD, KeysOneLineL]

/-- What is printed, with the uneven indentation. -/
example : modelRepr "SequentialModel".toList exPrinted = ("SequentialModel(\n" ++ "  {\n" ++ "   a:\n" ++ "   [\n" ++ "       ReLU,\n" ++ "       Bias (uninitialized),\n" ++ "      ],\n" ++ "   b: (),\n" ++
    "   c: None,\n" ++ "   d: Flatten,\n" ++ "  }\n)").toList := by decide +kernel

/-- Two trees that are printed alike, because a key has a colon in it: the condition on keys is needed. -/
example : fmt ⟨1, Option.none, []⟩ 0 (.dict [("a: b".toList, .leaf "c".toList)]) = fmt ⟨1, Option.none, []⟩ 0 (.dict [("a".toList, .leaf "b: c".toList)]) := by decide +kernel

/-- The connections of a graph model. -/
example : edges [("input".toList, .list [.leaf "m".toList, .leaf "n".toList]), ("m".toList, .leaf "output".toList)] =
    [("input".toList, .leaf "m".toList), ("input".toList, .leaf "n".toList), ("m".toList, .leaf "output".toList)] := rfl

/-- Truncation at 8 and at 2 characters. -/
example : truncate (some 8) "AffineHermitianMatrix".toList = "Affin...".toList ∧ truncate (some 2) "ReLU".toList = "ReL...".toList := by decide +kernel

/-- A module with many parameters, and the unbalanced parenthesis of a frozen one. -/
example : moduleRepr ⟨"Bias".toList, some 1234567, true, true⟩ = "Bias (trainable floats: 1,234,567)".toList ∧
    moduleRepr ⟨"Bias".toList, some 123, true, false⟩ = "Bias (trainable floats: 123) [frozen])".toList ∧ moduleRepr ⟨"Bias".toList, Option.none, false, true⟩ = "Bias (uninitialized)".toList := by decide +kernel

end Verif.Props
