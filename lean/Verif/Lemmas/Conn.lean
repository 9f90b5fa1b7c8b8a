import Verif.Spec.Connections
import Verif.Lemmas.Str
import Verif.Lemmas.Tree
import Verif.Lemmas.Concretize

namespace Verif.Conn
open TreeSpec ConnSpec

/-- Components that can be joined and split again. -/
def Comps (sep : Char) (p : List Str) : Prop := ∀ w ∈ p, w ≠ [] ∧ sep ∉ w

theorem Comps.left {sep : Char} {p q : List Str} (h : Comps sep (p ++ q)) : Comps sep p :=
  fun w hw => h w (List.mem_append_left _ hw)
theorem Comps.right {sep : Char} {p q : List Str} (h : Comps sep (p ++ q)) : Comps sep q :=
  fun w hw => h w (List.mem_append_right _ hw)
theorem Comps.append {sep : Char} {p q : List Str} (h : Comps sep p) (h' : Comps sep q) : Comps sep (p ++ q) := by
  intro w hw
  rcases List.mem_append.1 hw with hw | hw
  · exact h w hw
  · exact h' w hw

theorem comps_splitOn {sep : Char} {s : Str} (h : Proper (splitOn sep s)) : Comps sep (splitOn sep s) :=
  fun w hw => ⟨h w hw, splitOn_mem_noSep sep s w hw⟩

theorem join_head {sep : Char} {p : List Str} (h : Comps sep p) (hne : p ≠ []) :
    ∃ c cs, joinWith sep p = c :: cs ∧ c ≠ sep := by
  match p, hne with
  | [w], _ =>
    obtain ⟨h1, h2⟩ := h w (by simp)
    obtain ⟨c, cs, rfl⟩ := List.exists_cons_of_ne_nil h1
    exact ⟨c, cs, rfl, fun e => h2 (by simp [e])⟩
  | w :: w' :: ws, _ =>
    obtain ⟨h1, h2⟩ := h w (by simp)
    obtain ⟨c, cs, rfl⟩ := List.exists_cons_of_ne_nil h1
    exact ⟨c, _, rfl, fun e => h2 (by simp [e])⟩

theorem join_last {sep : Char} {p : List Str} (h : Comps sep p) (hne : p ≠ []) :
    ∃ cs c, joinWith sep p = cs ++ [c] ∧ c ≠ sep := by
  induction p with
  | nil => exact absurd rfl hne
  | cons w ws ih =>
    cases ws with
    | nil =>
      obtain ⟨h1, h2⟩ := h w (by simp)
      refine ⟨w.dropLast, w.getLast h1, (List.dropLast_append_getLast h1).symm, ?_⟩
      intro e; exact h2 (e ▸ List.getLast_mem h1)
    | cons w' ws =>
      obtain ⟨cs, c, e, hc⟩ := ih (fun x hx => h x (by simp [List.mem_cons.1 hx])) (by simp)
      exact ⟨w ++ sep :: cs, c, by simp [joinWith, e], hc⟩

theorem hasDouble_word {sep : Char} {w : Str} (h : sep ∉ w) : hasDouble sep w = false := by
  induction w with
  | nil => rfl
  | cons a w ih =>
    cases w with
    | nil => rfl
    | cons b w =>
      simp only [List.mem_cons, not_or] at h
      have ha : ¬ a = sep := fun e => h.1 e.symm
      have hb : sep ∉ b :: w := by simp [h.2]
      simp [hasDouble, ha, ih hb]

theorem hasDouble_append {sep : Char} {w : Str} {c : Char} {u : Str} (h : sep ∉ w) (hc : c ≠ sep)
    (hu : hasDouble sep (c :: u) = false) : hasDouble sep (w ++ sep :: c :: u) = false := by
  induction w with
  | nil => simp [hasDouble, hc, hu]
  | cons a w ih =>
    simp only [List.mem_cons, not_or] at h
    have ha : ¬ a = sep := fun e => h.1 e.symm
    cases w with
    | nil => simp [hasDouble, ha, hc, hu]
    | cons b w =>
      have := ih h.2
      simp only [List.cons_append, hasDouble] at this ⊢
      simp [ha, this]

theorem hasDouble_join {sep : Char} {p : List Str} (h : Comps sep p) : hasDouble sep (joinWith sep p) = false := by
  induction p with
  | nil => rfl
  | cons w ws ih =>
    cases ws with
    | nil => exact hasDouble_word (h w (by simp)).2
    | cons w' ws =>
      have h' : Comps sep (w' :: ws) := fun x hx => h x (by simp [List.mem_cons.1 hx])
      obtain ⟨c, cs, e, hc⟩ := join_head h' (by simp)
      have := ih h'
      simp only [joinWith]
      rw [e] at this ⊢
      exact hasDouble_append (h w (by simp)).2 hc this

theorem splitDouble_none {sep : Char} {u : Str} (h : hasDouble sep u = false) : splitDouble sep u = [u] := by
  induction u with
  | nil => rfl
  | cons a u ih =>
    cases u with
    | nil => rfl
    | cons b u =>
      simp only [hasDouble, Bool.or_eq_false_iff] at h
      have : ¬ (a = sep ∧ b = sep) := by
        rintro ⟨rfl, rfl⟩; simp at h
      simp [splitDouble, this, ih h.2]

theorem splitDouble_append {sep : Char} {w : Str} (h : hasDouble sep w = false) (hl : w.getLast? ≠ some sep) (u : Str) :
    splitDouble sep (w ++ sep :: sep :: u) = w :: splitDouble sep u := by
  induction w with
  | nil => simp [splitDouble]
  | cons a w ih =>
    cases w with
    | nil =>
      have ha : ¬ a = sep := by simpa using hl
      simp [splitDouble, ha]
    | cons b w =>
      simp only [hasDouble, Bool.or_eq_false_iff] at h
      have hn : ¬ (a = sep ∧ b = sep) := by rintro ⟨rfl, rfl⟩; simp at h
      have := ih h.2 (by simpa [List.getLast?_cons_cons] using hl)
      simp only [List.cons_append] at this ⊢
      simp [splitDouble, hn, this]

theorem replaceDouble_none {sep : Char} {u : Str} (h : hasDouble sep u = false) : replaceDouble sep u = u := by
  induction u with
  | nil => rfl
  | cons a u ih =>
    cases u with
    | nil => rfl
    | cons b u =>
      simp only [hasDouble, Bool.or_eq_false_iff] at h
      have : ¬ (a = sep ∧ b = sep) := by
        rintro ⟨rfl, rfl⟩; simp at h
      simp [replaceDouble, this, ih h.2]

theorem replaceDouble_append {sep : Char} {w : Str} (h : hasDouble sep w = false) (hl : w.getLast? ≠ some sep)
    (u : Str) : replaceDouble sep (w ++ sep :: sep :: u) = w ++ sep :: replaceDouble sep u := by
  induction w with
  | nil => simp [replaceDouble]
  | cons a w ih =>
    cases w with
    | nil =>
      have ha : ¬ a = sep := by simpa using hl
      simp [replaceDouble, ha]
    | cons b w =>
      simp only [hasDouble, Bool.or_eq_false_iff] at h
      have hn : ¬ (a = sep ∧ b = sep) := by rintro ⟨rfl, rfl⟩; simp at h
      have := ih h.2 (by simpa [List.getLast?_cons_cons] using hl)
      simp only [List.cons_append] at this ⊢
      simp [replaceDouble, hn, this]

theorem getLast_join {sep : Char} {p : List Str} (h : Comps sep p) : (joinWith sep p).getLast? ≠ some sep := by
  by_cases hp : p = []
  · subst hp; simp [joinWith]
  · obtain ⟨cs, c, e, hc⟩ := join_last h hp
    rw [e]; simp [hc]

theorem lstrip_join {sep : Char} {p : List Str} (h : Comps sep p) : lstrip sep (joinWith sep p) = joinWith sep p := by
  by_cases hp : p = []
  · subst hp; rfl
  · obtain ⟨c, cs, e, hc⟩ := join_head h hp
    rw [e]; simp [lstrip, hc]

theorem rstrip_of_last {sep : Char} {s : Str} (h : s.getLast? ≠ some sep) : rstrip sep s = s := by
  unfold rstrip
  cases hs : s.reverse with
  | nil => simp only [List.reverse_eq_nil_iff] at hs; subst hs; rfl
  | cons c cs =>
    have : c ≠ sep := by
      rintro rfl
      apply h
      rw [List.getLast?_eq_head?_reverse, hs]; rfl
    rw [List.dropWhile_cons_of_neg (by simpa using this), ← hs, List.reverse_reverse]

theorem rstrip_concat {sep : Char} (s : Str) : rstrip sep (s ++ [sep]) = rstrip sep s := by
  unfold rstrip
  simp

theorem strip_join {sep : Char} {p : List Str} (h : Comps sep p) : strip sep (joinWith sep p) = joinWith sep p := by
  rw [strip, lstrip_join h, rstrip_of_last (getLast_join h)]

/-- The double-separator form. -/
def enc (sep : Char) (m r : List Str) : Str := joinWith sep m ++ [sep, sep] ++ joinWith sep r

theorem unpack_enc {sep : Char} {m r : List Str} (hm : Comps sep m) (hr : Comps sep r) :
    unpack sep (enc sep m r) = .ok (joinWith sep m, joinWith sep r) := by
  have : splitDouble sep (enc sep m r) = [joinWith sep m, joinWith sep r] := by
    unfold enc
    rw [List.append_assoc]
    show splitDouble sep (joinWith sep m ++ sep :: sep :: joinWith sep r) = _
    rw [splitDouble_append (hasDouble_join hm) (getLast_join hm), splitDouble_none (hasDouble_join hr)]
  simp [unpack, this]

/-- Removing the double separator gives the joined path. -/
theorem fin_enc {sep : Char} {m r : List Str} (hm : Comps sep m) (hne : m ≠ []) (hr : Comps sep r) :
    strip sep (replaceDouble sep (enc sep m r)) = joinWith sep (m ++ r) := by
  have e : replaceDouble sep (enc sep m r) = joinWith sep m ++ sep :: joinWith sep r := by
    unfold enc
    rw [List.append_assoc]
    show replaceDouble sep (joinWith sep m ++ sep :: sep :: joinWith sep r) = _
    rw [replaceDouble_append (hasDouble_join hm) (getLast_join hm), replaceDouble_none (hasDouble_join hr)]
  rw [e]
  by_cases hr0 : r = []
  · subst hr0
    simp only [joinWith, List.append_nil]
    obtain ⟨c, cs, ej, hc⟩ := join_head hm hne
    unfold strip
    have : lstrip sep (joinWith sep m ++ [sep]) = joinWith sep m ++ [sep] := by
      rw [ej]; simp [lstrip, hc]
    rw [this, rstrip_concat, rstrip_of_last (getLast_join hm)]
  · rw [← joinWith_append sep m r hne hr0, strip_join (hm.append hr)]

theorem join_inj {sep : Char} {p q : List Str} (hp : Comps sep p) (hq : Comps sep q)
    (h : joinWith sep p = joinWith sep q) : p = q := by
  by_cases hp0 : p = []
  · subst hp0
    by_cases hq0 : q = []
    · exact hq0.symm
    · obtain ⟨c, cs, e, -⟩ := join_head hq hq0
      rw [e] at h; simp [joinWith] at h
  · by_cases hq0 : q = []
    · subst hq0
      obtain ⟨c, cs, e, -⟩ := join_head hp hp0
      rw [e] at h; simp [joinWith] at h
    · rw [← splitOn_joinWith sep p hp0 (fun w hw => (hp w hw).2), h,
        splitOn_joinWith sep q hq0 (fun w hw => (hq w hw).2)]

theorem splitInner {sep : Char} {r : List Str} (h : Comps sep r) :
    (if joinWith sep r = [] then [] else splitOn sep (joinWith sep r)) = r := by
  by_cases hr : r = []
  · subst hr; simp [joinWith]
  · obtain ⟨c, cs, e, -⟩ := join_head h hr
    have : joinWith sep r ≠ [] := by rw [e]; simp
    rw [if_neg this, splitOn_joinWith sep r hr (fun w hw => (h w hw).2)]

/-! ### Reserved words -/

theorem isKey_iff {cfg : Cfg} {k s : Str} (hk : cfg.sep ∉ k) :
    isKey cfg k s = true ↔ (splitOn cfg.sep s).head? = some k := by
  unfold isKey
  rw [Bool.or_eq_true, List.isPrefixOf_iff_prefix, beq_iff_eq]
  constructor
  · rintro (⟨t, rfl⟩ | rfl)
    · rw [List.append_assoc]
      show (splitOn cfg.sep (k ++ cfg.sep :: t)).head? = _
      rw [splitOn_append _ _ hk]; rfl
    · rw [splitOn_noSep _ _ hk]; rfl
  · intro h
    have hj := joinWith_splitOn cfg.sep s
    match hs : splitOn cfg.sep s, h with
    | [w], h =>
      rw [hs] at hj
      simp only [List.head?_cons, Option.some.injEq] at h
      right; rw [← hj, ← h]; rfl
    | w :: w' :: ws, h =>
      rw [hs] at hj
      simp only [List.head?_cons, Option.some.injEq] at h
      subst h
      left
      exact ⟨joinWith cfg.sep (w' :: ws), by rw [← hj]; simp [joinWith]⟩

variable {β : Type}

theorem getPath_early_leaf {tree : Tree β} {m r : List Str} {b : β} (hp : Proper (m ++ r))
    (h : Tree.get tree m = .ok (.leaf b)) :
    Tree.getPath (fun _ => false) true tree (m ++ r) = .ok (.leaf b, r) := by
  induction m generalizing tree with
  | nil =>
    simp only [List.nil_append]
    have : tree = .leaf b := by simpa [Tree.get, Tree.getPath] using h
    subst this
    cases r with
    | nil => rfl
    | cons k ks =>
      have : ¬ (k = [] ∧ ks = []) := fun e => hp k (by simp) e.1
      simp [Tree.getPath, this]
  | cons k ks ih =>
    have hk : k ≠ [] := hp k (by simp)
    rw [Tree.get_cons _ _ _ (fun e => hk e.1)] at h
    rw [List.cons_append, Tree.getPath_cons_child _ _ _ _ _ (fun e => hk e.1) rfl]
    cases hc : Tree.child tree k with
    | error e => rw [hc] at h; simp at h
    | ok c =>
      rw [hc] at h
      exact ih (fun w hw => hp w (by simp at hw ⊢; right; exact hw)) h

theorem leaf_not_prefix {tree : Tree β} {m m' : List Str} {b b' : β} (hp : Proper m')
    (h : Tree.get tree m = .ok (.leaf b)) (h' : Tree.get tree m' = .ok (.leaf b')) (hpre : m <+: m') : m = m' := by
  obtain ⟨r, rfl⟩ := hpre
  cases r with
  | nil => simp
  | cons k ks =>
    exfalso
    have e := getPath_early_leaf (r := k :: ks) hp h
    have e' := getPath_early_leaf (r := []) (by simpa using hp) h'
    simp only [List.append_nil] at e'
    rw [e] at e'
    simp at e'

/-! ### Partition -/

theorem str_of_split {sep : Char} {s : Str} {p : List Str} (h : splitOn sep s = p) : s = joinWith sep p := by
  rw [← h, joinWith_splitOn]

theorem comps_of_split {sep : Char} {s : Str} {p : List Str} (h : splitOn sep s = p) (hp : Proper p) : Comps sep p := by
  subst h; exact comps_splitOn hp

theorem reserved_eq {sep : Char} {k : Str} (hk : sep ∉ k) {s : Str} {r : List Str}
    (h : splitOn sep s = [k] ++ r) (hp : Proper ([k] ++ r)) :
    k ++ [sep, sep] ++ lstrip sep (removePrefix k s) = enc sep [k] r := by
  have hc := comps_of_split h hp
  have hs := str_of_split h
  unfold enc
  simp only [joinWith]
  congr 1
  cases r with
  | nil =>
    simp only [List.append_nil, joinWith] at hs
    subst hs
    simp [removePrefix, lstrip, joinWith]
  | cons w ws =>
    rw [joinWith_append sep [k] (w :: ws) (by simp) (by simp)] at hs
    simp only [joinWith] at hs
    subst hs
    have : removePrefix k (k ++ sep :: joinWith sep (w :: ws)) = sep :: joinWith sep (w :: ws) := by
      simp [removePrefix]
    rw [this]
    show lstrip sep (sep :: _) = _
    rw [← lstrip_join hc.right]
    simp only [lstrip]
    rw [List.dropWhile_cons_of_pos (by simp)]
    rw [← lstrip, ← lstrip, lstrip_join hc.right, lstrip_join hc.right]

theorem removeSuffix_join {sep : Char} {m r : List Str} (hm : m ≠ []) :
    removeSuffix (joinWith sep r) (joinWith sep (m ++ r)) =
      if r = [] then joinWith sep m else joinWith sep m ++ [sep] := by
  by_cases hr : r = []
  · subst hr
    simp [removeSuffix, joinWith]
  · rw [if_neg hr, joinWith_append sep m r hm hr]
    have e : joinWith sep m ++ sep :: joinWith sep r = (joinWith sep m ++ [sep]) ++ joinWith sep r := by simp
    rw [e]
    unfold removeSuffix
    rw [if_pos (by rw [List.isSuffixOf_iff_suffix]; exact List.suffix_append _ _)]
    rw [List.length_append, Nat.add_sub_cancel, List.take_left]

theorem remainder_eq {cfg : Cfg} {tree : Tree β} {s : Str} {m r : List Str} {b : β}
    (h : splitOn cfg.sep s = m ++ r) (hp : Proper (m ++ r)) (hb : Tree.get tree m = .ok (.leaf b)) :
    remainder cfg tree s = .ok (joinWith cfg.sep r) := by
  simp [remainder, h, getPath_early_leaf hp hb]

theorem head_of_split {m r : List Str} (hm : m ≠ []) : (m ++ r).head? = m.head? := by
  cases m with
  | nil => exact absurd rfl hm
  | cons a m => rfl

theorem partKey_eq {cfg : Cfg} (hcfg : GoodCfg cfg) {tree : Tree β} {s : Str} {m r : List Str}
    (h : Source cfg tree s m r) : partKey cfg tree s = .ok (enc cfg.sep m r) := by
  obtain ⟨hs, hp, hm⟩ := h
  unfold partKey
  rcases hm with rfl | ⟨hm0, hin, hout, b, hb⟩
  · rw [if_pos ((isKey_iff hcfg.inSep).2 (by rw [hs]; rfl)), reserved_eq hcfg.inSep hs hp]
  · rw [if_neg (by rw [isKey_iff hcfg.inSep, hs, head_of_split hm0]; exact hin),
      if_neg (by rw [isKey_iff hcfg.outSep, hs, head_of_split hm0]; exact hout), remainder_eq hs hp hb]
    have hc := comps_of_split hs hp
    simp only [enc]
    rw [str_of_split hs, removeSuffix_join hm0]
    split
    · rw [rstrip_of_last (getLast_join hc.left)]
    · rw [rstrip_concat, rstrip_of_last (getLast_join hc.left)]

theorem removeSuffix_sep_self {sep : Char} {s : Str} (h : s.getLast? ≠ some sep) : removeSuffix [sep] s = s := by
  unfold removeSuffix
  rw [if_neg]
  rw [List.isSuffixOf_iff_suffix]
  rintro ⟨t, rfl⟩
  simp at h

theorem removeSuffix_sep_concat {sep : Char} (s : Str) : removeSuffix [sep] (s ++ [sep]) = s := by
  simp [removeSuffix, List.isSuffixOf_iff_suffix]

theorem partVal_eq {cfg : Cfg} (hcfg : GoodCfg cfg) {tree : Tree β} {s : Str} {m r : List Str}
    (h : Target cfg tree s m r) : partVal cfg tree s = .ok (enc cfg.sep m r) := by
  obtain ⟨hs, hp, hm⟩ := h
  unfold partVal
  rcases hm with rfl | ⟨hm0, hin, hout, b, hb⟩
  · rw [if_pos ((isKey_iff hcfg.outSep).2 (by rw [hs]; rfl)), reserved_eq hcfg.outSep hs hp]
  · rw [if_neg (by rw [isKey_iff hcfg.outSep, hs, head_of_split hm0]; exact hout),
      if_neg (by rw [isKey_iff hcfg.inSep, hs, head_of_split hm0]; exact hin), remainder_eq hs hp hb]
    have hc := comps_of_split hs hp
    simp only [enc]
    rw [str_of_split hs, removeSuffix_join hm0]
    split
    · rw [removeSuffix_sep_self (getLast_join hc.left)]
    · rw [removeSuffix_sep_concat]

theorem mapM_ok {α γ ε : Type} (f : α → Except ε γ) (g : α → γ) (l : List α) (h : ∀ a ∈ l, f a = .ok (g a)) :
    l.mapM f = .ok (l.map g) := by
  induction l with
  | nil => rfl
  | cons a l ih =>
    rw [List.mapM_cons, h a (by simp), ih (fun x hx => h x (List.mem_cons_of_mem _ hx))]
    rfl

theorem dictSet_new {γ : Type} {d : List (Str × γ)} {k : Str} {v : γ} (h : k ∉ d.map Prod.fst) :
    dictSet d k v = d ++ [(k, v)] := by
  induction d with
  | nil => rfl
  | cons e d ih =>
    obtain ⟨k', v'⟩ := e
    simp only [List.map_cons, List.mem_cons, not_or] at h
    have : ¬ k' = k := fun e => h.1 e.symm
    simp [dictSet, this, ih h.2]

theorem source_ne {cfg : Cfg} {tree : Tree β} {s : Str} {m r : List Str} (h : Source cfg tree s m r) : m ≠ [] := by
  rcases h.2.2 with rfl | h
  · simp
  · exact h.1

theorem target_ne {cfg : Cfg} {tree : Tree β} {s : Str} {m r : List Str} (h : Target cfg tree s m r) : m ≠ [] := by
  rcases h.2.2 with rfl | h
  · simp
  · exact h.1

theorem fin_source {cfg : Cfg} {tree : Tree β} {s : Str} {m r : List Str} (h : Source cfg tree s m r) :
    strip cfg.sep (replaceDouble cfg.sep (enc cfg.sep m r)) = s := by
  have hc := comps_of_split h.1 h.2.1
  rw [fin_enc hc.left (source_ne h) hc.right, ← str_of_split h.1]

theorem fin_target {cfg : Cfg} {tree : Tree β} {s : Str} {m r : List Str} (h : Target cfg tree s m r) :
    strip cfg.sep (replaceDouble cfg.sep (enc cfg.sep m r)) = s := by
  have hc := comps_of_split h.1 h.2.1
  rw [fin_enc hc.left (target_ne h) hc.right, ← str_of_split h.1]

theorem partLoop_eq {cfg : Cfg} (hcfg : GoodCfg cfg) {tree : Tree β} (f g : Str → List Str × List Str)
    (conn acc : List (Str × List Str))
    (hk : ∀ kv ∈ conn, Source cfg tree kv.1 (f kv.1).1 (f kv.1).2)
    (hv : ∀ kv ∈ conn, ∀ v ∈ kv.2, Target cfg tree v (g v).1 (g v).2)
    (hn : (conn.map Prod.fst).Nodup)
    (hacc : ∀ kv ∈ conn, enc cfg.sep (f kv.1).1 (f kv.1).2 ∉ acc.map Prod.fst) :
    partLoop cfg tree acc conn = .ok (acc ++ conn.map fun kv =>
      (enc cfg.sep (f kv.1).1 (f kv.1).2, kv.2.map fun v => enc cfg.sep (g v).1 (g v).2)) := by
  induction conn generalizing acc with
  | nil => simp [partLoop]
  | cons kv conn ih =>
    obtain ⟨key, vs⟩ := kv
    have h1 := partKey_eq hcfg (hk _ (List.mem_cons_self ..))
    have h2 := mapM_ok (partVal cfg tree) (fun v => enc cfg.sep (g v).1 (g v).2) vs
      (fun v hvm => partVal_eq hcfg (hv _ (List.mem_cons_self ..) v hvm))
    simp only at h1
    simp only [partLoop, h1, h2]
    rw [dictSet_new (hacc _ (List.mem_cons_self ..))]
    simp only [List.map_cons, List.nodup_cons] at hn
    rw [ih _ (fun kv h => hk kv (List.mem_cons_of_mem _ h)) (fun kv h => hv kv (List.mem_cons_of_mem _ h)) hn.2 ?_]
    · simp
    · intro kv hkv
      simp only [List.map_append, List.map_cons, List.map_nil, List.mem_append, List.mem_singleton, not_or]
      refine ⟨hacc kv (List.mem_cons_of_mem _ hkv), ?_⟩
      intro e
      have e1 := fin_source (hk kv (List.mem_cons_of_mem _ hkv))
      have e2 := fin_source (hk (key, vs) (List.mem_cons_self ..))
      rw [e] at e1
      simp only at e1 e2
      rw [e2] at e1
      exact hn.1 (e1 ▸ List.mem_map_of_mem (f := Prod.fst) hkv)

theorem noDouble_of {cfg : Cfg} {s : Str} {p : List Str} (h : splitOn cfg.sep s = p) (hp : Proper p) :
    hasDouble cfg.sep s = false := by
  rw [str_of_split h]; exact hasDouble_join (comps_of_split h hp)

/-- Partitioning well-formed connections. -/
theorem partition_eq {cfg : Cfg} (hcfg : GoodCfg cfg) {tree : Tree β} (f g : Str → List Str × List Str)
    (conn : List (Str × List Str))
    (hk : ∀ kv ∈ conn, Source cfg tree kv.1 (f kv.1).1 (f kv.1).2)
    (hv : ∀ kv ∈ conn, ∀ v ∈ kv.2, Target cfg tree v (g v).1 (g v).2)
    (hn : (conn.map Prod.fst).Nodup) :
    partition cfg tree conn = .ok (conn.map fun kv =>
      (enc cfg.sep (f kv.1).1 (f kv.1).2, kv.2.map fun v => enc cfg.sep (g v).1 (g v).2)) := by
  unfold partition
  rw [if_neg, partLoop_eq hcfg f g conn [] hk hv hn (by simp)]
  · simp
  · simp only [Bool.not_eq_true, List.any_eq_false, Bool.or_eq_true, not_or]
    intro kv hkv
    refine ⟨noDouble_of (hk kv hkv).1 (hk kv hkv).2.1, ?_⟩
    intro v hvm
    exact noDouble_of (hv kv hkv v hvm).1 (hv kv hkv v hvm).2.1

theorem choose_split {P : Str → List Str → List Str → Prop} {Q : Str → Prop} (h : ∀ s, Q s → ∃ m r, P s m r) :
    ∃ f : Str → List Str × List Str, ∀ s, Q s → P s (f s).1 (f s).2 := by
  have : ∀ s, ∃ mr : List Str × List Str, Q s → P s mr.1 mr.2 := by
    intro s
    by_cases hq : Q s
    · obtain ⟨m, r, h⟩ := h s hq
      exact ⟨(m, r), fun _ => h⟩
    · exact ⟨([], []), fun h => absurd h hq⟩
  exact ⟨fun s => Classical.choose (this s), fun s => Classical.choose_spec (this s)⟩

theorem wf_choose {cfg : Cfg} {tree : Tree β} {conn : List (Str × List Str)} (h : WellFormed cfg tree conn) :
    ∃ f g : Str → List Str × List Str, (∀ kv ∈ conn, Source cfg tree kv.1 (f kv.1).1 (f kv.1).2) ∧
      (∀ kv ∈ conn, ∀ v ∈ kv.2, Target cfg tree v (g v).1 (g v).2) := by
  obtain ⟨f, hf⟩ := choose_split (P := Source cfg tree) (Q := fun s => ∃ kv ∈ conn, kv.1 = s)
    (by rintro s ⟨kv, hkv, rfl⟩; exact h.source kv hkv)
  obtain ⟨g, hg⟩ := choose_split (P := Target cfg tree) (Q := fun s => ∃ kv ∈ conn, s ∈ kv.2)
    (by rintro s ⟨kv, hkv, hv⟩; exact h.target kv hkv s hv)
  exact ⟨f, g, fun kv hkv => hf _ ⟨kv, hkv, rfl⟩, fun kv hkv v hv => hg _ ⟨kv, hkv, hv⟩⟩

/-- The module part of a string is unique. -/
theorem target_unique {cfg : Cfg} {tree : Tree β} {s : Str} {m r m' r' : List Str}
    (h : Target cfg tree s m r) (h' : Target cfg tree s m' r') : m = m' ∧ r = r' := by
  have hmm : m = m' := by
    have e : m ++ r = m' ++ r' := h.1.symm.trans h'.1
    rcases h.2.2 with rfl | ⟨hm, -, hout, b, hb⟩
    · rcases h'.2.2 with rfl | ⟨hm', -, hout', b', hb'⟩
      · rfl
      · exfalso; apply hout'
        rw [← head_of_split (r := r') hm', ← e]; rfl
    · rcases h'.2.2 with rfl | ⟨hm', -, hout', b', hb'⟩
      · exfalso; apply hout
        rw [← head_of_split (r := r) hm, e]; rfl
      · have p1 : m <+: m ++ r := List.prefix_append _ _
        have p2 : m' <+: m ++ r := e ▸ List.prefix_append _ _
        have hp' : Proper m' := fun w hw => h'.2.1 w (List.mem_append_left _ hw)
        have hp : Proper m := fun w hw => h.2.1 w (List.mem_append_left _ hw)
        rcases Nat.le_total m.length m'.length with hl | hl
        · exact leaf_not_prefix hp' hb hb' (List.prefix_of_prefix_length_le p1 p2 hl)
        · exact (leaf_not_prefix hp hb' hb (List.prefix_of_prefix_length_le p2 p1 hl)).symm
  subst hmm
  exact ⟨rfl, by simpa using h.1.symm.trans h'.1⟩

theorem source_unique {cfg : Cfg} {tree : Tree β} {s : Str} {m r m' r' : List Str}
    (h : Source cfg tree s m r) (h' : Source cfg tree s m' r') : m = m' ∧ r = r' := by
  have hmm : m = m' := by
    have e : m ++ r = m' ++ r' := h.1.symm.trans h'.1
    rcases h.2.2 with rfl | ⟨hm, hin, -, b, hb⟩
    · rcases h'.2.2 with rfl | ⟨hm', hin', -, b', hb'⟩
      · rfl
      · exfalso; apply hin'
        rw [← head_of_split (r := r') hm', ← e]; rfl
    · rcases h'.2.2 with rfl | ⟨hm', hin', -, b', hb'⟩
      · exfalso; apply hin
        rw [← head_of_split (r := r) hm, e]; rfl
      · have p1 : m <+: m ++ r := List.prefix_append _ _
        have p2 : m' <+: m ++ r := e ▸ List.prefix_append _ _
        have hp' : Proper m' := fun w hw => h'.2.1 w (List.mem_append_left _ hw)
        have hp : Proper m := fun w hw => h.2.1 w (List.mem_append_left _ hw)
        rcases Nat.le_total m.length m'.length with hl | hl
        · exact leaf_not_prefix hp' hb hb' (List.prefix_of_prefix_length_le p1 p2 hl)
        · exact (leaf_not_prefix hp hb' hb (List.prefix_of_prefix_length_le p2 p1 hl)).symm
  subst hmm
  exact ⟨rfl, by simpa using h.1.symm.trans h'.1⟩

end Verif.Conn
