import Verif.Model.Repr
import Verif.Spec.Repr
import Verif.Lemmas.Str
import Mathlib.Tactic.SplitIfs

namespace Verif
namespace Repr
open Tree ReprSpec

/-- The lines of a text, without the spaces in front. -/
def view (s : Str) : List Str := (splitOn '\n' s).map lstrip

theorem split_cat (a b : Str) : splitOn '\n' (a ++ '\n' :: b) = splitOn '\n' a ++ splitOn '\n' b := by
  induction a with
  | nil => simp [splitOn]
  | cons c a ih =>
    rw [List.cons_append, splitOn, splitOn, ih]
    split_ifs with h
    · rfl
    · cases e : splitOn '\n' a with
      | nil => exact absurd e (splitOn_ne_nil _ _)
      | cons w ws => rfl

theorem view_cat (a b : Str) : view (a ++ '\n' :: b) = view a ++ view b := by rw [view, split_cat, List.map_append]; rfl

/-- Only spaces. -/
def Blank (p : Str) : Prop := ∀ c ∈ p, c = ' '

theorem Blank.append {p q : Str} (hp : Blank p) (hq : Blank q) : Blank (p ++ q) := fun c h => (List.mem_append.1 h).elim (hp c) (hq c)

theorem blank_pad (f : Fmt) (n : Nat) : Blank (pad f n) := fun _ h => List.eq_of_mem_replicate h

theorem blank_lead {f : Fmt} (hf : Blank f.base) (n : Nat) : Blank (lead f n) := hf.append (blank_pad f _)

theorem lstrip_blank {p : Str} (hp : Blank p) (s : Str) : lstrip (p ++ s) = lstrip s := by
  induction p with
  | nil => rfl
  | cons c p ih =>
    have hc : c = ' ' := hp c (by simp)
    subst hc
    rw [List.cons_append, lstrip, if_pos rfl, ih fun c h => hp c (List.mem_cons_of_mem _ h)]

theorem lstrip_lstrip (s t : Str) (ht : t.head? ≠ some ' ') : lstrip (s ++ t) = lstrip s ++ t := by
  induction s with
  | nil =>
    cases t with
    | nil => rfl
    | cons c t =>
      have : c ≠ ' ' := fun h => ht (by simp [h])
      simp [lstrip, this]
  | cons c s ih =>
    rw [List.cons_append, lstrip, lstrip]
    split_ifs
    · exact ih
    · rfl

/-- A text of one line in front. -/
theorem split_front {p : Str} (hp : '\n' ∉ p) (s : Str) : ∃ w ws, splitOn '\n' s = w :: ws ∧ splitOn '\n' (p ++ s) = (p ++ w) :: ws := by
  obtain ⟨w, ws, h⟩ : ∃ w ws, splitOn '\n' s = w :: ws := by
    cases h : splitOn '\n' s with
    | nil => exact absurd h (splitOn_ne_nil _ _)
    | cons w ws => exact ⟨w, ws, rfl⟩
  refine ⟨w, ws, h, ?_⟩
  induction p with
  | nil => simpa using h
  | cons c p ih =>
    have hc : c ≠ '\n' := fun e => hp (by simp [e])
    rw [List.cons_append, splitOn, if_neg hc, ih fun e => hp (List.mem_cons_of_mem _ e)]
    rfl

theorem blank_line {p : Str} (hp : Blank p) : '\n' ∉ p := fun h => absurd (hp _ h) (by decide)

theorem view_blank {p : Str} (hp : Blank p) (s : Str) : view (p ++ s) = view s := by
  obtain ⟨w, ws, h1, h2⟩ := split_front (blank_line hp) s
  rw [view, view, h1, h2, List.map_cons, List.map_cons, lstrip_blank hp]

theorem view_indent {f : Fmt} (hf : Blank f.base) (n : Nat) (s : Str) : view (indentAll f n s) = view s := by
  have hl := blank_lead hf n
  rw [view, indentAll, splitOn_joinWith, List.map_map, view]
  · exact List.map_congr_left fun w _ => lstrip_blank hl w
  · simp [splitOn_ne_nil]
  · intro w hw
    obtain ⟨x, hx, rfl⟩ := List.mem_map.1 hw
    intro h
    rcases List.mem_append.1 h with h | h
    · exact blank_line hl h
    · exact splitOn_mem_noSep _ _ _ hx h

theorem view_item {f : Fmt} (hf : Blank f.base) (n : Nat) (s : Str) : view (item f n s) = view s := by
  unfold item
  split_ifs
  · exact view_indent hf n s
  · exact view_blank (blank_lead hf n) s

theorem split_one {s : Str} (h : '\n' ∈ s) : ∃ x y r, splitOn '\n' s = x :: y :: r := by
  obtain ⟨a, b, rfl⟩ := List.append_of_mem h
  rw [split_cat]
  cases h1 : splitOn '\n' a with
  | nil => exact absurd h1 (splitOn_ne_nil _ _)
  | cons x xs =>
    cases xs with
    | nil =>
      cases h2 : splitOn '\n' b with
      | nil => exact absurd h2 (splitOn_ne_nil _ _)
      | cons y ys => exact ⟨x, y, ys, rfl⟩
    | cons y ys => exact ⟨x, y, _, rfl⟩

theorem suffix_cat (c : Str) {l : List Str} (hl : l ≠ []) (x : Str) : suffix c (x :: l) = x :: suffix c l := by
  cases l with
  | nil => exact absurd rfl hl
  | cons y r => rfl

theorem suffix_append (c : Str) (a : List Str) {l : List Str} (hl : l ≠ []) : suffix c (a ++ l) = a ++ suffix c l := by
  induction a with
  | nil => rfl
  | cons x a ih => rw [List.cons_append, suffix_cat c (by simp [hl]), ih]; rfl

/-- A suffix of one line. -/
theorem split_suffix (s : Str) {c : Str} (hc : '\n' ∉ c) : splitOn '\n' (s ++ c) = suffix c (splitOn '\n' s) := by
  induction s with
  | nil => rw [List.nil_append, splitOn_noSep _ _ hc]; rfl
  | cons x s ih =>
    rw [List.cons_append, splitOn, splitOn, ih]
    split_ifs with h
    · rw [suffix_cat _ (splitOn_ne_nil _ _)]
    · cases e : splitOn '\n' s with
      | nil => exact absurd e (splitOn_ne_nil _ _)
      | cons w ws =>
        cases ws with
        | nil => rfl
        | cons v vs => rfl

theorem map_suffix {c : Str} (hc : c.head? ≠ some ' ') (l : List Str) : (suffix c l).map lstrip = suffix c (l.map lstrip) := by
  induction l with
  | nil => rfl
  | cons x l ih =>
    cases l with
    | nil => simp [suffix, lstrip_lstrip _ _ hc]
    | cons y r =>
      show lstrip x :: (suffix c (y :: r)).map lstrip = lstrip x :: suffix c ((y :: r).map lstrip)
      rw [ih]

theorem view_suffix (s : Str) {c : Str} (hc : '\n' ∉ c) (hc' : c.head? ≠ some ' ') : view (s ++ c) = suffix c (view s) := by
  rw [view, split_suffix s hc, map_suffix hc', view]

theorem view_comma (a b : Str) : view (a ++ (",\n".toList ++ b)) = suffix [','] (view a) ++ view b := by
  have : a ++ (",\n".toList ++ b) = (a ++ [',']) ++ '\n' :: b := by simp
  rw [this, view_cat, view_suffix _ (by decide) (by decide)]

theorem view_ne (s : Str) : view s ≠ [] := by simp [view, splitOn_ne_nil]

theorem view_join (l : List Str) (h : l ≠ []) (b : Str) : view (joinComma l ++ (",\n".toList ++ b)) = l.flatMap (fun s => suffix [','] (view s)) ++ view b := by
  induction l with
  | nil => exact absurd rfl h
  | cons x l ih =>
    cases l with
    | nil => rw [joinComma, view_comma]; simp
    | cons y r =>
      have := ih (by simp)
      rw [joinComma, List.append_assoc, List.append_assoc, view_comma, this, List.flatMap_cons (x := x), List.append_assoc]

theorem lstrip_line {k : Str} (hk : '\n' ∉ k) : '\n' ∉ lstrip k := by
  induction k with
  | nil => exact hk
  | cons c k ih =>
    rw [lstrip]
    split_ifs
    · exact ih fun h => hk (List.mem_cons_of_mem _ h)
    · exact hk

theorem view_one {s : Str} (h : '\n' ∉ s) : view s = [lstrip s] := by rw [view, splitOn_noSep _ _ h]; rfl

theorem keyed_many (k : Str) {x y : Str} {r : List Str} : keyed k (x :: y :: r) = (k ++ ":".toList) :: x :: y :: r := rfl

theorem suffix_nil (l : List Str) : suffix [] l = l := by
  induction l with
  | nil => rfl
  | cons x l ih =>
    cases l with
    | nil => simp [suffix]
    | cons y r => rw [suffix_cat _ (by simp), ih]

/-- The lines of a leaf as printed. -/
def shown (f : Fmt) (s : Str) : List Str := splitOn '\n' (truncate f.maxChars s)

theorem lines_suffix (sh : Str → List Str) (c : Str) (t : Tree Str) : lines sh c t = suffix c (lines sh [] t) := by
  cases t with
  | leaf s => simp only [lines, suffix_nil]
  | none => simp only [lines, suffix_nil]
  | _ =>
    simp only [lines]
    split_ifs
    · simp [suffix]
    · rw [suffix_cat _ (by simp), suffix_append _ _ (by simp)]; rfl

theorem view_container {f : Fmt} (hf : Blank f.base) (n : Nat) {o c : Char} (ho : o ≠ ' ' ∧ o ≠ '\n') (hc : c ≠ ' ' ∧ c ≠ '\n') {items : List Str} (h : items ≠ []) :
    view (container f n o c items) = [o] :: (items.flatMap (fun s => suffix [','] (view s)) ++ [[c]]) := by
  have hone : ∀ {x : Char}, x ≠ ' ' ∧ x ≠ '\n' → view [x] = [[x]] := fun {x} hx => by
    rw [view_one (by simpa using fun h => hx.2 h.symm)]
    simp [lstrip, hx.1]
  unfold container
  rw [show ∀ r : Str, o :: '\n' :: r = [o] ++ '\n' :: r from fun _ => rfl, view_cat, view_join _ h, view_blank hf, view_blank (blank_pad f n), hone ho, hone hc]
  rfl

/-- The first line is printed as it is. -/
theorem head_fmt (f : Fmt) (n : Nat) (t : Tree Str) : (splitOn '\n' (fmt f (n + 1) t)).head? = (lines (shown f) [] t).head? := by
  have hc : ∀ (o c : Char) (l : List Str), o ≠ '\n' → (splitOn '\n' (container f (n + 1) o c l)).head? = some [o] := by
    intro o c l ho
    unfold container
    rw [show ∀ r : Str, o :: '\n' :: r = [o] ++ '\n' :: r from fun _ => rfl, split_cat, splitOn_noSep _ _ (by simpa using fun h => ho h.symm)]
    rfl
  cases t with
  | leaf s => simp only [fmt, top, lines, suffix_nil, shown, Nat.add_one_ne_zero, if_false]
  | none => simp only [fmt, top, lines, suffix_nil, shown, Nat.add_one_ne_zero, if_false]
  | dict kvs =>
    simp only [fmt, top, lines, Nat.add_one_ne_zero, if_false]
    split_ifs
    · rfl
    · rw [hc _ _ _ (by decide)]; rfl
  | list ts =>
    simp only [fmt, top, lines, Nat.add_one_ne_zero, if_false]
    split_ifs
    · rfl
    · rw [hc _ _ _ (by decide)]; rfl
  | tuple ts =>
    simp only [fmt, top, lines, Nat.add_one_ne_zero, if_false]
    split_ifs
    · rfl
    · rw [hc _ _ _ (by decide)]; rfl

theorem view_top {f : Fmt} (hf : Blank f.base) (n : Nat) (s : Str) : view (top f n s) = view s := by
  unfold top
  split_ifs
  · exact view_blank hf s
  · rfl

theorem view_entry {f : Fmt} (hf : Blank f.base) (n : Nat) {k : Str} (hk : '\n' ∉ k) {s : Str} {l : List Str} (h1 : view s = l.map lstrip) (h2 : (splitOn '\n' s).head? = l.head?) :
    suffix [','] (view (entry f n k s)) = (keyed k (suffix [','] l)).map lstrip := by
  have hl := blank_lead hf n
  unfold entry
  split_ifs with h
  · obtain ⟨x, y, r, e⟩ := split_one h
    have e' : lead f n ++ k ++ ":\n".toList ++ indentAll f n s = (lead f n ++ (k ++ [':'])) ++ '\n' :: indentAll f n s := by simp
    rw [e', view_cat, view_indent hf, view_blank hl, view_one (by simpa using hk), List.singleton_append, suffix_cat _ (view_ne s), h1, ← map_suffix (by decide)]
    have hlen : l.length = (splitOn '\n' s).length := by
      have := congrArg List.length h1
      simpa [view] using this.symm
    match l, hlen with
    | [], hlen => simp [e] at hlen
    | [_], hlen => simp [e] at hlen
    | x' :: y' :: r', _ =>
      rw [suffix_cat _ (by simp)]
      cases r' <;> rfl
  · rw [splitOn_noSep _ _ h] at h2
    have hs : l = [s] := by
      have := congrArg List.length h1
      rw [view_one h] at this
      match l, this, h2 with
      | [x], _, h2 => simp at h2; rw [h2]
    subst hs
    have e' : lead f n ++ k ++ ": ".toList ++ s = lead f n ++ (k ++ ": ".toList ++ s) := by simp
    rw [e', view_blank hl, view_one (by simp [hk, h])]
    show [lstrip _ ++ [',']] = [lstrip (k ++ ": ".toList ++ (s ++ [',']))]
    rw [← List.append_assoc, lstrip_lstrip _ [','] (by decide)]

mutual
theorem view_fmt {f : Fmt} (hf : Blank f.base) (n : Nat) : ∀ t, KeysOneLine t → view (fmt f n t) = (lines (shown f) [] t).map lstrip
  | .leaf s, _ => by rw [fmt, view_top hf, lines, suffix_nil]; rfl
  | .none, _ => by rw [fmt, view_top hf, lines, suffix_nil]; rfl
  | .dict kvs, h => by
    rw [fmt, view_top hf, lines]
    cases kvs with
    | nil => rfl
    | cons kv kvs =>
      simp only [List.isEmpty_cons, Bool.false_eq_true, if_false]
      obtain ⟨k, t⟩ := kv
      rw [view_container hf n (by decide) (by decide) (by simp [fmtD]), view_fmtD hf n _ h]
      simp [lstrip]
  | .list ts, h => by
    rw [fmt, view_top hf, lines]
    cases ts with
    | nil => rfl
    | cons t ts =>
      simp only [List.isEmpty_cons, Bool.false_eq_true, if_false]
      rw [view_container hf n (by decide) (by decide) (by simp [fmtL]), view_fmtL hf n _ h]
      simp [lstrip]
  | .tuple ts, h => by
    rw [fmt, view_top hf, lines]
    cases ts with
    | nil => rfl
    | cons t ts =>
      simp only [List.isEmpty_cons, Bool.false_eq_true, if_false]
      rw [view_container hf n (by decide) (by decide) (by simp [fmtL]), view_fmtL hf n _ h]
      simp [lstrip]
theorem view_fmtL {f : Fmt} (hf : Blank f.base) (n : Nat) : ∀ ts, KeysOneLineL ts → (fmtL f n ts).flatMap (fun s => suffix [','] (view s)) = (linesL (shown f) ts).map lstrip
  | [], _ => rfl
  | t :: ts, h => by
    rw [fmtL, List.flatMap_cons, linesL, List.map_append, view_item hf, view_fmt hf (n + 1) t h.1, view_fmtL hf n ts h.2, lines_suffix _ [','], map_suffix (by decide)]
theorem view_fmtD {f : Fmt} (hf : Blank f.base) (n : Nat) : ∀ kvs, KeysOneLineD kvs → (fmtD f n kvs).flatMap (fun s => suffix [','] (view s)) = (linesD (shown f) kvs).map lstrip
  | [], _ => rfl
  | (k, t) :: kvs, h => by
    rw [fmtD, List.flatMap_cons, linesD, List.map_append, view_entry hf n h.1 (view_fmt hf (n + 1) t h.2.1) (head_fmt f n t), view_fmtD hf n kvs h.2.2, lines_suffix _ [',']]
end

/-- A leaf on one line. -/
def one (s : Str) : List Str := [s]

/-- The first character of the first line. -/
def first (l : List Str) : Option Char := l.head?.bind List.head?

/-- The first character of what is printed for a tree. -/
def opening : Tree Str → Option Char
  | .leaf s => s.head?
  | .none => some 'N'
  | .dict _ => some '{'
  | .list _ => some '['
  | .tuple _ => some '('

theorem first_lines (c : Str) (t : Tree Str) (h : Plain t) : first (lines one c t) = opening t := by
  cases t with
  | leaf s =>
    obtain ⟨x, xs, rfl⟩ := List.exists_cons_of_ne_nil (show PlainLeaf s from h).1
    rfl
  | none => rfl
  | _ =>
    rw [lines]
    split_ifs <;> rfl

theorem lines_ne (c : Str) (t : Tree Str) : lines one c t ≠ [] := by
  cases t with
  | leaf s => exact nofun
  | none => exact nofun
  | _ =>
    rw [lines]
    split_ifs <;> exact nofun

theorem first_append {l : List Str} (h : l ≠ []) (r : List Str) : first (l ++ r) = first l := by
  cases l with
  | nil => exact absurd rfl h
  | cons x l => rfl

theorem opening_not {t : Tree Str} (h : Plain t) {c : Char} (hc : c = ']' ∨ c = ')') : opening t ≠ some c := by
  cases t with
  | leaf s =>
    intro e
    have := (show PlainLeaf s from h).2.2.2 c e
    rcases hc with rfl | rfl <;> exact this (by decide)
  | _ => rcases hc with rfl | rfl <;> exact fun e => absurd (Option.some.inj e) (by decide)

theorem colon_inj {q : Char} {k k' a a' : Str} (hk : q ∉ k) (hk' : q ∉ k') (h : k ++ q :: a = k' ++ q :: a') : k = k' ∧ a = a' := by
  induction k generalizing k' with
  | nil =>
    cases k' with
    | nil => exact ⟨rfl, (List.cons.inj h).2⟩
    | cons x k' => exact absurd (List.cons.inj h).1.symm fun e => hk' (by simp [e])
  | cons x k ih =>
    cases k' with
    | nil => exact absurd (List.cons.inj h).1 fun e => hk (by simp [e])
    | cons y k' =>
      obtain ⟨rfl, h'⟩ := List.cons.inj h
      obtain ⟨rfl, rfl⟩ := ih (fun e => hk (List.mem_cons_of_mem _ e)) (fun e => hk' (List.mem_cons_of_mem _ e)) h'
      exact ⟨rfl, rfl⟩

theorem keyed_form (k : Str) {l : List Str} (hl : l ≠ []) : (∃ x, l = [x] ∧ keyed k l = [k ++ ':' :: ' ' :: x]) ∨ (∃ x y r, l = x :: y :: r ∧ keyed k l = (k ++ [':']) :: l) := by
  match l with
  | [] => exact absurd rfl hl
  | [x] => exact .inl ⟨x, rfl, by simp [keyed]⟩
  | x :: y :: r => exact .inr ⟨x, y, r, rfl, rfl⟩

theorem keyed_ne (k : Str) (l : List Str) : keyed k l ≠ [] := by
  match l with
  | [] => exact nofun
  | [_] => exact nofun
  | _ :: _ :: _ => exact nofun

theorem keyed_inj {k k' : Str} (hk : ':' ∉ k) (hk' : ':' ∉ k') {l l' r r' : List Str} (hl : l ≠ []) (hl' : l' ≠ []) (h : keyed k l ++ r = keyed k' l' ++ r') :
    k = k' ∧ l ++ r = l' ++ r' := by
  rcases keyed_form k hl with ⟨x, e1, e2⟩ | ⟨x, y, z, e1, e2⟩ <;> rcases keyed_form k' hl' with ⟨x', e1', e2'⟩ | ⟨x', y', z', e1', e2'⟩ <;> rw [e2, e2'] at h
  · obtain ⟨h1, h2⟩ := List.cons.inj h
    obtain ⟨rfl, h3⟩ := colon_inj hk hk' h1
    obtain ⟨-, rfl⟩ := List.cons.inj h3
    exact ⟨rfl, by rw [e1, e1', List.singleton_append, List.singleton_append]; exact congrArg _ h2⟩
  · obtain ⟨h1, -⟩ := List.cons.inj h
    obtain ⟨-, h3⟩ := colon_inj hk hk' h1
    cases h3
  · obtain ⟨h1, -⟩ := List.cons.inj h
    obtain ⟨-, h3⟩ := colon_inj hk hk' h1
    cases h3
  · obtain ⟨h1, h2⟩ := List.cons.inj h
    obtain ⟨rfl, -⟩ := colon_inj hk hk' h1
    exact ⟨rfl, h2⟩

theorem first_keyed (k : Str) {l : List Str} (hl : l ≠ []) (hk : PlainKey k) : first (keyed k l) ≠ some '}' ∧ first (keyed k l) ≠ some ' ' := by
  have : ∀ a : Str, (k ++ ':' :: a).head? ≠ some '}' ∧ (k ++ ':' :: a).head? ≠ some ' ' := by
    intro a
    cases k with
    | nil => exact ⟨by simp, by simp⟩
    | cons x k =>
      have := hk.2.2 x rfl
      constructor <;> intro e <;> obtain rfl : x = _ := Option.some.inj e
      · exact this (by decide)
      · exact this (by decide)
  rcases keyed_form k hl with ⟨x, e1, e2⟩ | ⟨x, y, z, e1, e2⟩ <;> rw [e2]
  · exact this _
  · exact this _

theorem bracket_cases {Q : Prop} {E F : List Str} {o : Char} {c : Str} {a b : Bool} {q : Char} {r r' : List Str} (hQ : a = true → b = true → Q)
    (ha : E ++ (q :: c) :: r = F ++ (q :: c) :: r' → Q ∧ r = r')
    (h : (if a then [[o, q] ++ c] else [o] :: (E ++ [q :: c])) ++ r = (if b then [[o, q] ++ c] else [o] :: (F ++ [q :: c])) ++ r') : Q ∧ r = r' := by
  cases a <;> cases b
  · have h2 : (E ++ [q :: c]) ++ r = (F ++ [q :: c]) ++ r' := (List.cons.inj h).2
    rw [List.append_assoc, List.append_assoc] at h2
    exact ha h2
  · have := (List.cons.inj h).1
    cases this
  · have := (List.cons.inj h).1
    cases this
  · exact ⟨hQ rfl rfl, (List.cons.inj h).2⟩

theorem empty_both {α : Type} {l l' : List α} (h : l.isEmpty = true) (h' : l'.isEmpty = true) : l = l' := by
  rw [List.isEmpty_iff.1 h, List.isEmpty_iff.1 h']

mutual
theorem lines_inj : ∀ t, Plain t → ∀ t', Plain t' → ∀ c r r', lines one c t ++ r = lines one c t' ++ r' → t = t' ∧ r = r'
  | .leaf s, h, t', h', c, r, r', e => by
    have hop : opening (.leaf s) = opening t' := by
      rw [← first_lines c _ h, ← first_lines c t' h', ← first_append (lines_ne c _) r, e, first_append (lines_ne c t')]
    have hs := (show PlainLeaf s from h).2.2.2
    cases t' with
    | leaf s' =>
      obtain ⟨h1, h2⟩ := List.cons.inj e
      exact ⟨congrArg _ (List.append_cancel_right h1), h2⟩
    | none =>
      obtain ⟨h1, h2⟩ := List.cons.inj e
      exact absurd (List.append_cancel_right h1) (show PlainLeaf s from h).2.2.1
    | list => exact absurd (hs _ hop) (by decide)
    | tuple => exact absurd (hs _ hop) (by decide)
    | dict => exact absurd (hs _ hop) (by decide)
  | .none, h, t', h', c, r, r', e => by
    have hop : opening .none = opening t' := by
      rw [← first_lines c _ h, ← first_lines c t' h', ← first_append (lines_ne c _) r, e, first_append (lines_ne c t')]
    cases t' with
    | leaf s =>
      obtain ⟨h1, h2⟩ := List.cons.inj e
      exact absurd (List.append_cancel_right h1).symm (show PlainLeaf s from h').2.2.1
    | none => exact ⟨rfl, (List.cons.inj e).2⟩
    | list => exact absurd (Option.some.inj hop) (by decide)
    | tuple => exact absurd (Option.some.inj hop) (by decide)
    | dict => exact absurd (Option.some.inj hop) (by decide)
  | .list ts, h, t', h', c, r, r', e => by
    have hop : opening (.list ts) = opening t' := by
      rw [← first_lines c _ h, ← first_lines c t' h', ← first_append (lines_ne c _) r, e, first_append (lines_ne c t')]
    cases t' with
    | leaf s => exact absurd ((show PlainLeaf s from h').2.2.2 _ hop.symm) (by decide)
    | none => exact absurd (Option.some.inj hop) (by decide)
    | list ts' =>
      rw [lines, lines] at e
      obtain ⟨h1, h2⟩ := bracket_cases (Q := ts = ts') empty_both (linesL_inj ts h ts' h' ']' c r r' (.inl rfl)) e
      exact ⟨congrArg _ h1, h2⟩
    | tuple => exact absurd (Option.some.inj hop) (by decide)
    | dict => exact absurd (Option.some.inj hop) (by decide)
  | .tuple ts, h, t', h', c, r, r', e => by
    have hop : opening (.tuple ts) = opening t' := by
      rw [← first_lines c _ h, ← first_lines c t' h', ← first_append (lines_ne c _) r, e, first_append (lines_ne c t')]
    cases t' with
    | leaf s => exact absurd ((show PlainLeaf s from h').2.2.2 _ hop.symm) (by decide)
    | none => exact absurd (Option.some.inj hop) (by decide)
    | list => exact absurd (Option.some.inj hop) (by decide)
    | tuple ts' =>
      rw [lines, lines] at e
      obtain ⟨h1, h2⟩ := bracket_cases (Q := ts = ts') empty_both (linesL_inj ts h ts' h' ')' c r r' (.inr rfl)) e
      exact ⟨congrArg _ h1, h2⟩
    | dict => exact absurd (Option.some.inj hop) (by decide)
  | .dict kvs, h, t', h', c, r, r', e => by
    have hop : opening (.dict kvs) = opening t' := by
      rw [← first_lines c _ h, ← first_lines c t' h', ← first_append (lines_ne c _) r, e, first_append (lines_ne c t')]
    cases t' with
    | leaf s => exact absurd ((show PlainLeaf s from h').2.2.2 _ hop.symm) (by decide)
    | none => exact absurd (Option.some.inj hop) (by decide)
    | list => exact absurd (Option.some.inj hop) (by decide)
    | tuple => exact absurd (Option.some.inj hop) (by decide)
    | dict kvs' =>
      rw [lines, lines] at e
      obtain ⟨h1, h2⟩ := bracket_cases (Q := kvs = kvs') empty_both (linesD_inj kvs h kvs' h' c r r') e
      exact ⟨congrArg _ h1, h2⟩
theorem linesL_inj : ∀ ts, PlainL ts → ∀ ts', PlainL ts' → ∀ (q : Char) (c : Str) (r r' : List Str), (q = ']' ∨ q = ')') →
    linesL one ts ++ (q :: c) :: r = linesL one ts' ++ (q :: c) :: r' → ts = ts' ∧ r = r'
  | [], _, [], _, q, c, r, r', _, e => ⟨rfl, (List.cons.inj e).2⟩
  | [], _, t' :: ts', h', q, c, r, r', hq, e => by
    rw [linesL, linesL, List.append_assoc] at e
    have := congrArg first e
    rw [first_append (lines_ne _ _), first_lines _ _ h'.1] at this
    exact absurd this.symm (opening_not h'.1 hq)
  | t :: ts, h, [], _, q, c, r, r', hq, e => by
    rw [linesL, linesL, List.append_assoc] at e
    have := congrArg first e
    rw [first_append (lines_ne _ _), first_lines _ _ h.1] at this
    exact absurd this (opening_not h.1 hq)
  | t :: ts, h, t' :: ts', h', q, c, r, r', hq, e => by
    rw [linesL, linesL, List.append_assoc, List.append_assoc] at e
    obtain ⟨h1, h2⟩ := lines_inj t h.1 t' h'.1 _ _ _ e
    obtain ⟨h3, h4⟩ := linesL_inj ts h.2 ts' h'.2 q c r r' hq h2
    exact ⟨by rw [h1, h3], h4⟩
theorem linesD_inj : ∀ kvs, PlainD kvs → ∀ kvs', PlainD kvs' → ∀ (c : Str) (r r' : List Str),
    linesD one kvs ++ ('}' :: c) :: r = linesD one kvs' ++ ('}' :: c) :: r' → kvs = kvs' ∧ r = r'
  | [], _, [], _, c, r, r', e => ⟨rfl, (List.cons.inj e).2⟩
  | [], _, (k', t') :: ts', h', c, r, r', e => by
    rw [linesD, linesD, List.append_assoc] at e
    have := congrArg first e
    rw [first_append (keyed_ne _ _)] at this
    exact absurd this.symm (first_keyed _ (lines_ne _ _) h'.1).1
  | (k, t) :: ts, h, [], _, c, r, r', e => by
    rw [linesD, linesD, List.append_assoc] at e
    have := congrArg first e
    rw [first_append (keyed_ne _ _)] at this
    exact absurd this (first_keyed _ (lines_ne _ _) h.1).1
  | (k, t) :: ts, h, (k', t') :: ts', h', c, r, r', e => by
    rw [linesD, linesD, List.append_assoc, List.append_assoc] at e
    obtain ⟨h0, e⟩ := keyed_inj h.1.2.1 h'.1.2.1 (lines_ne _ _) (lines_ne _ _) e
    obtain ⟨h1, h2⟩ := lines_inj t h.2.1 t' h'.2.1 _ _ _ e
    obtain ⟨h3, h4⟩ := linesD_inj ts h.2.2 ts' h'.2.2 c r r' h2
    exact ⟨by rw [h0, h1, h3], h4⟩
end

/-- A line that does not begin with a space. -/
def Flush (x : Str) : Prop := x.head? ≠ some ' '

theorem lstrip_flush {x : Str} (h : Flush x) : lstrip x = x := by
  cases x with
  | nil => rfl
  | cons c x => rw [lstrip, if_neg fun e => h (by simp [e])]

mutual
theorem flush_lines : ∀ t, Plain t → ∀ c, Flush c → ∀ x ∈ lines one c t, Flush x
  | .leaf s, h, c, hc, x, hx => by
    obtain rfl : x = s ++ c := by simpa [lines, suffix, one] using hx
    obtain ⟨h1, -, -, h2⟩ := (show PlainLeaf s from h)
    obtain ⟨a, s, rfl⟩ := List.exists_cons_of_ne_nil h1
    intro e
    obtain rfl : a = ' ' := Option.some.inj e
    exact h2 _ rfl (by decide)
  | .none, h, c, hc, x, hx => by
    obtain rfl : x = "None".toList ++ c := by simpa [lines, suffix, one] using hx
    exact fun e => absurd (Option.some.inj e) (by decide)
  | .list ts, h, c, hc, x, hx => by
    rw [lines] at hx
    split_ifs at hx
    · obtain rfl := List.mem_singleton.1 hx
      exact fun e => absurd (Option.some.inj e) (by decide)
    · rcases List.mem_cons.1 hx with rfl | hx
      · exact fun e => absurd (Option.some.inj e) (by decide)
      · rcases List.mem_append.1 hx with hx | hx
        · exact flush_linesL ts h x hx
        · obtain rfl := List.mem_singleton.1 hx
          exact fun e => absurd (Option.some.inj e) (by decide)
  | .tuple ts, h, c, hc, x, hx => by
    rw [lines] at hx
    split_ifs at hx
    · obtain rfl := List.mem_singleton.1 hx
      exact fun e => absurd (Option.some.inj e) (by decide)
    · rcases List.mem_cons.1 hx with rfl | hx
      · exact fun e => absurd (Option.some.inj e) (by decide)
      · rcases List.mem_append.1 hx with hx | hx
        · exact flush_linesL ts h x hx
        · obtain rfl := List.mem_singleton.1 hx
          exact fun e => absurd (Option.some.inj e) (by decide)
  | .dict kvs, h, c, hc, x, hx => by
    rw [lines] at hx
    split_ifs at hx
    · obtain rfl := List.mem_singleton.1 hx
      exact fun e => absurd (Option.some.inj e) (by decide)
    · rcases List.mem_cons.1 hx with rfl | hx
      · exact fun e => absurd (Option.some.inj e) (by decide)
      · rcases List.mem_append.1 hx with hx | hx
        · exact flush_linesD kvs h x hx
        · obtain rfl := List.mem_singleton.1 hx
          exact fun e => absurd (Option.some.inj e) (by decide)
theorem flush_linesL : ∀ ts, PlainL ts → ∀ x ∈ linesL one ts, Flush x
  | [], _, x, hx => by cases hx
  | t :: ts, h, x, hx => by
    rw [linesL] at hx
    rcases List.mem_append.1 hx with hx | hx
    · exact flush_lines t h.1 _ (by unfold Flush; decide) x hx
    · exact flush_linesL ts h.2 x hx
theorem flush_linesD : ∀ kvs, PlainD kvs → ∀ x ∈ linesD one kvs, Flush x
  | [], _, x, hx => by cases hx
  | (k, t) :: ts, h, x, hx => by
    rw [linesD] at hx
    rcases List.mem_append.1 hx with hx | hx
    · have hk := (first_keyed k (lines_ne [','] t) h.1).2
      rcases keyed_form k (lines_ne [','] t) with ⟨y, e1, e2⟩ | ⟨y, z, r, e1, e2⟩ <;> rw [e2] at hx hk
      · obtain rfl := List.mem_singleton.1 hx
        exact hk
      · rcases List.mem_cons.1 hx with rfl | hx
        · exact hk
        · exact flush_lines t h.2.1 _ (by unfold Flush; decide) x hx
    · exact flush_linesD ts h.2.2 x hx
end

mutual
theorem keysOneLine_of_plain : ∀ t, Plain t → KeysOneLine t
  | .leaf _, _ => trivial
  | .none, _ => trivial
  | .list ts, h => keysOneLineL_of_plain ts h
  | .tuple ts, h => keysOneLineL_of_plain ts h
  | .dict kvs, h => keysOneLineD_of_plain kvs h
theorem keysOneLineL_of_plain : ∀ ts, PlainL ts → KeysOneLineL ts
  | [], _ => trivial
  | t :: ts, h => ⟨keysOneLine_of_plain t h.1, keysOneLineL_of_plain ts h.2⟩
theorem keysOneLineD_of_plain : ∀ kvs, PlainD kvs → KeysOneLineD kvs
  | [], _ => trivial
  | (_, t) :: kvs, h => ⟨h.1.1, keysOneLine_of_plain t h.2.1, keysOneLineD_of_plain kvs h.2.2⟩
end

mutual
/-- The lines depend only on how the leaves are shown. -/
theorem lines_congr {sh : Str → List Str} (hN : sh "None".toList = one "None".toList) (hsh : ∀ s, '\n' ∉ s → sh s = one s) : ∀ t, Plain t → ∀ c, lines sh c t = lines one c t
  | .leaf s, h, c => by rw [lines, lines, hsh s (show PlainLeaf s from h).2.1]
  | .none, _, c => by rw [lines, lines, hN]
  | .list ts, h, c => by rw [lines, lines, linesL_congr hN hsh ts h]
  | .tuple ts, h, c => by rw [lines, lines, linesL_congr hN hsh ts h]
  | .dict kvs, h, c => by rw [lines, lines, linesD_congr hN hsh kvs h]
theorem linesL_congr {sh : Str → List Str} (hN : sh "None".toList = one "None".toList) (hsh : ∀ s, '\n' ∉ s → sh s = one s) : ∀ ts, PlainL ts → linesL sh ts = linesL one ts
  | [], _ => rfl
  | t :: ts, h => by rw [linesL, linesL, lines_congr hN hsh t h.1, linesL_congr hN hsh ts h.2]
theorem linesD_congr {sh : Str → List Str} (hN : sh "None".toList = one "None".toList) (hsh : ∀ s, '\n' ∉ s → sh s = one s) : ∀ kvs, PlainD kvs → linesD sh kvs = linesD one kvs
  | [], _ => rfl
  | (_, t) :: kvs, h => by rw [linesD, linesD, lines_congr hN hsh t h.2.1, linesD_congr hN hsh kvs h.2.2]
end

end Repr
end Verif
