import Verif.Spec.Names
import Verif.Lemmas.Concretize

/-!
# Lemmas on names of modules
-/

namespace Verif
namespace Names
open NamesSpec Concretize

theorem cut (p : Char → Bool) {s s' r r' : Str} {c c' : Char} (hs : ∀ x ∈ s, p x = false) (hs' : ∀ x ∈ s', p x = false) (hc : p c = true) (hc' : p c' = true)
    (h : s ++ c :: r = s' ++ c' :: r') : s = s' ∧ c = c' ∧ r = r' := by
  induction s generalizing s' with
  | nil =>
    cases s' with
    | nil => exact ⟨rfl, (List.cons.inj h).1, (List.cons.inj h).2⟩
    | cons y s' =>
      have : c = y := (List.cons.inj h).1
      rw [this, hs' y (List.mem_cons_self ..)] at hc
      cases hc
  | cons x s ih =>
    cases s' with
    | nil =>
      have : x = c' := (List.cons.inj h).1
      rw [← this, hs x (List.mem_cons_self ..)] at hc'
      cases hc'
    | cons y s' =>
      obtain ⟨h1, h2⟩ := List.cons.inj h
      obtain ⟨h3, h4⟩ := ih (s' := s') (fun z hz => hs z (List.mem_cons_of_mem _ hz)) (fun z hz => hs' z (List.mem_cons_of_mem _ hz)) h2
      exact ⟨by rw [h1, h3], h4⟩

/-- Everything in front of the first `c`. -/
theorem cutAt (c : Char) {s s' r r' : Str} (hs : c ∉ s) (hs' : c ∉ s') (h : s ++ c :: r = s' ++ c :: r') : s = s' ∧ r = r' := by
  obtain ⟨h1, _, h3⟩ := cut (· == c) (fun x hx => by simp; rintro rfl; exact hs hx) (fun x hx => by simp; rintro rfl; exact hs' hx) (by simp) (by simp) h
  exact ⟨h1, h3⟩

theorem digit_notMem {n : Nat} {c : Char} (hc : c.isDigit = false) : c ∉ ofNat n := by
  intro h
  have := Nat.isDigit_of_mem_toDigits (by omega) (by omega) h
  rw [hc] at this
  cases this

theorem ofNat_cut {m n : Nat} {c : Char} {r r' : Str} (hc : c.isDigit = false) (h : ofNat m ++ c :: r = ofNat n ++ c :: r') : m = n ∧ r = r' := by
  obtain ⟨h1, h2⟩ := cutAt c (digit_notMem hc) (digit_notMem hc) h
  exact ⟨ofNat_inj h1, h2⟩

theorem ofNat_head (n : Nat) : ∃ c r, ofNat n = c :: r ∧ c.isDigit = true := by
  cases h : ofNat n with
  | nil =>
    have : ofNat n ≠ [] := by
      unfold ofNat
      intro h
      have := Nat.length_toDigits_pos (b := 10) (n := n)
      rw [h] at this
      simp at this
    exact absurd h this
  | cons c r => exact ⟨c, r, rfl, Nat.isDigit_of_mem_toDigits (b := 10) (n := n) (by omega) (by omega) (by unfold ofNat at h; rw [h]; exact List.mem_cons_self ..)⟩

theorem optStr_notMem {o : Option Nat} {c : Char} (hc : c.isDigit = false) (hn : c ∉ "None".toList) : c ∉ optStr o := by
  cases o with
  | none => exact hn
  | some n => exact digit_notMem hc

theorem optStr_inj {a b : Option Nat} (h : optStr a = optStr b) : a = b := by
  have hN : ∀ n, ofNat n ≠ "None".toList := by
    intro n hn
    obtain ⟨c, r, h1, h2⟩ := ofNat_head n
    rw [h1] at hn
    obtain rfl : c = 'N' := (List.cons.inj hn).1
    revert h2
    decide
  cases a with
  | none => cases b with
    | none => rfl
    | some n => exact absurd h.symm (hN n)
  | some m => cases b with
    | none => exact absurd h (hN m)
    | some n => rw [ofNat_inj h]

theorem optStr_cut {a b : Option Nat} {c : Char} {r r' : Str} (hc : c.isDigit = false) (hn : c ∉ "None".toList) (h : optStr a ++ c :: r = optStr b ++ c :: r') : a = b ∧ r = r' := by
  obtain ⟨h1, h2⟩ := cutAt c (optStr_notMem hc hn) (optStr_notMem hc hn) h
  exact ⟨optStr_inj h1, h2⟩

theorem intStr_inj {a b : Int} (h : intStr a = intStr b) : a = b := by
  have hne : ∀ m n, ofNat m ≠ '-' :: ofNat n := by
    intro m n hmn
    obtain ⟨c, r, h1, h2⟩ := ofNat_head m
    rw [h1] at hmn
    obtain rfl : c = '-' := (List.cons.inj hmn).1
    revert h2
    decide
  cases a with
  | ofNat m => cases b with
    | ofNat n => exact congrArg _ (ofNat_inj h)
    | negSucc n => exact absurd h (hne m (n + 1))
  | negSucc m => cases b with
    | ofNat n => exact absurd h.symm (hne n (m + 1))
    | negSucc n =>
      have := ofNat_inj (List.cons.inj h).2
      exact congrArg _ (by omega)

theorem intStr_notMem {a : Int} {c : Char} (hc : c.isDigit = false) (hm : c ≠ '-') : c ∉ intStr a := by
  cases a with
  | ofNat m => exact digit_notMem hc
  | negSucc m =>
    intro h
    rcases List.mem_cons.1 h with h | h
    · exact hm h
    · exact digit_notMem hc h

theorem boolStr_cut {a b : Bool} {r r' : Str} (h : boolStr a ++ r = boolStr b ++ r') : a = b ∧ r = r' := by
  cases a <;> cases b <;> simp [boolStr] at h <;> simp [h]

theorem members_inj {a b : List Nat} (h : members a = members b) : a = b := by
  induction a generalizing b with
  | nil => cases b with
    | nil => rfl
    | cons n b => simp [members, comma] at h
  | cons m a ih => cases b with
    | nil => simp [members, comma] at h
    | cons n b =>
      have h : ofNat m ++ members a = ofNat n ++ members b := by simpa [members, comma] using h
      cases a with
      | nil => cases b with
        | nil =>
          rw [show members [] = [] from rfl, List.append_nil, List.append_nil] at h
          rw [ofNat_inj h]
        | cons k b =>
          have : ',' ∈ ofNat m := by
            rw [show members [] = [] from rfl, List.append_nil] at h
            rw [h]
            simp [members, comma]
          exact absurd this (digit_notMem (by decide))
      | cons l a => cases b with
        | nil =>
          have : ',' ∈ ofNat n := by
            rw [show members [] = [] from rfl, List.append_nil] at h
            rw [← h]
            simp [members, comma]
          exact absurd this (digit_notMem (by decide))
        | cons k b =>
          have h' : ofNat m ++ ',' :: (' ' :: (ofNat l ++ members a)) = ofNat n ++ ',' :: (' ' :: (ofNat k ++ members b)) := h
          obtain ⟨h1, h2⟩ := ofNat_cut (by decide) h'
          rw [h1, ih (b := k :: b) (congrArg (List.cons ',') h2)]

/-- What is between the brackets of a tuple. -/
def inner : List Nat → Str
  | [] => []
  | [n] => ofNat n ++ [',']
  | n :: ns => ofNat n ++ members ns

theorem tupleStr_inner (sh : List Nat) : tupleStr sh = '(' :: (inner sh ++ [')']) := by
  match sh with
  | [] => rfl
  | [n] => rfl
  | n :: m :: ns => rfl

theorem members_notMem (ns : List Nat) : ')' ∉ members ns := by
  induction ns with
  | nil => simp [members]
  | cons n ns ih =>
    simp only [members, comma, List.mem_append, List.mem_cons, not_or]
    exact ⟨by decide, by decide, digit_notMem (by decide), ih⟩

theorem inner_notMem (sh : List Nat) : ')' ∉ inner sh := by
  match sh with
  | [] => simp [inner]
  | [n] =>
    simp only [inner, List.mem_append, not_or]
    exact ⟨digit_notMem (by decide), by decide⟩
  | n :: m :: ns =>
    simp only [inner, List.mem_append, not_or]
    exact ⟨digit_notMem (by decide), members_notMem _⟩

theorem inner_inj {a b : List Nat} (h : inner a = inner b) : a = b := by
  have e0 : ∀ n ns, inner (n :: ns) ≠ [] := by
    intro n ns
    obtain ⟨c, r, h1, _⟩ := ofNat_head n
    cases ns <;> simp [inner, h1]
  match a, b with
  | [], [] => rfl
  | [], n :: ns => exact absurd h.symm (e0 n ns)
  | n :: ns, [] => exact absurd h (e0 n ns)
  | [m], [n] =>
    have h : ofNat m ++ ',' :: [] = ofNat n ++ ',' :: [] := h
    rw [(ofNat_cut (by decide) h).1]
  | [m], n :: k :: ns =>
    have h : ofNat m ++ ',' :: [] = ofNat n ++ ',' :: (' ' :: (ofNat k ++ members ns)) := h
    exact absurd (ofNat_cut (by decide) h).2 (by simp)
  | n :: k :: ns, [m] =>
    have h : ofNat m ++ ',' :: [] = ofNat n ++ ',' :: (' ' :: (ofNat k ++ members ns)) := h.symm
    exact absurd (ofNat_cut (by decide) h).2 (by simp)
  | m :: l :: ms, n :: k :: ns =>
    have h : ofNat m ++ ',' :: (' ' :: (ofNat l ++ members ms)) = ofNat n ++ ',' :: (' ' :: (ofNat k ++ members ns)) := h
    obtain ⟨h1, h2⟩ := ofNat_cut (by decide) h
    have := members_inj (a := l :: ms) (b := k :: ns) (congrArg (List.cons ',') h2)
    rw [h1, this]

theorem tupleStr_cut {a b : List Nat} {r r' : Str} (h : tupleStr a ++ r = tupleStr b ++ r') : a = b ∧ r = r' := by
  rw [tupleStr_inner, tupleStr_inner] at h
  have h : inner a ++ ')' :: r = inner b ++ ')' :: r' := by simpa using h
  obtain ⟨h1, h2⟩ := cutAt ')' (inner_notMem a) (inner_notMem b) h
  exact ⟨inner_inj h1, h2⟩

theorem shapeStr_cut {a b : Option (List Nat)} {r r' : Str} (h : shapeStr a ++ r = shapeStr b ++ r') : a = b ∧ r = r' := by
  have hN : ∀ (sh : List Nat) (x y : Str), tupleStr sh ++ x ≠ "None".toList ++ y := by
    intro sh x y hh
    rw [tupleStr_inner] at hh
    have h1 := congrArg List.head? hh
    have h2 : ("None".toList ++ y).head? = some 'N' := by simp
    rw [h2] at h1
    have h3 : '(' = 'N' := Option.some.inj h1
    revert h3
    decide
  cases a with
  | none => cases b with
    | none => exact ⟨rfl, List.append_cancel_left h⟩
    | some b => exact absurd h.symm (hN b _ _)
  | some a => cases b with
    | none => exact absurd h (hN a _ _)
    | some b =>
      obtain ⟨rfl, h2⟩ := tupleStr_cut h
      exact ⟨rfl, h2⟩

theorem noteStr_inj : ∀ bs bs' r r' : Bool, ((if bs then [] else comma "no bias".toList) ++ comma (if r then "real".toList else "complex".toList) : Str) =
    (if bs' then [] else comma "no bias".toList) ++ comma (if r' then "real".toList else "complex".toList) → bs = bs' ∧ r = r' := by decide +kernel

theorem useStr_inj : ∀ t g t' g' : Bool, (if t then "trainable".toList else if g then "fixed".toList else "inputs".toList) =
    (if t' then "trainable".toList else if g' then "fixed".toList else "inputs".toList) → t = t' ∧ (t = true ∨ g = g') := by decide +kernel

theorem upper_inj {a b : Which} (h : a.upper = b.upper) : a = b := by
  cases a <;> cases b <;> first | rfl | (exfalso; revert h; decide)

theorem hermTail_inj {s s' : Option Str} {b b' : Bool} (hs : ∀ t, s = some t → ',' ∉ t) (hs' : ∀ t, s' = some t → ',' ∉ t)
    (h : hermTail s b = hermTail s' b') : s = s' ∧ b = b' := by
  cases s with
  | none => cases s' with
    | none => cases b <;> cases b' <;> simp [hermTail, comma] at h ⊢
    | some t => cases b <;> simp [hermTail, comma] at h
  | some u => cases s' with
    | none => cases b' <;> simp [hermTail, comma] at h
    | some t =>
      have hu := hs u rfl
      have ht := hs' t rfl
      cases b <;> cases b' <;> simp [hermTail, comma] at h ⊢
      · exact h
      · exact ht (by rw [← h]; simp)
      · exact hu (by rw [h]; simp)
      · exact h

theorem paren_inj {c c' b b' : Str} (hc : '(' ∉ c) (hc' : '(' ∉ c') (h : paren c b = paren c' b') : c = c' ∧ b = b' := by
  obtain ⟨h1, h2⟩ := cutAt '(' hc hc' h
  exact ⟨h1, List.append_cancel_right h2⟩

theorem paren_body {c b b' : Str} (h : paren c b = paren c b') : b = b' :=
  List.append_cancel_right (List.cons.inj (List.append_cancel_left h)).2

theorem hermName_inj {n n' : Option Nat} {s s' : Option Str} {b b' : Bool} (hs : ∀ t, s = some t → ',' ∉ t) (hs' : ∀ t, s' = some t → ',' ∉ t)
    (h : hermName n s b = hermName n' s' b') : n = n' ∧ s = s' ∧ b = b' := by
  obtain ⟨h1, h2⟩ := optStr_cut (by decide) (by decide) (paren_body h)
  subst h1
  exact ⟨rfl, hermTail_inj hs hs' (List.append_cancel_left h2)⟩

theorem comma_inj {a b : Str} (h : comma a = comma b) : a = b := (List.cons.inj (List.cons.inj h).2).2

theorem optStr_comma {a b : Option Nat} {r r' : Str} (h : optStr a ++ comma r = optStr b ++ comma r') : a = b ∧ r = r' := by
  obtain ⟨h1, h2⟩ := optStr_cut (by decide) (by decide) h
  exact ⟨h1, (List.cons.inj h2).2⟩

theorem boolStr_inj {a b : Bool} (h : boolStr a = boolStr b) : a = b := (boolStr_cut (r := []) (r' := []) (by simpa using h)).1

theorem obsInfo_inj {a a' b b' : Option Nat} {c c' : Bool} (h : obsInfo a b c = obsInfo a' b' c') : a = a' ∧ b = b' ∧ c = c' := by
  obtain ⟨h1, h2⟩ := optStr_comma (List.append_cancel_left h)
  obtain ⟨h3, h4⟩ := optStr_comma (List.append_cancel_left h2)
  exact ⟨h1, h3, boolStr_inj (List.append_cancel_left h4)⟩

theorem nil_ne {a o : Str} (h : a ≠ []) : ([] : Str) ≠ a ++ o := by
  cases a with
  | nil => exact absurd rfl h
  | cons x a => simp

theorem axis_ne {o r : Str} : "path_order=".toList ++ o ≠ "axis=".toList ++ r := by simp

theorem concatInfo_inj {a b : Option Int} {o p : Option Str} (h : concatInfo a o = concatInfo b p) : a = b ∧ o = p := by
  cases a with
  | none => cases o with
    | none =>
      cases b <;> cases p
      · exact ⟨rfl, rfl⟩
      · exact absurd h (nil_ne (by decide))
      · exact absurd h (nil_ne (by decide))
      · exact absurd h (nil_ne (by decide))
    | some o =>
      cases b <;> cases p
      · exact absurd h.symm (nil_ne (by decide))
      · exact ⟨rfl, congrArg some (List.append_cancel_left h)⟩
      · exact absurd h axis_ne
      · exact absurd h axis_ne
  | some a => cases o with
    | none =>
      cases b with
      | none => cases p with
        | none => exact absurd h.symm (nil_ne (by decide))
        | some p => exact absurd h.symm axis_ne
      | some b => cases p with
        | none =>
          rw [intStr_inj (List.append_cancel_left h)]
          exact ⟨rfl, rfl⟩
        | some p =>
          have h : intStr a = intStr b ++ ',' :: _ := List.append_cancel_left h
          have : ',' ∈ intStr a := by rw [h]; simp
          exact absurd this (intStr_notMem (by decide) (by decide))
    | some o =>
      cases b with
      | none => cases p with
        | none => exact absurd h.symm (nil_ne (by decide))
        | some p => exact absurd h.symm axis_ne
      | some b => cases p with
        | none =>
          have h : intStr a ++ ',' :: _ = intStr b := List.append_cancel_left h
          have : ',' ∈ intStr b := by rw [← h]; simp
          exact absurd this (intStr_notMem (by decide) (by decide))
        | some p =>
          obtain ⟨h1, h2⟩ := cutAt ',' (intStr_notMem (by decide) (by decide)) (intStr_notMem (by decide) (by decide)) (List.append_cancel_left h)
          rw [intStr_inj h1, List.append_cancel_left (List.cons.inj h2).2]
          exact ⟨rfl, rfl⟩

/-- The text in front of the first bracket. -/
def front (s : Str) : Str := s.takeWhile (· != '(')

theorem front_cat {x r : Str} (h : '(' ∉ x) : front (x ++ '(' :: r) = x := by
  induction x with
  | nil => rfl
  | cons c x ih =>
    have hc : (c != '(') = true := by
      simp only [bne_iff_ne, ne_eq]
      rintro rfl
      exact h (List.mem_cons_self ..)
    unfold front at ih ⊢
    rw [List.cons_append, List.takeWhile_cons, if_pos hc, ih fun hx => h (List.mem_cons_of_mem _ hx)]

theorem front_self {x : Str} (h : '(' ∉ x) : front x = x := by
  induction x with
  | nil => rfl
  | cons c x ih =>
    have hc : (c != '(') = true := by
      simp only [bne_iff_ne, ne_eq]
      rintro rfl
      exact h (List.mem_cons_self ..)
    unfold front at ih ⊢
    rw [List.takeWhile_cons, if_pos hc, ih fun hx => h (List.mem_cons_of_mem _ hx)]

/-- The class as the name gives it. -/
def hd : Mod → Str
  | .herm _ _ _ | .lowRank _ _ _ _ => "AffineHermitianMatrix".toList
  | .tensor _ _ _ => "AffineTensor".toList
  | .bias _ => "Bias".toList
  | .prelu _ _ => "PReLU".toList
  | .constant _ _ _ _ => "Constant".toList
  | .concat _ _ => "ConcatenateLeaves".toList
  | .reshape _ => "Reshape".toList
  | .eig k _ _ => k.cls
  | .einsum _ => "Einsum".toList
  | .expectation _ _ _ => "ExpectationValueSum".toList
  | .transition _ _ _ => "TransitionAmplitudeSum".toList
  | .matmul _ _ => "MatMul".toList
  | .treeKey _ => "TreeKey".toList
  | .comment _ => "#".toList
  | .func _ => "FuncBase".toList
  | .cls c _ => c

theorem cls_notMem (k : Eig) : '(' ∉ k.cls := by cases k <;> decide

theorem front_paren {c b : Str} (h : '(' ∉ c) : front (paren c b) = c := front_cat h

theorem front_name (m : Mod) (ht : Tidy m) (hc : ∀ t, m ≠ .comment t) : front (name m) = hd m := by
  cases m with
  | herm => exact front_paren (by decide)
  | lowRank => exact front_paren (by decide)
  | tensor => exact front_paren (by decide)
  | bias => exact front_paren (by decide)
  | prelu => exact front_paren (by decide)
  | constant title => obtain ⟨rfl, _⟩ := ht; exact front_paren (by decide)
  | concat => exact front_paren (by decide)
  | reshape => exact front_paren (by decide)
  | eig k n w => exact front_paren (cls_notMem k)
  | einsum => exact front_paren (by decide)
  | expectation => exact front_paren (by decide)
  | transition => exact front_paren (by decide)
  | matmul => exact front_paren (by decide)
  | treeKey p => cases p with
    | none => exact front_self (x := "TreeKey".toList) (by decide)
    | some p => exact front_paren (by decide)
  | comment t => exact absurd rfl (hc t)
  | func => exact front_paren (by decide)
  | cls c a => cases a with
    | none => exact front_self ht.2.1
    | some a => exact front_paren ht.2.1

theorem hash_cls (m : Mod) (ht : Tidy m) (hc : ∀ t, m ≠ .comment t) : '#' ∉ hd m := by
  cases m with
  | eig k => exact (by cases k <;> decide : '#' ∉ k.cls)
  | cls c a => exact ht.2.2.1
  | comment t => exact absurd rfl (hc t)
  | herm => exact (by decide : '#' ∉ "AffineHermitianMatrix".toList)
  | lowRank => exact (by decide : '#' ∉ "AffineHermitianMatrix".toList)
  | tensor => exact (by decide : '#' ∉ "AffineTensor".toList)
  | bias => exact (by decide : '#' ∉ "Bias".toList)
  | prelu => exact (by decide : '#' ∉ "PReLU".toList)
  | constant => exact (by decide : '#' ∉ "Constant".toList)
  | concat => exact (by decide : '#' ∉ "ConcatenateLeaves".toList)
  | reshape => exact (by decide : '#' ∉ "Reshape".toList)
  | einsum => exact (by decide : '#' ∉ "Einsum".toList)
  | expectation => exact (by decide : '#' ∉ "ExpectationValueSum".toList)
  | transition => exact (by decide : '#' ∉ "TransitionAmplitudeSum".toList)
  | matmul => exact (by decide : '#' ∉ "MatMul".toList)
  | treeKey => exact (by decide : '#' ∉ "TreeKey".toList)
  | func => exact (by decide : '#' ∉ "FuncBase".toList)

theorem comment_front (t : Str) : '#' ∈ front (name (.comment t)) := by
  simp only [name]
  split <;> simp [front]

/-- The number of an eigenvalue class. -/
def Eig.idx : Eig → Nat
  | .system => 7
  | .values => 8
  | .vectors => 9

/-- The number of the class. -/
def idx : Mod → Nat
  | .herm _ _ _ => 0
  | .lowRank _ _ _ _ => 0
  | .tensor _ _ _ => 1
  | .bias _ => 2
  | .prelu _ _ => 3
  | .constant _ _ _ _ => 4
  | .concat _ _ => 5
  | .reshape _ => 6
  | .einsum _ => 10
  | .expectation _ _ _ => 11
  | .transition _ _ _ => 12
  | .matmul _ _ => 13
  | .treeKey _ => 14
  | .func _ => 15
  | .eig k _ _ => k.idx
  | .cls _ _ => 16
  | .comment _ => 17

theorem idx_hd (m : Mod) (ht : Tidy m) (hc : ∀ t, m ≠ .comment t) : Reserved.idxOf (hd m) = idx m := by
  cases m with
  | eig k => exact (by cases k <;> decide +kernel : Reserved.idxOf k.cls = k.idx)
  | cls c a => exact List.idxOf_eq_length ht.2.2.2
  | comment t => exact absurd rfl (hc t)
  | herm => exact (by decide +kernel : Reserved.idxOf "AffineHermitianMatrix".toList = 0)
  | lowRank => exact (by decide +kernel : Reserved.idxOf "AffineHermitianMatrix".toList = 0)
  | tensor => exact (by decide +kernel : Reserved.idxOf "AffineTensor".toList = 1)
  | bias => exact (by decide +kernel : Reserved.idxOf "Bias".toList = 2)
  | prelu => exact (by decide +kernel : Reserved.idxOf "PReLU".toList = 3)
  | constant => exact (by decide +kernel : Reserved.idxOf "Constant".toList = 4)
  | concat => exact (by decide +kernel : Reserved.idxOf "ConcatenateLeaves".toList = 5)
  | reshape => exact (by decide +kernel : Reserved.idxOf "Reshape".toList = 6)
  | einsum => exact (by decide +kernel : Reserved.idxOf "Einsum".toList = 10)
  | expectation => exact (by decide +kernel : Reserved.idxOf "ExpectationValueSum".toList = 11)
  | transition => exact (by decide +kernel : Reserved.idxOf "TransitionAmplitudeSum".toList = 12)
  | matmul => exact (by decide +kernel : Reserved.idxOf "MatMul".toList = 13)
  | treeKey => exact (by decide +kernel : Reserved.idxOf "TreeKey".toList = 14)
  | func => exact (by decide +kernel : Reserved.idxOf "FuncBase".toList = 15)

theorem same_idx (a b : Mod) (ha : Tidy a) (hb : Tidy b) (h : name a = name b) : idx a = idx b := by
  by_cases ca : ∀ t, a ≠ .comment t
  · by_cases cb : ∀ t, b ≠ .comment t
    · rw [← idx_hd a ha ca, ← idx_hd b hb cb, ← front_name a ha ca, ← front_name b hb cb, h]
    · obtain ⟨t, rfl⟩ : ∃ t, b = .comment t := by simpa using cb
      have := hash_cls a ha ca
      rw [← front_name a ha ca, h] at this
      exact absurd (comment_front t) this
  · obtain ⟨t, rfl⟩ : ∃ t, a = .comment t := by simpa using ca
    by_cases cb : ∀ t, b ≠ .comment t
    · have := hash_cls b hb cb
      rw [← front_name b hb cb, ← h] at this
      exact absurd (comment_front t) this
    · obtain ⟨t', rfl⟩ : ∃ t, b = .comment t := by simpa using cb
      rfl

end Names
end Verif
