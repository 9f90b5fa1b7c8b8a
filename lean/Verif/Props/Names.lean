import Verif.Lemmas.Names

/-!
# C102: the name of a module tells its class and its hyperparameters
-/

namespace Verif.Props
open Names NamesSpec

theorem constant_inj {s s' r r' : Str} {t t' : Bool} (hs : '=' ∉ s) (hs' : '=' ∉ s')
    (h : s ++ comma ("real".toList ++ ('=' :: (r ++ comma (if t then "trainable".toList else "fixed".toList)))) =
      s' ++ comma ("real".toList ++ ('=' :: (r' ++ comma (if t' then "trainable".toList else "fixed".toList))))) : s = s' ∧ r = r' ∧ t = t' := by
  have hn : ∀ x : Str, '=' ∉ x → '=' ∉ x ++ comma "real".toList := by
    intro x hx
    simp [comma, hx]
  have e : ∀ x y : Str, x ++ comma ("real".toList ++ ('=' :: y)) = (x ++ comma "real".toList) ++ '=' :: y := by
    intro x y
    simp [comma]
  rw [e, e] at h
  obtain ⟨h1, h2⟩ := cutAt '=' (hn s hs) (hn s' hs') h
  refine ⟨List.append_cancel_right h1, ?_⟩
  cases t <;> cases t'
  · exact ⟨List.append_cancel_right h2, rfl⟩
  · have := congrArg List.reverse h2
    simp [comma] at this
  · have := congrArg List.reverse h2
    simp [comma] at this
  · exact ⟨List.append_cancel_right h2, rfl⟩

theorem eigInfo_cases {k : Eig} {n n' : Option Nat} {w w' : Which} (h : eigInfo k n w = eigInfo k n' w') : (n = n' ∧ w = w') ∨ (n = none ∧ n' = none ∧ k ≠ .vectors) := by
  unfold eigInfo at h
  by_cases c : n = some 1 ∧ w = .sa
  · by_cases c' : n' = some 1 ∧ w' = .sa
    · exact Or.inl ⟨c.1.trans c'.1.symm, c.2.trans c'.2.symm⟩
    · rw [if_pos c, if_neg c'] at h
      cases n' <;> simp at h
  · by_cases c' : n' = some 1 ∧ w' = .sa
    · rw [if_neg c, if_pos c'] at h
      cases n <;> simp at h
    · rw [if_neg c, if_neg c'] at h
      cases n with
      | none => cases n' with
        | none =>
          cases k with
          | vectors => exact Or.inl ⟨rfl, upper_inj (List.append_cancel_left (comma_inj (List.append_cancel_left h)))⟩
          | _ => exact Or.inr ⟨rfl, rfl, by decide⟩
        | some n' => simp at h
      | some n => cases n' with
        | none => simp at h
        | some n' =>
          obtain ⟨h1, h2⟩ := ofNat_cut (c := ',') (by decide) (List.append_cancel_left h)
          exact Or.inl ⟨by rw [h1], upper_inj (List.append_cancel_left (List.cons.inj h2).2)⟩

/-- C102. Two modules have the same name exactly if they are of the same class with the same hyperparameters, or differ in what the names of the classes in question do not say. -/
theorem C102_exact (a b : Mod) (ha : Tidy a) (hb : Tidy b) : name a = name b ↔ SameUse a b ∨ Lost a b := by
  constructor
  · intro h
    have hi := same_idx a b ha hb h
    cases a with
    | herm n s c =>
      cases b <;> first | (exfalso; revert hi; simp [idx]; done) | (exfalso; revert hi; rename_i k _ _; cases k <;> simp [idx, Eig.idx]; done) | skip
      · obtain ⟨rfl, rfl, rfl⟩ := hermName_inj (by rintro t rfl; exact ha) (by rintro t rfl; exact hb) h
        exact Or.inl rfl
      · exact Or.inr (hermName_inj (by rintro t rfl; exact ha) (by rintro t rfl; exact hb) h)
    | lowRank n r s c =>
      cases b <;> first | (exfalso; revert hi; simp [idx]; done) | (exfalso; revert hi; rename_i k _ _; cases k <;> simp [idx, Eig.idx]; done) | skip
      · exact Or.inr (hermName_inj (by rintro t rfl; exact ha) (by rintro t rfl; exact hb) h)
      · exact Or.inr (hermName_inj (by rintro t rfl; exact ha) (by rintro t rfl; exact hb) h)
    | tensor sh bs r =>
      cases b <;> first | (exfalso; revert hi; simp [idx]; done) | (exfalso; revert hi; rename_i k _ _; cases k <;> simp [idx, Eig.idx]; done) | skip
      obtain ⟨rfl, h2⟩ := shapeStr_cut (paren_body h)
      obtain ⟨rfl, rfl⟩ := noteStr_inj _ _ _ _ h2
      exact Or.inl rfl
    | bias r =>
      cases b <;> first | (exfalso; revert hi; simp [idx]; done) | (exfalso; revert hi; rename_i k _ _; cases k <;> simp [idx, Eig.idx]; done) | skip
      rw [boolStr_inj (List.append_cancel_left (paren_body h))]
      exact Or.inl rfl
    | prelu r s =>
      cases b <;> first | (exfalso; revert hi; simp [idx]; done) | (exfalso; revert hi; rename_i k _ _; cases k <;> simp [idx, Eig.idx]; done) | skip
      obtain ⟨rfl, h2⟩ := boolStr_cut (List.append_cancel_left (paren_body h))
      rw [boolStr_inj (List.append_cancel_left (comma_inj h2))]
      exact Or.inl rfl
    | constant title sh r tr =>
      cases b <;> first | (exfalso; revert hi; simp [idx]; done) | (exfalso; revert hi; rename_i k _ _; cases k <;> simp [idx, Eig.idx]; done) | skip
      obtain ⟨rfl, ha⟩ := ha
      obtain ⟨rfl, hb⟩ := hb
      obtain ⟨rfl, rfl, rfl⟩ := constant_inj ha hb (paren_body h)
      exact Or.inl rfl
    | concat ax o =>
      cases b <;> first | (exfalso; revert hi; simp [idx]; done) | (exfalso; revert hi; rename_i k _ _; cases k <;> simp [idx, Eig.idx]; done) | skip
      obtain ⟨rfl, rfl⟩ := concatInfo_inj (paren_body h)
      exact Or.inl rfl
    | reshape sh =>
      cases b <;> first | (exfalso; revert hi; simp [idx]; done) | (exfalso; revert hi; rename_i k _ _; cases k <;> simp [idx, Eig.idx]; done) | skip
      rw [List.append_cancel_left (paren_body h)]
      exact Or.inl rfl
    | eig k n w =>
      cases b <;> first | (exfalso; revert hi; cases k <;> simp [idx, Eig.idx]; done) | skip
      rename_i k' n' w'
      obtain rfl : k = k' := by
        revert hi
        cases k <;> cases k' <;> simp [idx, Eig.idx]
      rcases eigInfo_cases (paren_body h) with ⟨rfl, rfl⟩ | ⟨rfl, rfl, hk⟩
      · exact Or.inl rfl
      · refine Or.inr ?_
        cases k with
        | vectors => exact absurd rfl hk
        | _ => trivial
    | einsum x =>
      cases b <;> first | (exfalso; revert hi; simp [idx]; done) | (exfalso; revert hi; rename_i k _ _; cases k <;> simp [idx, Eig.idx]; done) | skip
      rw [paren_body h]
      exact Or.inl rfl
    | expectation o n c =>
      cases b <;> first | (exfalso; revert hi; simp [idx]; done) | (exfalso; revert hi; rename_i k _ _; cases k <;> simp [idx, Eig.idx]; done) | skip
      obtain ⟨rfl, rfl, rfl⟩ := obsInfo_inj (paren_body h)
      exact Or.inl rfl
    | transition o n c =>
      cases b <;> first | (exfalso; revert hi; simp [idx]; done) | (exfalso; revert hi; rename_i k _ _; cases k <;> simp [idx, Eig.idx]; done) | skip
      obtain ⟨rfl, rfl, rfl⟩ := obsInfo_inj (paren_body h)
      exact Or.inl rfl
    | matmul tr g =>
      cases b <;> first | (exfalso; revert hi; simp [idx]; done) | (exfalso; revert hi; rename_i k _ _; cases k <;> simp [idx, Eig.idx]; done) | skip
      rename_i tr' g'
      refine Or.inl ?_
      obtain ⟨rfl, h2⟩ := useStr_inj _ _ _ _ (paren_body h)
      cases tr with
      | true => trivial
      | false =>
        obtain rfl : g = g' := by simpa using h2
        rfl
    | treeKey p =>
      cases b <;> first | (exfalso; revert hi; simp [idx]; done) | (exfalso; revert hi; rename_i k _ _; cases k <;> simp [idx, Eig.idx]; done) | skip
      rename_i p'
      cases p with
      | none => cases p' with
        | none => exact Or.inl rfl
        | some p' =>
          have := congrArg List.length h
          simp [name, paren] at this
      | some p => cases p' with
        | none =>
          have := congrArg List.length h
          simp [name, paren] at this
        | some p' =>
          rw [paren_body h]
          exact Or.inl rfl
    | comment x =>
      cases b <;> first | (exfalso; revert hi; simp [idx]; done) | (exfalso; revert hi; rename_i k _ _; cases k <;> simp [idx, Eig.idx]; done) | skip
      rename_i y
      have h := (List.cons.inj h).2
      by_cases hx : x = []
      · by_cases hy : y = []
        · rw [hx, hy]
          exact Or.inl rfl
        · rw [if_pos hx, if_neg hy] at h
          cases h
      · by_cases hy : y = []
        · rw [if_neg hx, if_pos hy] at h
          cases h
        · rw [if_neg hx, if_neg hy] at h
          rw [(List.cons.inj h).2]
          exact Or.inl rfl
    | func c =>
      cases b <;> first | (exfalso; revert hi; simp [idx]; done) | (exfalso; revert hi; rename_i k _ _; cases k <;> simp [idx, Eig.idx]; done) | skip
      rw [paren_body h]
      exact Or.inl rfl
    | cls c x =>
      cases b <;> first | (exfalso; revert hi; simp [idx]; done) | (exfalso; revert hi; rename_i k _ _; cases k <;> simp [idx, Eig.idx]; done) | skip
      rename_i d y
      obtain rfl : c = d := by
        have h1 := front_name _ ha (by simp)
        have h2 := front_name _ hb (by simp)
        rw [h] at h1
        exact h1.symm.trans h2
      cases x with
      | none => cases y with
        | none => exact Or.inl rfl
        | some y =>
          have := congrArg List.length h
          simp [name, paren] at this
      | some x => cases y with
        | none =>
          have := congrArg List.length h
          simp [name, paren] at this
        | some y =>
          rw [List.append_cancel_left (paren_body h)]
          exact Or.inl rfl
  · rintro (h | h)
    · unfold SameUse at h
      split at h
      · rfl
      · rw [h]
    · unfold Lost at h
      split at h
      · obtain ⟨rfl, rfl, rfl⟩ := h; rfl
      · obtain ⟨rfl, rfl, rfl⟩ := h; rfl
      · obtain ⟨rfl, rfl, rfl⟩ := h; rfl
      · simp [name, eigInfo]
      · simp [name, eigInfo]
      · exact absurd h id

/-- C102. A module whose name is not vague is told by its name: class and hyperparameters. -/
theorem C102_tells_partial (a b : Mod) (ha : Tidy a) (hb : Tidy b) (va : ¬ Vague a) (h : name a = name b) (vb : ¬ Vague b) : SameUse a b := by
  rcases (C102_exact a b ha hb).1 h with h | h
  · exact h
  · unfold Lost at h
    split at h
    · exact absurd trivial va
    · exact absurd trivial va
    · exact absurd trivial vb
    · exact absurd trivial va
    · exact absurd trivial va
    · exact absurd h id

/-- C102, refuted for low-rank modules: they are called like modules with matrices of full rank, and the rank is not shown. -/
theorem C102_low_rank_refuted (n r r' : Option Nat) (s : Option Str) (b : Bool) : name (.lowRank n r s b) = name (.lowRank n r' s b) ∧ name (.lowRank n r s b) = name (.herm n s b) := ⟨rfl, rfl⟩

/-- C102, refuted for all eigenvalues: which order they are in is not shown, but the text of the program. -/
theorem C102_all_refuted (k : Eig) (hk : k ≠ .vectors) (w : Which) : name (.eig k none w) = k.cls ++ "(ALL, which={self.which.upper()})".toList := by
  cases k with
  | vectors => exact absurd rfl hk
  | system => cases w <;> decide +kernel
  | values => cases w <;> decide +kernel

/-- C102. The values in a name stand behind the right labels. -/
theorem C102_labels :
    (∀ real, Reads (name (.bias real)) "Bias" ["real=".toList ++ yes real]) ∧
    (∀ real single, Reads (name (.prelu real single)) "PReLU" ["real=".toList ++ yes real, "single=".toList ++ yes single]) ∧
    (∀ out num c, Reads (name (.expectation out num c)) "ExpectationValueSum" ["output_size=".toList ++ number out, "num_observables=".toList ++ number num, "centered=".toList ++ yes c]) ∧
    (∀ out num c, Reads (name (.transition out num c)) "TransitionAmplitudeSum" ["output_size=".toList ++ number out, "num_observables=".toList ++ number num, "centered=".toList ++ yes c]) ∧
    (∀ n s b, Reads (name (.herm n s b)) "AffineHermitianMatrix" ((number n ++ "x".toList ++ number n) :: ((match s with | some s => ["smooth=".toList ++ s] | none => []) ++ if b then [] else ["no bias".toList]))) ∧
    (∀ sh r t, Reads (name (.constant "Constant".toList sh r t)) "Constant" [sh, "real=".toList ++ r, if t then "trainable".toList else "fixed".toList]) ∧
    (∀ k n w, (n, w) ≠ (1, Which.sa) → Reads (name (.eig k (some n) w)) (String.ofList k.cls) ["num_eig=".toList ++ number (some n), "which=".toList ++ w.upper]) := by
  have hb : ∀ b, boolStr b = yes b := by intro b; cases b <;> rfl
  have ho : ∀ n, optStr n = number n := by
    intro n
    cases n with
    | none => rfl
    | some n => rfl
  have e1 : "(".toList = ['('] := rfl
  have e2 : ")".toList = [')'] := rfl
  have e3 : "x".toList = ['x'] := rfl
  have i1 : ∀ a : Str, (", ".toList).intercalate [a] = a := by intro a; simp [List.intercalate]
  have i2 : ∀ a b : Str, (", ".toList).intercalate [a, b] = a ++ (',' :: ' ' :: b) := by intro a b; simp [List.intercalate]
  have i3 : ∀ a b c : Str, (", ".toList).intercalate [a, b, c] = a ++ (',' :: ' ' :: (b ++ (',' :: ' ' :: c))) := by intro a b c; simp [List.intercalate]
  have obs : ∀ c l1 l2 l3 x y z : Str, paren c (l1 ++ (x ++ comma (l2 ++ (y ++ comma (l3 ++ z))))) = c ++ "(".toList ++ (", ".toList).intercalate [l1 ++ x, l2 ++ y, l3 ++ z] ++ ")".toList := by
    intro c l1 l2 l3 x y z
    rw [i3, e1, e2]
    simp only [paren, comma, List.append_assoc, List.cons_append, List.nil_append]
  have hobs : ∀ o n c, obsInfo o n c = "output_size=".toList ++ (optStr o ++ comma ("num_observables=".toList ++ (optStr n ++ comma ("centered=".toList ++ boolStr c)))) := fun _ _ _ => rfl
  refine ⟨fun real => ?_, fun real single => ?_, fun out num c => ?_, fun out num c => ?_, fun n s b => ?_, fun sh r t => ?_, fun k n w h => ?_⟩
  · rw [Reads, i1, e1, e2]; simp only [name, paren, hb, List.append_assoc, List.cons_append, List.nil_append]
  · rw [Reads, i2, e1, e2]; simp only [name, paren, comma, hb, List.append_assoc, List.cons_append, List.nil_append]
  · rw [Reads, name, hobs, hb, ho, ho]
    exact obs _ _ _ _ _ _ _
  · rw [Reads, name, hobs, hb, ho, ho]
    exact obs _ _ _ _ _ _ _
  · cases s <;> cases b <;> simp only [List.append_nil, List.nil_append, List.cons_append, if_true, Bool.false_eq_true, if_false] <;>
      rw [Reads] <;> first | rw [i3, e1, e2, e3] | rw [i2, e1, e2, e3] | rw [i1, e1, e2, e3] <;> skip
    all_goals simp only [name, hermName, hermTail, paren, comma, ho, List.append_assoc, List.cons_append, List.nil_append, List.append_nil, if_true, Bool.false_eq_true, if_false]
  · rw [Reads, i3, e1, e2]
    cases t <;> simp only [name, paren, comma, List.append_assoc, List.cons_append, List.nil_append, if_true, Bool.false_eq_true, if_false] <;> rfl
  · have h' : ¬ (some n = some 1 ∧ w = .sa) := by
      rintro ⟨h1, h2⟩
      exact h (by rw [Option.some.inj h1, h2])
    have hn : ofNat n = number (some n) := ho (some n)
    rw [Reads, i2, e1, e2, String.toList_ofList]
    simp only [name, eigInfo, if_neg h', paren, comma, hn, List.append_assoc, List.cons_append, List.nil_append]

/-- The names of some modules as they are printed. -/
example : name (.herm (some 5) (some "0.1".toList) false) = "AffineHermitianMatrix(5x5, smooth=0.1, no bias)".toList := by decide +kernel
example : name (.tensor (some [2, 30]) true false) = "AffineTensor((2, 30), complex)".toList := by decide +kernel
example : name (.eig .system (some 12) .ea) = "Eigensystem(num_eig=12, which=EA)".toList := by decide +kernel
example : name (.eig .values none .sa) = "Eigenvalues(ALL, which={self.which.upper()})".toList := by decide +kernel
example : name (.concat (some (-1)) (some "('a', 'b')".toList)) = "ConcatenateLeaves(axis=-1, path_order=('a', 'b'))".toList := by decide +kernel
example : name (.constant "Constant".toList "(2,)".toList "True".toList true) = "Constant((2,), real=True, trainable)".toList := by decide +kernel
example : name (.cls "ReLU".toList none) = "ReLU".toList := by decide +kernel
/-- They are tidy and not vague. -/
example : Tidy (.herm (some 5) (some "0.1".toList) false) ∧ ¬ Vague (.herm (some 5) (some "0.1".toList) false) ∧ Tidy (.cls "LeakyReLU".toList (some "(0.1,), kwargs={}".toList)) ∧
    Tidy (.constant "Constant".toList "(2,)".toList "True".toList true) := by
  refine ⟨by show ',' ∉ "0.1".toList; decide, id, ⟨by decide, by decide, by decide, by decide +kernel⟩, rfl, by decide⟩
/-- A constant with another title can look like another module, and a text with a comma like two hyperparameters: the conditions are needed. -/
example : name (.constant "Reshape".toList "shape=(1,)".toList "True".toList true) = name (.reshape "(1,), real=True, trainable".toList) := by decide +kernel
example : name (.herm (some 5) (some "1, no bias".toList) true) = name (.herm (some 5) (some "1".toList) false) := by decide +kernel

end Verif.Props
