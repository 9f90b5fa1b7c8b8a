import Verif.Lemmas.Sequential

namespace Verif.Forward
open ForwardSpec Tree

variable {M P S K A : Type}

theorem stages_append : ∀ {ms ms' : List M} {ps ps' : List P} {ss ss' : List S} {ks ks' : List K}, ps.length = ms.length →
    ss.length = ms.length → ks.length = ms.length →
    stages (ms ++ ms') (ps ++ ps') (ss ++ ss') (ks ++ ks') = stages ms ps ss ks ++ stages ms' ps' ss' ks'
  | [], _, [], _, [], _, [], _, _, _, _ => by simp [stages]
  | m :: ms, _, p :: ps, _, s :: ss, _, k :: ks, _, h1, h2, h3 => by
    simp only [List.length_cons, Nat.add_right_cancel_iff] at h1 h2 h3
    simp [stages, stages_append h1 h2 h3]

theorem seqLoop_append (sig : Sig M P S K A) (training : Bool) : ∀ (a b : List (Stage M P S K)) (x : Tree A) (acc : List S),
    seqLoop sig training (a ++ b) x acc = match seqLoop sig training a x acc with
      | .error e => .error e
      | .ok (y, acc') => seqLoop sig training b y acc'
  | [], b, x, acc => rfl
  | st :: a, b, x, acc => by
    simp only [List.cons_append, seqLoop]
    cases sig.call st.mod st.params x training st.state st.key with
    | error e => rfl
    | ok v => exact seqLoop_append sig training a b _ _

theorem seqLoop_acc (sig : Sig M P S K A) (training : Bool) : ∀ (a : List (Stage M P S K)) (x : Tree A) (acc : List S),
    seqLoop sig training a x acc = match seqLoop sig training a x [] with
      | .error e => .error e
      | .ok (y, l) => .ok (y, acc ++ l)
  | [], x, acc => by simp [seqLoop]
  | st :: a, x, acc => by
    simp only [seqLoop]
    cases sig.call st.mod st.params x training st.state st.key with
    | error e => rfl
    | ok v =>
      simp only
      rw [seqLoop_acc sig training a v.1 (acc ++ [v.2]), seqLoop_acc sig training a v.1 ([] ++ [v.2])]
      cases seqLoop sig training a v.1 [] <;> simp

theorem seqLoop_length (sig : Sig M P S K A) (training : Bool) : ∀ {a : List (Stage M P S K)} {x y : Tree A} {acc l : List S},
    seqLoop sig training a x acc = .ok (y, l) → l.length = acc.length + a.length
  | [], x, y, acc, l, h => by simp [seqLoop] at h; simp [h]
  | st :: a, x, y, acc, l, h => by
    simp only [seqLoop] at h
    split at h
    · simp at h
    · have := seqLoop_length sig training h
      simp at this ⊢; omega

/-- If no module uses its key, the keys do not matter. -/
theorem seqLoop_keys {sig : Sig M P S K A} (hi : ∀ m p x t s k k', sig.call m p x t s k = sig.call m p x t s k')
    (training : Bool) : ∀ {ms : List M} {ps : List P} {ss : List S} {ks ks' : List K} (x : Tree A) (acc : List S),
    ks.length = ms.length → ks'.length = ms.length →
    seqLoop sig training (stages ms ps ss ks) x acc = seqLoop sig training (stages ms ps ss ks') x acc
  | [], _, _, _, _, x, acc, _, _ => by simp [stages]
  | m :: ms, [], _, _, _, x, acc, _, _ => by simp [stages]
  | m :: ms, p :: ps, [], _, _, x, acc, _, _ => by simp [stages]
  | m :: ms, p :: ps, s :: ss, k :: ks, k' :: ks', x, acc, h, h' => by
    simp only [List.length_cons, Nat.add_right_cancel_iff] at h h'
    simp only [stages, seqLoop]
    rw [hi m p x training s k k']
    cases sig.call m p x training s k' with
    | error e => rfl
    | ok v => exact seqLoop_keys hi training _ _ h h'

theorem stages_length : ∀ {ms : List M} {ps : List P} {ss : List S} {ks : List K}, ps.length = ms.length →
    ss.length = ms.length → ks.length = ms.length → (stages ms ps ss ks).length = ms.length
  | [], [], [], [], _, _, _ => rfl
  | m :: ms, p :: ps, s :: ss, k :: ks, h1, h2, h3 => by
    simp only [List.length_cons, Nat.add_right_cancel_iff] at h1 h2 h3
    simp [stages, stages_length h1 h2 h3]

theorem sameStruct_length {α β : Type} {t : Tree α} {u : Tree β} (h : sameStruct t u = true) :
    (flat u).length = (flat t).length := by
  rw [flat_length, flat_length, ← List.length_map (f := Prod.fst), ← List.length_map (as := entries t) (f := Prod.fst),
    sameStruct_entries _ _ h]

theorem jaxLeaves_length {α β : Type} {t : Tree α} {u : Tree β} (h : sameStruct t.norm u.norm = true) :
    u.jaxLeaves.length = t.jaxLeaves.length := sameStruct_length h

/-- A successful call, as one loop. -/
theorem seqCall_iff {sig : Sig M P S K A} {modules : Tree M} {params : Tree P} {data out : Tree A} {training : Bool}
    {state st' : Tree S} {rng : K} : seqCall sig modules params data training state rng = .ok (out, st') ↔
    sameStruct modules.norm params.norm = true ∧ sameStruct modules.norm state.norm = true ∧ ∃ ss,
      seqLoop sig training (stages modules.jaxLeaves params.jaxLeaves state.jaxLeaves
        (sig.splitN rng modules.jaxLeaves.length)) data [] = .ok (out, ss) ∧ unflat modules.norm ss = some (st', []) := by
  unfold seqCall
  constructor
  · intro h
    split at h
    · simp at h
    · next hs =>
      simp only [Bool.or_eq_true, Bool.not_eq_eq_eq_not, Bool.not_true, not_or, Bool.not_eq_false] at hs
      simp only at h
      split at h
      · simp at h
      · next o ss hl =>
        split at h
        · simp at h
        · next st hu =>
          simp only [Except.ok.injEq, Prod.mk.injEq] at h
          obtain ⟨rfl, rfl⟩ := h
          refine ⟨hs.1, hs.2, ss, hl, ?_⟩
          unfold unflatten at hu
          split at hu
          · next r hr => simp only [Except.ok.injEq] at hu; rw [hr, hu]
          · simp at hu
  · rintro ⟨h1, h2, ss, h3, h4⟩
    simp [h1, h2, h3, unflatten, h4]

end Verif.Forward

namespace Verif.Tree
variable {α β : Type}

mutual
/-- Values beyond those needed are passed on. -/
theorem unflat_frame : ∀ (t : Tree α) (xs ys : List β), (match unflat t xs with
    | some (r, zs) => unflat t (xs ++ ys) = some (r, zs ++ ys)
    | Option.none => True)
  | .leaf _, [], ys => by simp [unflat]
  | .leaf _, x :: xs, ys => by simp [unflat]
  | .none, xs, ys => by simp [unflat]
  | .list ts, xs, ys => by
    have h := unflatL_frame ts xs ys
    simp only [unflat]
    revert h
    cases unflatL ts xs <;> intro h <;> simp_all
  | .tuple ts, xs, ys => by
    have h := unflatL_frame ts xs ys
    simp only [unflat]
    revert h
    cases unflatL ts xs <;> intro h <;> simp_all
  | .dict ts, xs, ys => by
    have h := unflatD_frame ts xs ys
    simp only [unflat]
    revert h
    cases unflatD ts xs <;> intro h <;> simp_all
theorem unflatL_frame : ∀ (ts : List (Tree α)) (xs ys : List β), (match unflatL ts xs with
    | some (r, zs) => unflatL ts (xs ++ ys) = some (r, zs ++ ys)
    | Option.none => True)
  | [], xs, ys => by simp [unflatL]
  | t :: ts, xs, ys => by
    have h := unflat_frame t xs ys
    simp only [unflatL]
    revert h
    cases unflat t xs with
    | none => simp
    | some v =>
      obtain ⟨u, zs⟩ := v
      intro h
      simp only at h
      have h2 := unflatL_frame ts zs ys
      simp only [h]
      revert h2
      cases unflatL ts zs <;> intro h2 <;> simp_all
theorem unflatD_frame : ∀ (ts : List (Str × Tree α)) (xs ys : List β), (match unflatD ts xs with
    | some (r, zs) => unflatD ts (xs ++ ys) = some (r, zs ++ ys)
    | Option.none => True)
  | [], xs, ys => by simp [unflatD]
  | (k, t) :: ts, xs, ys => by
    have h := unflat_frame t xs ys
    simp only [unflatD]
    revert h
    cases unflat t xs with
    | none => simp
    | some v =>
      obtain ⟨u, zs⟩ := v
      intro h
      simp only at h
      have h2 := unflatD_frame ts zs ys
      simp only [h]
      revert h2
      cases unflatD ts zs <;> intro h2 <;> simp_all
end

end Verif.Tree

namespace Verif.Forward
open ForwardSpec Tree

variable {M P S K A : Type}

theorem seqCall_compose {sig : Sig M P S K A} (hk : ∀ k n, (sig.splitN k n).length = n)
    (hi : ∀ m p x t s k k', sig.call m p x t s k = sig.call m p x t s k') {mA mB : Tree M} {pA pB : Tree P}
    {x z : Tree A} {training : Bool} {sA sB st' : Tree S} {r r1 r2 : K} :
    seqCall sig (.list [mA, mB]) (.list [pA, pB]) x training (.list [sA, sB]) r = .ok (z, st') ↔
    ∃ y sA' sB', seqCall sig mA pA x training sA r1 = .ok (y, sA') ∧ seqCall sig mB pB y training sB r2 = .ok (z, sB') ∧
      st' = .list [sA', sB'] := by
  have jl : ∀ {α : Type} (a b : Tree α), (Tree.list [a, b]).jaxLeaves = a.jaxLeaves ++ b.jaxLeaves := by
    intro α a b; simp [jaxLeaves, norm, normL, flat, flatL]
  simp only [seqCall_iff, jl]
  have split2 : ∀ n m : Nat, ∃ ks ks' : List K, sig.splitN r (n + m) = ks ++ ks' ∧ ks.length = n ∧ ks'.length = m := by
    intro n m
    refine ⟨(sig.splitN r (n + m)).take n, (sig.splitN r (n + m)).drop n, by simp, ?_, ?_⟩ <;> simp [hk]
  obtain ⟨ks, ks', e, l1, l2⟩ := split2 mA.jaxLeaves.length mB.jaxLeaves.length
  rw [List.length_append, e]
  constructor
  · rintro ⟨h1, h2, ss, h3, h4⟩
    simp only [norm, normL, sameStruct, sameStructL, Bool.and_eq_true, and_true] at h1 h2
    obtain ⟨h1a, h1b⟩ := h1
    obtain ⟨h2a, h2b⟩ := h2
    rw [stages_append (jaxLeaves_length h1a) (jaxLeaves_length h2a) l1, seqLoop_append] at h3
    split at h3
    · simp at h3
    · next y accA hA =>
      rw [seqLoop_acc] at h3
      split at h3
      · simp at h3
      · next z' accB hB =>
        simp only [Except.ok.injEq, Prod.mk.injEq] at h3
        obtain ⟨rfl, rfl⟩ := h3
        have la := seqLoop_length sig training hA
        have lb := seqLoop_length sig training hB
        rw [stages_length (jaxLeaves_length h1a) (jaxLeaves_length h2a) l1, List.length_nil, Nat.zero_add] at la
        rw [stages_length (jaxLeaves_length h1b) (jaxLeaves_length h2b) l2, List.length_nil, Nat.zero_add] at lb
        obtain ⟨ra, hra⟩ := unflat_total mA.norm accA [] la
        obtain ⟨rb, hrb⟩ := unflat_total mB.norm accB [] lb
        obtain ⟨ra', hra'⟩ := unflat_total mA.norm accA accB la
        rw [List.append_nil] at hra hrb
        simp only [norm, normL, unflat, unflatL, hra', hrb, Option.some.injEq, Prod.mk.injEq, and_true] at h4
        refine ⟨y, ra, rb, ⟨h1a, h2a, accA, ?_, hra⟩, ⟨h1b, h2b, accB, ?_, hrb⟩, ?_⟩
        · rw [seqLoop_keys hi training x [] (hk _ _) l1]; exact hA
        · rw [seqLoop_keys hi training y [] (hk _ _) l2]; exact hB
        · rw [← h4]
          obtain ⟨q1, q2⟩ := unflat_spec _ _ _ _ hra
          obtain ⟨q3, q4⟩ := unflat_spec _ _ _ _ hra'
          have := unflat_frame mA.norm accA accB
          rw [hra] at this
          simp only at this
          rw [hra'] at this
          simp only [Option.some.injEq, Prod.mk.injEq, List.nil_append, and_true] at this
          rw [this]
  · rintro ⟨y, sA', sB', ⟨h1a, h2a, accA, hA, uA⟩, ⟨h1b, h2b, accB, hB, uB⟩, rfl⟩
    refine ⟨by simp [norm, normL, sameStruct, sameStructL, h1a, h1b], by simp [norm, normL, sameStruct, sameStructL, h2a, h2b],
      accA ++ accB, ?_, ?_⟩
    · rw [stages_append (jaxLeaves_length h1a) (jaxLeaves_length h2a) l1, seqLoop_append,
        ← seqLoop_keys hi training x [] (hk _ _) l1, hA]
      simp only
      rw [seqLoop_acc, ← seqLoop_keys hi training y [] (hk _ _) l2, hB]
    · have := unflat_frame mA.norm accA accB
      rw [uA] at this
      simp only [List.nil_append] at this
      simp [norm, normL, unflat, unflatL, this, uB]

/-- What the compilation loop does. -/
inductive CompChain (sig : Sig M P S K A) : List M → List M → Tree Shape → Tree Shape → Prop
  | nil (s) : CompChain sig [] [] s s
  | cons {m m' os l k s s' r} : sig.compile m k s = .ok m' → sig.outShape m' s = .ok s' → CompChain sig os l s' r →
      CompChain sig (m :: os) (m' :: l) s r

theorem seqCompileLoop_chain {sig : Sig M P S K A} : ∀ {os : List M} {k : K} {s : Tree Shape} {acc res : List M} {r : Tree Shape},
    seqCompileLoop sig os k s acc = .ok (res, r) → ∃ l, res = acc ++ l ∧ CompChain sig os l s r
  | [], k, s, acc, res, r, h => by
    simp only [seqCompileLoop, Except.ok.injEq, Prod.mk.injEq] at h
    obtain ⟨rfl, rfl⟩ := h
    exact ⟨[], by simp, .nil _⟩
  | m :: os, k, s, acc, res, r, h => by
    simp only [seqCompileLoop] at h
    split at h
    · simp at h
    · next m' hm' =>
      split at h
      · simp at h
      · next s' hs' =>
        obtain ⟨l, hl, hc⟩ := seqCompileLoop_chain h
        exact ⟨m' :: l, by rw [hl]; simp, .cons hm' hs' hc⟩

theorem checkShape_ok {s r : Tree Shape} (h : checkShape s = .ok r) : r = s := by
  unfold checkShape at h
  split at h
  · simp at h
  · split at h
    · simp at h
    · simp only [Except.ok.injEq] at h; exact h.symm

end Verif.Forward
