import Verif.Lemmas.Training
import Verif.Spec.Keys
import Verif.Lemmas.EditReady
import Verif.Lemmas.ModelTrain
import Verif.Lemmas.NonSeqShape

/-! Lemmas: independence of keys, trees after replacing a leaf. -/

namespace Verif.KeysSpec
open Verif Keys Forward Nested NestedSpec Tree

/-! ### Keys -/

theorem below_trans {a b c : Key} (h : Below a b) (g : Below b c) : Below a c := by
  induction g with
  | refl => exact h
  | child i _ ih => exact .child i ih

theorem below_linear {a b x : Key} (h : Below a x) (g : Below b x) : Below a b ∨ Below b a := by
  induction h with
  | refl => exact .inr g
  | @child y i hy ih =>
    cases g with
    | refl => exact .inl (.child i hy)
    | child _ g => exact ih g

theorem independent_symm {x y : Key} (h : Independent x y) : Independent y x := ⟨h.2, h.1⟩

theorem independent_below {k z x : Key} (h : Independent k z) (hx : Below k x) : Independent x z := by
  refine ⟨fun g => h.1 (below_trans hx g), fun g => ?_⟩
  rcases below_linear hx g with e | e
  · exact h.1 e
  · exact h.2 e

theorem independent_belows {a b x y : Key} (h : Independent a b) (hx : Below a x) (hy : Below b y) : Independent x y :=
  independent_symm (independent_below (independent_symm (independent_below h hx)) hy)

/-- The number of splits of a key. -/
def depth : Key → Nat
  | .seed _ => 0
  | .child k _ => depth k + 1

theorem below_depth {a b : Key} (h : Below a b) : depth a ≤ depth b := by
  induction h with
  | refl => exact Nat.le_refl _
  | child i _ ih => exact Nat.le_succ_of_le ih

theorem child_independent {k : Key} {i j : Nat} (h : i ≠ j) : Independent (.child k i) (.child k j) := by
  have aux : ∀ {i j : Nat}, i ≠ j → ¬ Below (.child k i) (.child k j) := by
    intro i j h g
    cases g with
    | refl => exact h rfl
    | child _ g => have := below_depth g; simp [depth] at this
  exact ⟨aux h, aux h.symm⟩

theorem below_child (k : Key) (i : Nat) : Below k (.child k i) := .child i .refl

theorem fresh_perm {l l' : List Key} (h : l.Perm l') (g : Fresh l) : Fresh l' := h.pairwise g fun h => independent_symm h

theorem fresh_perm_iff {l l' : List Key} (h : l.Perm l') : Fresh l ↔ Fresh l' := ⟨fresh_perm h, fresh_perm h.symm⟩

theorem fresh_append {l l' : List Key} : Fresh (l ++ l') ↔ Fresh l ∧ Fresh l' ∧ ∀ x ∈ l, ∀ y ∈ l', Independent x y :=
  List.pairwise_append

theorem fresh_singleton (k : Key) : Fresh [k] := List.pairwise_singleton _ _

theorem fresh_nil : Fresh [] := List.Pairwise.nil

/-- Keys below different children of one key, child by child. -/
theorem fresh_children {k : Key} {l : List (List Key)} : ∀ (i : Nat),
    (∀ (j : Nat) ks, l[j]? = some ks → Fresh ks ∧ ∀ x ∈ ks, Below (.child k (i + j)) x) →
    Fresh l.flatten ∧ ∀ x ∈ l.flatten, ∃ j, i ≤ j ∧ Below (.child k j) x := by
  induction l with
  | nil => intro i _; exact ⟨fresh_nil, by simp⟩
  | cons ks l ih =>
    intro i h
    obtain ⟨h1, h2⟩ := ih (i + 1) (fun j ks' hj => by
      have := h (j + 1) ks' (by simpa using hj)
      rw [show i + (j + 1) = i + 1 + j by omega] at this
      exact this)
    have h0 := h 0 ks (by simp)
    rw [Nat.add_zero] at h0
    rw [List.flatten_cons]
    refine ⟨fresh_append.2 ⟨h0.1, h1, fun x hx y hy => ?_⟩, fun x hx => ?_⟩
    · obtain ⟨j, hj, hy⟩ := h2 y hy
      exact independent_belows (child_independent (show i ≠ j by omega)) (h0.2 x hx) hy
    · rcases List.mem_append.1 hx with hx | hx
      · exact ⟨i, Nat.le_refl _, h0.2 x hx⟩
      · obtain ⟨j, hj, hb⟩ := h2 x hx; exact ⟨j, by omega, hb⟩

/-! ### Replacing a leaf -/

theorem flatL_set {β : Type} : ∀ (ts : List (Tree β)) (i : Nat) (c c' : Tree β), ts[i]? = some c →
    ∃ r, (flatL ts).Perm (flat c ++ r) ∧ (flatL (ts.set i c')).Perm (flat c' ++ r)
  | [], i, c, c', h => by simp at h
  | t :: ts, 0, c, c', h => by
    simp only [List.getElem?_cons_zero, Option.some.injEq] at h
    subst h
    exact ⟨flatL ts, .refl _, .refl _⟩
  | t :: ts, i + 1, c, c', h => by
    rw [List.getElem?_cons_succ] at h
    obtain ⟨r, h1, h2⟩ := flatL_set ts i c c' h
    have sw : ∀ u : Tree β, (flat t ++ (flat u ++ r)).Perm (flat u ++ (flat t ++ r)) := fun u => by
      rw [← List.append_assoc, ← List.append_assoc]
      exact List.perm_append_comm.append_right _
    refine ⟨flat t ++ r, ?_, ?_⟩
    · rw [flatL]; exact (h1.append_left _).trans (sw c)
    · rw [List.set_cons_succ, flatL]; exact (h2.append_left _).trans (sw c')

theorem flatD_set {β : Type} : ∀ (kvs : List (Str × Tree β)) (k : Str) (c c' : Tree β), kvs.lookup k = some c →
    ∃ r, (flatD kvs).Perm (flat c ++ r) ∧ (flatD (dictSet kvs k c')).Perm (flat c' ++ r)
  | [], k, c, c', h => by simp at h
  | (q, t) :: kvs, k, c, c', h => by
    by_cases e : q = k
    · subst e
      simp only [List.lookup_cons, beq_self_eq_true, Option.some.injEq] at h
      subst h
      refine ⟨flatD kvs, by rw [flatD], ?_⟩
      simp [dictSet, flatD]
    · have hb : (k == q) = false := by simpa using fun h => e h.symm
      simp only [List.lookup_cons, hb] at h
      obtain ⟨r, h1, h2⟩ := flatD_set kvs k c c' h
      have sw : ∀ u : Tree β, (flat t ++ (flat u ++ r)).Perm (flat u ++ (flat t ++ r)) := fun u => by
        rw [← List.append_assoc, ← List.append_assoc]
        exact List.perm_append_comm.append_right _
      refine ⟨flat t ++ r, ?_, ?_⟩
      · rw [flatD]; exact (h1.append_left _).trans (sw c)
      · rw [dictSet, if_neg e, flatD]; exact (h2.append_left _).trans (sw c')

theorem flat_putChild {β : Type} {t c c' : Tree β} {k : Str} (h : child t k = .ok c) :
    ∃ r, (flat t).Perm (flat c ++ r) ∧ (flat (putChild t k c')).Perm (flat c' ++ r) := by
  unfold child at h
  cases t with
  | leaf b => simp at h
  | none => simp at h
  | dict kvs =>
    cases hl : kvs.lookup k with
    | none => simp [hl] at h
    | some d =>
      simp only [hl, Except.ok.injEq] at h
      subst h
      simpa only [putChild, flat] using flatD_set kvs k d c' hl
  | list ts =>
    simp only at h
    split at h
    · cases h
    · cases hl : ts[toInt k]? with
      | none => simp [hl] at h
      | some d =>
        simp only [hl, Except.ok.injEq] at h
        subst h
        simpa only [putChild, flat] using flatL_set ts (toInt k) d c' hl
  | tuple ts =>
    simp only at h
    split at h
    · cases h
    · cases hl : ts[toInt k]? with
      | none => simp [hl] at h
      | some d =>
        simp only [hl, Except.ok.injEq] at h
        subst h
        simpa only [putChild, flat] using flatL_set ts (toInt k) d c' hl

/-- Replacing a leaf exchanges one module for another and keeps the rest. -/
theorem flat_set {β : Type} {b b' : β} : ∀ {p : List Str} {t t' : Tree β}, get t p = .ok (.leaf b) →
    Tree.set t p (.leaf b') = .ok t' → ∃ r, (flat t).Perm (b :: r) ∧ (flat t').Perm (b' :: r)
  | [], t, t', _, h => by simp [Tree.set, setPath] at h
  | [k], t, t', hg, h => by
    obtain ⟨hk, rfl, -⟩ := setPath_single h
    rw [get_cons _ _ _ (by simp [hk])] at hg
    cases hc : child t k with
    | error e => rw [hc] at hg; simp at hg
    | ok c =>
      rw [hc] at hg
      simp only [get_nil, Except.ok.injEq] at hg
      subst hg
      obtain ⟨r, h1, h2⟩ := flat_putChild (c' := .leaf b') hc
      exact ⟨r, by simpa [flat] using h1, by simpa [flat] using h2⟩
  | k :: k2 :: ks, t, t', hg, h => by
    obtain ⟨c, c', h1, h2, rfl, -⟩ := setPath_cons h
    rw [get_cons _ _ _ (by simp), h1] at hg
    obtain ⟨r, g1, g2⟩ := flat_set (p := k2 :: ks) hg h2
    obtain ⟨r', f1, f2⟩ := flat_putChild (c' := c') h1
    exact ⟨r ++ r', f1.trans (g1.append_right _), f2.trans (g2.append_right _)⟩

/-! ### Compiling -/

variable {M P S A : Type}

/-- One module of several is compiled with the second half of the key. -/
theorem own_step {compile : M → Key → Tree Shape → Except PyErr M} {d : M → List Key} (h : OwnKeys compile d) {k : Key} {m m' : M}
    {s : Tree Shape} (hc : compile m (.child k 1) s = .ok m') {O : List Key} (hf : Fresh (d m ++ O))
    (hk : ∀ x ∈ d m ++ O, Independent k x) :
    Fresh (d m' ++ O) ∧ (∀ x ∈ d m' ++ O, Independent (.child k 0) x) ∧ ∀ x ∈ d m' ++ O, x ∈ d m ++ O ∨ Below k x := by
  obtain ⟨f1, f2, f3⟩ := fresh_append.1 hf
  have hk1 : ∀ x ∈ d m ++ O, Independent (.child k 1) x := fun x hx => independent_below (hk x hx) (below_child k 1)
  obtain ⟨g1, g2⟩ := h m _ s m' hc f1 fun x hx => hk1 x (by simp [hx])
  refine ⟨fresh_append.2 ⟨g1, f2, fun x hx y hy => ?_⟩, fun x hx => ?_, fun x hx => ?_⟩
  · rcases g2 x hx with e | e
    · exact f3 x e y hy
    · exact independent_below (hk1 y (by simp [hy])) e
  · have old : ∀ x ∈ d m ++ O, Independent (.child k 0) x := fun x hx => independent_below (hk x hx) (below_child k 0)
    rcases List.mem_append.1 hx with hx | hx
    · rcases g2 x hx with e | e
      · exact old x (by simp [e])
      · exact independent_belows (child_independent (by decide)) .refl e
    · exact old x (by simp [hx])
  · rcases List.mem_append.1 hx with hx | hx
    · rcases g2 x hx with e | e
      · exact .inl (by simp [e])
      · exact .inr (below_trans (below_child k 1) e)
    · exact .inl (by simp [hx])

theorem seqCompileLoop_own {sig : Sig M P S Key A} {d : M → List Key} (h : OwnKeys sig.compile d) (hs : sig.split = Keys.split) :
    ∀ {ms : List M} {k : Key} {s : Tree Shape} {acc res : List M} {r : Tree Shape},
    seqCompileLoop sig ms k s acc = .ok (res, r) → Fresh ((acc ++ ms).flatMap d) → (∀ x ∈ (acc ++ ms).flatMap d, Independent k x) →
    Fresh (res.flatMap d) ∧ ∀ x ∈ res.flatMap d, x ∈ (acc ++ ms).flatMap d ∨ Below k x
  | [], k, s, acc, res, r, hl, hf, hk => by
    simp only [seqCompileLoop, Except.ok.injEq, Prod.mk.injEq] at hl
    obtain ⟨rfl, rfl⟩ := hl
    rw [List.append_nil] at hf hk ⊢
    exact ⟨hf, fun x hx => .inl hx⟩
  | m :: ms, k, s, acc, res, r, hl, hf, hk => by
    simp only [seqCompileLoop, hs, Keys.split] at hl
    split at hl
    · simp at hl
    · next m' hm' =>
      split at hl
      · simp at hl
      · next s' hs' =>
        have pm : ∀ m : M, ((acc ++ m :: ms).flatMap d).Perm (d m ++ (acc ++ ms).flatMap d) := fun m => by
          simp only [List.flatMap_append, List.flatMap_cons]
          rw [← List.append_assoc, ← List.append_assoc]
          exact List.perm_append_comm.append_right _
        obtain ⟨a1, a2, a3⟩ := own_step h hm' (fresh_perm (pm m) hf) fun x hx => hk x ((pm m).mem_iff.2 hx)
        have e : acc ++ [m'] ++ ms = acc ++ m' :: ms := by simp
        obtain ⟨b1, b2⟩ := seqCompileLoop_own h hs hl (by rw [e]; exact fresh_perm (pm m').symm a1)
          (fun x hx => by rw [e] at hx; exact a2 x ((pm m').mem_iff.1 hx))
        refine ⟨b1, fun x hx => ?_⟩
        rcases b2 x hx with g | g
        · rw [e] at g
          rcases a3 x ((pm m').mem_iff.1 g) with g | g
          · exact .inl ((pm m).mem_iff.2 g)
          · exact .inr g
        · exact .inr (below_trans (below_child k 0) g)

/-- The keys used in a tree of modules. -/
def drawnTree (d : M → List Key) (t : Tree M) : List Key := t.jaxLeaves.flatMap d

theorem drawnTree_perm (d : M → List Key) {t : Tree M} {l : List M} (h : (flat t).Perm l) : (drawnTree d t).Perm (l.flatMap d) :=
  ((Edit.jaxLeaves_perm t).trans h).flatMap_right d

theorem leafAt_get {β : Type} {sep : Char} {t : Tree β} {path : Str} {b : β} (h : leafAt sep t path = .ok b) :
    get t (splitOn sep path) = .ok (.leaf b) := by
  unfold leafAt at h
  cases hg : get t (splitOn sep path) with
  | error e => rw [hg] at h; simp at h
  | ok c =>
    rw [hg] at h
    cases c <;> simp at h
    rw [h]

theorem nsCompileLoop_own {sig : Sig M P S Key A} {d : M → List Key} (h : OwnKeys sig.compile d) (hs : sig.split = Keys.split)
    {sep : Char} {ins : Tree Shape} : ∀ {ps : List Str} {k : Key} {t t' : Tree M},
    nsCompileLoop sig sep ins ps k t = .ok t' → Fresh (drawnTree d t) → (∀ x ∈ drawnTree d t, Independent k x) →
    Fresh (drawnTree d t') ∧ ∀ x ∈ drawnTree d t', x ∈ drawnTree d t ∨ Below k x
  | [], k, t, t', hl, hf, hk => by
    simp only [nsCompileLoop, Except.ok.injEq] at hl
    subst hl
    exact ⟨hf, fun x hx => .inl hx⟩
  | p :: ps, k, t, t', hl, hf, hk => by
    rw [nsCompileLoop.eq_def] at hl
    simp only [hs, Keys.split] at hl
    split at hl
    · exact nsCompileLoop_own h hs hl hf hk
    · split at hl
      · simp at hl
      · next m hm =>
        split at hl
        · simp at hl
        · next s hgs =>
          split at hl
          · simp at hl
          · next m' hm' =>
            split at hl
            · simp at hl
            · next t1 hset =>
              obtain ⟨r, p1, p2⟩ := flat_set (leafAt_get hm) hset
              have q1 := drawnTree_perm d p1
              have q2 := drawnTree_perm d p2
              rw [List.flatMap_cons] at q1 q2
              obtain ⟨a1, a2, a3⟩ := own_step h hm' (fresh_perm q1 hf) fun x hx => hk x (q1.mem_iff.2 hx)
              obtain ⟨b1, b2⟩ := nsCompileLoop_own h hs hl (fresh_perm q2.symm a1) fun x hx => a2 x (q2.mem_iff.1 hx)
              refine ⟨b1, fun x hx => ?_⟩
              rcases b2 x hx with g | g
              · rcases a3 x (q2.mem_iff.1 g) with g | g
                · exact .inl (q1.mem_iff.2 g)
                · exact .inr g
              · exact .inr (below_trans (below_child k 0) g)

/-- Models inherit the property from their modules. -/
theorem model_own (fresh : Str → Nat → Nat → Str) {sig : Sig M P S Key A} {d : M → List Key} (h : OwnKeys sig.compile d)
    (hs : sig.split = Keys.split) : OwnKeys (modelSig fresh sig).compile fun nm => drawnTree d nm.modules := by
  intro nm k s nm' hc hf hk
  obtain ⟨kind, modules⟩ := nm
  cases kind with
  | seq =>
    simp only [modelSig] at hc
    split at hc
    · simp at hc
    · next ms r hsc =>
      split at hc
      · simp at hc
      · next t ht =>
        simp only [Except.ok.injEq] at hc
        subst hc
        obtain ⟨-, hfl⟩ := unflatten_inv ht
        unfold seqCompile at hsc
        split at hsc
        · simp at hsc
        · next ms' r' hl =>
          split at hsc
          · simp at hsc
          · simp only [Except.ok.injEq, Prod.mk.injEq] at hsc
            obtain ⟨rfl, rfl⟩ := hsc
            have q := drawnTree_perm d (t := t) (l := ms') (by rw [hfl])
            obtain ⟨a1, a2⟩ := seqCompileLoop_own h hs hl (by simpa [drawnTree] using hf) (by simpa [drawnTree] using hk)
            refine ⟨fresh_perm q.symm a1, fun x hx => ?_⟩
            have := a2 x (q.mem_iff.1 hx)
            simpa [drawnTree] using this
  | nonseq sep conn =>
    simp only [modelSig] at hc
    split at hc
    · simp at hc
    · next t o r hns =>
      simp only [Except.ok.injEq] at hc
      subst hc
      unfold nsCompile at hns
      split at hns
      · simp at hns
      · split at hns
        · simp at hns
        · split at hns
          · simp at hns
          · split at hns
            · simp at hns
            · next ms hl =>
              simp only [Except.ok.injEq, Prod.mk.injEq] at hns
              obtain ⟨rfl, rfl, rfl⟩ := hns
              exact nsCompileLoop_own h hs hl hf hk

/-! ### The modules of the library -/

theorem draw_own (real : Bool) (k : Key) (s : Shape) : Fresh (draw real k s).keys ∧ ∀ x ∈ (draw real k s).keys, Below k x := by
  cases real
  · refine ⟨?_, ?_⟩
    · show Fresh [Key.child k 0, Key.child k 1]
      exact List.pairwise_pair.2 (child_independent (by decide))
    · intro x hx
      have : x = .child k 0 ∨ x = .child k 1 := by simpa [draw, Rand.keys, Keys.split] using hx
      rcases this with rfl | rfl <;> exact below_child _ _
  · refine ⟨fresh_singleton k, ?_⟩
    intro x hx
    have : x = k := by simpa [draw, Rand.keys] using hx
    subst this; exact .refl

theorem children_own {k : Key} {l : List (List Key)}
    (h : ∀ (j : Nat) ks, l[j]? = some ks → Fresh ks ∧ ∀ x ∈ ks, Below (.child k j) x) : Fresh l.flatten ∧ ∀ x ∈ l.flatten, Below k x := by
  obtain ⟨h1, h2⟩ := fresh_children (k := k) (l := l) 0 (by simpa using h)
  exact ⟨h1, fun x hx => let ⟨j, _, hj⟩ := h2 x hx; below_trans (below_child k j) hj⟩

theorem splitN_get {k : Key} {n j : Nat} {q : Key} (h : (Keys.splitN k n)[j]? = some q) : q = .child k j := by
  unfold Keys.splitN at h
  rw [List.getElem?_map, Option.map_eq_some_iff] at h
  obtain ⟨a, ha, rfl⟩ := h
  rw [List.getElem?_eq_some_iff] at ha
  obtain ⟨hlt, e⟩ := ha
  rw [List.getElem_range] at e
  rw [e]

theorem zip_own {γ : Type} {k : Key} {f : Key → γ → List Key} (h : ∀ q g, Fresh (f q g) ∧ ∀ x ∈ f q g, Below q x) (n : Nat) (l : List γ) :
    Fresh (List.zipWith f (Keys.splitN k n) l).flatten ∧ ∀ x ∈ (List.zipWith f (Keys.splitN k n) l).flatten, Below k x := by
  refine children_own fun j ks hj => ?_
  rw [List.getElem?_zipWith] at hj
  split at hj
  · next q g hq hg =>
    simp only [Option.some.injEq] at hj
    subst hj
    rw [splitN_get hq]
    exact h _ _
  · simp at hj

theorem flatMap_zipWith {β γ δ ε : Type} (f : β → γ → δ) (g : δ → List ε) (a : List β) (b : List γ) :
    (List.zipWith f a b).flatMap g = (List.zipWith (fun x y => g (f x y)) a b).flatten := by
  rw [List.flatMap_def, List.map_zipWith]

theorem drawTree_own {k : Key} {shapes : Tree (Shape × Bool)} {ps : Tree Rand} (h : drawTree k shapes = .ok ps) :
    Fresh (ps.jaxLeaves.flatMap Rand.keys) ∧ ∀ x ∈ ps.jaxLeaves.flatMap Rand.keys, Below k x := by
  unfold drawTree at h
  obtain ⟨-, hf⟩ := unflatten_inv h
  have q : (ps.jaxLeaves.flatMap Rand.keys).Perm _ := (Edit.jaxLeaves_perm ps).flatMap_right Rand.keys
  rw [hf, flatMap_zipWith] at q
  obtain ⟨a, b⟩ := zip_own (k := k) (f := fun q (x : Shape × Bool) => (draw x.2 q x.1).keys) (fun q x => draw_own _ _ _) shapes.jaxLeaves.length shapes.jaxLeaves
  exact ⟨fresh_perm q.symm a, fun x hx => b x (q.mem_iff.1 hx)⟩

theorem pairs_perm : ∀ (as bs : List Key) (shs : List Shape), as.length = shs.length → bs.length = shs.length →
    ((List.zipWith (fun (q : Key × Key) sh => Rand.cplx q.1 q.2 sh) (as.zip bs) shs).flatMap Rand.keys).Perm (as ++ bs)
  | [], [], [], _, _ => List.Perm.refl _
  | a :: as, b :: bs, sh :: shs, h1, h2 => by
    have ih := pairs_perm as bs shs (by simpa using h1) (by simpa using h2)
    simp only [List.zip_cons_cons, List.zipWith_cons_cons, List.flatMap_cons, Rand.keys, List.cons_append, List.nil_append]
    exact ((ih.cons b).trans List.perm_middle.symm).cons a
  | _ :: _, _, [], h1, _ => by simp at h1
  | _, _ :: _, [], _, h2 => by simp at h2
  | [], _, _ :: _, h1, _ => by simp at h1
  | _, [], _ :: _, _, h2 => by simp at h2

theorem splitN_own (k : Key) (n : Nat) : Fresh (Keys.splitN k n) ∧ ∀ x ∈ Keys.splitN k n, Below k x := by
  have := zip_own (k := k) (f := fun q (_ : Unit) => [q]) (fun q _ => ⟨fresh_singleton q, fun x hx => by
    rw [List.mem_singleton] at hx; subst hx; exact .refl⟩) n (List.replicate n ())
  have e : (List.zipWith (fun q (_ : Unit) => [q]) (Keys.splitN k n) (List.replicate n ())).flatten = Keys.splitN k n := by
    have : ∀ l : List Key, (List.zipWith (fun q (_ : Unit) => [q]) l (List.replicate l.length ())).flatten = l := by
      intro l
      induction l with
      | nil => rfl
      | cons a l ih => simp only [List.length_cons, List.replicate_succ, List.zipWith_cons_cons, List.flatten_cons, ih]; rfl
    have h := this (Keys.splitN k n)
    rwa [show (Keys.splitN k n).length = n by simp [Keys.splitN]] at h
  rwa [e] at this

theorem leaves_flatMap {γ : Type} (l : List Rand) (g : Rand → List γ) : (Tree.tuple (l.map .leaf)).jaxLeaves.flatMap g = l.flatMap g := by
  congr 1
  simp only [jaxLeaves, Tree.norm, flat]
  induction l with
  | nil => rfl
  | cons a l ih =>
    simp only [List.map_cons, normL, Tree.norm, flatL, flat]
    rw [ih]; rfl

theorem initial_own {c : Cls} {k : Key} {s : Tree Shape} {ps : Tree Rand} (h : Keys.initial c k s = .ok ps) :
    Fresh (ps.jaxLeaves.flatMap Rand.keys) ∧ ∀ x ∈ ps.jaxLeaves.flatMap Rand.keys, Below k x := by
  have one : ∀ r : Rand, (Tree.leaf r).jaxLeaves.flatMap Rand.keys = r.keys := fun r => by
    simp [jaxLeaves, Tree.norm, flat]
  have two : ∀ {a b : Key} {l : List Key}, l = [a, b] → Independent a b → Below k a → Below k b →
      Fresh l ∧ ∀ x ∈ l, Below k x := fun e h ha hb => by
    subst e
    exact ⟨List.pairwise_pair.2 h, fun x hx => by simp at hx; rcases hx with rfl | rfl <;> assumption⟩
  have pair : ∀ sh : Shape, Fresh (Rand.cplx (Keys.split k).1 (Keys.split k).2 sh).keys ∧
      ∀ x ∈ (Rand.cplx (Keys.split k).1 (Keys.split k).2 sh).keys, Below k x := fun sh =>
    two rfl (child_independent (by decide)) (below_child k 0) (below_child k 1)
  cases c with
  | bias real scalar =>
    simp only [Keys.initial] at h
    split at h
    · simp only [Except.ok.injEq] at h
      subst h; rw [one]; exact draw_own _ _ _
    · split at h
      · simp only [Except.ok.injEq] at h
        subst h; rw [one]; exact draw_own _ _ _
      · exact drawTree_own h
  | prelu real single =>
    simp only [Keys.initial] at h
    split at h
    · simp only [Except.ok.injEq] at h
      subst h
      have := leaves_flatMap [draw real k [1]] Rand.keys
      simp only [List.map_cons, List.map_nil] at this
      rw [this]
      simpa using draw_own real k [1]
    · exact drawTree_own h
  | constant shapes => exact drawTree_own h
  | einsum real leading =>
    simp only [Keys.initial] at h
    split at h
    · simp at h
    · simp only [Except.ok.injEq] at h
      subst h
      exact ⟨fresh_nil, by simp [jaxLeaves, Tree.norm, flat]⟩
    · next shs _ _ =>
      have key : ∀ l : List Rand, (Fresh (l.flatMap Rand.keys) ∧ ∀ x ∈ l.flatMap Rand.keys, Below k x) →
          (match l with | [a] => Except.ok (Tree.leaf a) | l => .ok (.tuple (l.map .leaf))) = (.ok ps : Except PyErr (Tree Rand)) →
          Fresh (ps.jaxLeaves.flatMap Rand.keys) ∧ ∀ x ∈ ps.jaxLeaves.flatMap Rand.keys, Below k x := by
        intro l hl he
        split at he
        · simp only [Except.ok.injEq] at he
          subst he; rw [one]; simpa using hl
        · simp only [Except.ok.injEq] at he
          subst he; rw [leaves_flatMap]; exact hl
      refine key _ ?_ h
      split
      · rw [flatMap_zipWith]
        exact zip_own (fun q _ => ⟨fresh_singleton q, fun x hx => by
          have : x = q := by simpa [Rand.keys] using hx
          subst this; exact .refl⟩) _ _
      · have q := pairs_perm (Keys.splitN (Keys.split k).1 shs.length) (Keys.splitN (Keys.split k).2 shs.length) shs
          (by simp [Keys.splitN]) (by simp [Keys.splitN])
        obtain ⟨a1, a2⟩ := splitN_own (Keys.split k).1 shs.length
        obtain ⟨b1, b2⟩ := splitN_own (Keys.split k).2 shs.length
        refine ⟨fresh_perm q.symm (fresh_append.2 ⟨a1, b1, fun x hx y hy =>
          independent_belows (child_independent (show (0:Nat) ≠ 1 by decide)) (a2 x hx) (b2 y hy)⟩), fun x hx => ?_⟩
        rcases List.mem_append.1 (q.mem_iff.1 hx) with g | g
        · exact below_trans (below_child k 0) (a2 x g)
        · exact below_trans (below_child k 1) (b2 x g)
  | affineTensor real b sh =>
    simp only [Keys.initial] at h
    split at h
    · simp at h
    · simp only [Except.ok.injEq] at h
      subst h
      rw [one]
      split
      · exact ⟨fresh_singleton _, fun x hx => by
          have : x = .child k 0 := by simpa [Rand.keys, Keys.split] using hx
          subst this; exact below_child _ _⟩
      · exact pair _
  | hermitian b n =>
    simp only [Keys.initial] at h
    split at h
    · simp at h
    · simp only [Except.ok.injEq] at h
      subst h; rw [one]; exact pair _
  | lowRank b n r =>
    simp only [Keys.initial] at h
    split at h
    · simp at h
    · next p _ =>
      simp only [Except.ok.injEq] at h
      subst h
      have := leaves_flatMap [Rand.cplx (.child k 0) (.child k 1) [if b = true then p + 1 else p, n, r], .real (.child k 2) [if b = true then p + 1 else p, r]] Rand.keys
      simp only [List.map_cons, List.map_nil] at this
      rw [this]
      have e : Keys.splitN k 3 = [.child k 0, .child k 1, .child k 2] := rfl
      have := splitN_own k 3
      rw [e] at this
      exact this
  | observables o l =>
    simp only [Keys.initial] at h
    split at h
    · simp at h
    · simp only [Except.ok.injEq] at h
      subst h; rw [one]; exact pair _
  | other =>
    simp only [Keys.initial, Except.ok.injEq] at h
    subst h
    exact ⟨fresh_nil, by simp [jaxLeaves, Tree.norm, flat]⟩

/-! ### Calling -/

theorem seqLoop_own {sig : Sig M P S Key A} {used : S → List Key} {training : Bool} {k : Key}
    : ∀ {sts : List (Stage M P S Key)} (_ : ∀ st ∈ sts, ∀ x s k y s', sig.call st.mod st.params x training s k = .ok (y, s') →
      Fresh (used s') ∧ ∀ q ∈ used s', Below k q) {x y : Tree A} {ss ss' : List S} {i : Nat},
    seqLoop sig training sts x ss = .ok (y, ss') → (∀ (j : Nat) st, sts[j]? = some st → st.key = .child k (i + j)) →
    ∃ l, ss' = ss ++ l ∧ ∀ (j : Nat) s', l[j]? = some s' → Fresh (used s') ∧ ∀ q ∈ used s', Below (.child k (i + j)) q
  | [], h, x, y, ss, ss', i, hl, hk => by
    simp only [seqLoop, Except.ok.injEq, Prod.mk.injEq] at hl
    exact ⟨[], by simp [hl.2], by simp⟩
  | st :: sts, h, x, y, ss, ss', i, hl, hk => by
    simp only [seqLoop] at hl
    split at hl
    · simp at hl
    · next y1 s1 hc =>
      obtain ⟨l, hl', hs⟩ := seqLoop_own (i := i + 1) (fun z hz => h z (by simp [hz])) hl fun j st' hj => by
        rw [hk (j + 1) st' (by simpa using hj)]; congr 1; omega
      refine ⟨s1 :: l, by rw [hl']; simp, fun j s' hj => ?_⟩
      cases j with
      | zero =>
        simp only [List.getElem?_cons_zero, Option.some.injEq] at hj
        subst hj
        have := h st (by simp) _ _ _ _ _ hc
        rwa [hk 0 st (by simp)] at this
      | succ j =>
        rw [List.getElem?_cons_succ] at hj
        have := hs j s' hj
        rwa [show i + 1 + j = i + (j + 1) by omega] at this

theorem stages_key : ∀ {ms : List M} {ps : List P} {ss : List S} {ks : List Key} {j : Nat} {st : Stage M P S Key},
    (stages ms ps ss ks)[j]? = some st → ks[j]? = some st.key ∧ st.mod ∈ ms
  | m :: ms, p :: ps, s :: ss, k :: ks, j, st, h => by
    simp only [stages] at h
    cases j with
    | zero =>
      simp only [List.getElem?_cons_zero, Option.some.injEq] at h
      subst h; simp
    | succ j =>
      rw [List.getElem?_cons_succ] at h
      obtain ⟨a, b⟩ := stages_key h
      exact ⟨by rw [List.getElem?_cons_succ]; exact a, by simp [b]⟩
  | [], _, _, _, _, _, h => by simp [stages] at h
  | _ :: _, [], _, _, _, _, h => by simp [stages] at h
  | _ :: _, _ :: _, [], _, _, _, h => by simp [stages] at h
  | _ :: _, _ :: _, _ :: _, [], _, _, h => by simp [stages] at h

variable {M' P' S' : Type}

/-- Modules of two sorts. -/
theorem sum_own {a : Sig M P S Key A} {b : Sig M' P' S' Key A} {d : M → List Key} {d' : M' → List Key} (h : OwnKeys a.compile d)
    (h' : OwnKeys b.compile d') : OwnKeys (sumSig a b).compile (Sum.elim d d') := by
  intro m k s m' hc hf hk
  cases m with
  | inl m =>
    simp only [sumSig] at hc
    split at hc
    · simp at hc
    · next m1 hm1 =>
      simp only [Except.ok.injEq] at hc
      subst hc
      exact h m k s m1 hm1 hf hk
  | inr m =>
    simp only [sumSig] at hc
    split at hc
    · simp at hc
    · next m1 hm1 =>
      simp only [Except.ok.injEq] at hc
      subst hc
      exact h' m k s m1 hm1 hf hk

/-- A call of a module of one of two sorts. -/
theorem sum_calls {a : Sig M P S Key A} {b : Sig M' P' S' Key A} {u : S → List Key} {u' : S' → List Key} {m : M ⊕ M'} {p : P ⊕ P'} {x : Tree A}
    {t : Bool} {s : S ⊕ S'} {k : Key} {y : Tree A} {s' : S ⊕ S'} (h : OwnCalls a.call u)
    (h' : ∀ m', m = .inr m' → ∀ p s y s', b.call m' p x t s k = .ok (y, s') → Fresh (u' s') ∧ ∀ q ∈ u' s', Below k q)
    (hc : (sumSig a b).call m p x t s k = .ok (y, s')) : Fresh (Sum.elim u u' s') ∧ ∀ q ∈ Sum.elim u u' s', Below k q := by
  cases m <;> cases p <;> cases s <;> simp only [sumSig] at hc
  case inl.inl.inl =>
    split at hc
    · simp at hc
    · next y1 s1 hs1 =>
      simp only [Except.ok.injEq, Prod.mk.injEq] at hc
      obtain ⟨rfl, rfl⟩ := hc
      exact h _ _ _ _ _ _ _ _ hs1
  case inr.inr.inr =>
    split at hc
    · simp at hc
    · next y1 s1 hs1 =>
      simp only [Except.ok.injEq, Prod.mk.injEq] at hc
      obtain ⟨rfl, rfl⟩ := hc
      exact h' _ rfl _ _ _ _ hs1
  all_goals simp at hc

/-- A call of a sequential model. -/
theorem seqCall_own {sig : Sig M P S Key A} {used : S → List Key} {modules : Tree M} {t : Bool} {p : Tree P} {x y : Tree A} {s s' : Tree S}
    {k : Key} (hs : sig.splitN = Keys.splitN)
    (h : ∀ m ∈ modules.jaxLeaves, ∀ p x s k y s', sig.call m p x t s k = .ok (y, s') → Fresh (used s') ∧ ∀ q ∈ used s', Below k q)
    (hc : seqCall sig modules p x t s k = .ok (y, s')) :
    Fresh (s'.jaxLeaves.flatMap used) ∧ ∀ q ∈ s'.jaxLeaves.flatMap used, Below k q := by
  unfold seqCall at hc
  rw [hs] at hc
  split at hc
  · simp at hc
  · simp only at hc
    split at hc
    · simp at hc
    · next y2 ss hl =>
      split at hc
      · simp at hc
      · next st hst =>
        simp only [Except.ok.injEq, Prod.mk.injEq] at hc
        obtain ⟨rfl, rfl⟩ := hc
        obtain ⟨-, hfl⟩ := unflatten_inv hst
        have q := (Edit.jaxLeaves_perm st).flatMap_right used
        rw [hfl] at q
        obtain ⟨l, e, hj⟩ := seqLoop_own (i := 0) (k := k) (used := used) (fun z hz => h z.mod (by
          obtain ⟨j, hj⟩ := List.mem_iff_getElem?.1 hz
          exact (stages_key hj).2) z.params) hl (fun j z hz => by
            rw [Nat.zero_add]; exact splitN_get (stages_key hz).1)
        rw [List.nil_append] at e
        subst e
        have := children_own (k := k) (l := ss.map used) fun j ks hks => by
          rw [List.getElem?_map, Option.map_eq_some_iff] at hks
          obtain ⟨z, hz, rfl⟩ := hks
          simpa using hj j z hz
        rw [← List.flatMap_def] at this
        exact ⟨fresh_perm q.symm this.1, fun x hx => this.2 x (q.mem_iff.1 hx)⟩

/-! ### Training -/

theorem keptKey_below (k : Key) : ∀ i, Below k (keptKey k i)
  | 0 => .refl
  | i + 1 => .child 0 (keptKey_below k i)

theorem keptKey_add (k : Key) (i : Nat) : ∀ d, keptKey k (i + d) = keptKey (keptKey k i) d
  | 0 => rfl
  | d + 1 => by rw [← Nat.add_assoc]; simp only [keptKey, keptKey_add k i d]

theorem usedKey_lt {k : Key} {i j : Nat} (h : i < j) : Independent (usedKey k i) (usedKey k j) := by
  obtain ⟨d, rfl⟩ := Nat.exists_eq_add_of_lt h
  refine independent_belows (child_independent (show (1 : Nat) ≠ 0 by decide)) (a := .child (keptKey k i) 1) (b := .child (keptKey k i) 0) .refl ?_
  unfold usedKey
  rw [show i + d + 1 = (i + 1) + d by omega, keptKey_add]
  exact .child 1 (keptKey_below _ d)

theorem usedKey_independent {k : Key} {i j : Nat} (h : i ≠ j) : Independent (usedKey k i) (usedKey k j) := by
  rcases Nat.lt_or_gt_of_ne h with g | g
  · exact usedKey_lt g
  · exact independent_symm (usedKey_lt g)

variable {α F : Type}

/-- What is known about the keys at any time of a training run: those used so far are independent of each other and of the key that is
left. -/
def KeyInv (used : S → List Key) (rng : Key) (i : Train.Inner P S Key) : Prop :=
  Fresh (used i.mstate) ∧ (∀ x ∈ used i.mstate, Independent i.mrng x ∧ Below rng x) ∧ Below rng i.mrng

theorem steps_keys {c : Train.Cfg α P S Key F} {used : S → List Key} (hs : c.split = Keys.split)
    (hg : ∀ e b s k ps, ∃ l, used (c.grad e b s k ps).2 = used s ++ l ∧ Fresh l ∧ ∀ x ∈ l, Below k x) {epoch : Nat} {rng : Key}
    {bs : List (Train.Data α)} {i i' : Train.Inner P S Key} (h : TrainSpec.Steps c epoch bs i i') (hi : KeyInv used rng i) : KeyInv used rng i' := by
  induction h with
  | nil => exact hi
  | @cons b bs i adam i' ha hr ih =>
    refine ih ?_
    obtain ⟨h1, h2, h3⟩ := hi
    obtain ⟨l, e, l1, l2⟩ := hg epoch b i.mstate (c.split i.mrng).2 (i.adam.map (·.params))
    rw [hs] at e l2
    refine ⟨?_, ?_, ?_⟩
    · show Fresh (used (c.grad epoch b i.mstate (c.split i.mrng).2 _).2)
      rw [hs, e]
      exact fresh_append.2 ⟨h1, l1, fun x hx y hy => independent_symm (independent_below (h2 x hx).1 (below_trans (below_child _ 1) (l2 y hy)))⟩
    · intro x hx
      replace hx : x ∈ used (c.grad epoch b i.mstate (c.split i.mrng).2 (i.adam.map (·.params))).2 := hx
      rw [hs, e] at hx
      show Independent (c.split i.mrng).1 x ∧ _
      rw [hs]
      rcases List.mem_append.1 hx with g | g
      · exact ⟨independent_below (h2 x g).1 (below_child _ 0), (h2 x g).2⟩
      · exact ⟨independent_belows (child_independent (by decide)) .refl (l2 x g), below_trans h3 (below_trans (below_child _ 1) (l2 x g))⟩
    · show Below rng (c.split i.mrng).1
      rw [hs]
      exact below_trans h3 (below_child _ 0)

theorem history_keys {c : Train.Cfg α P S Key F} {used : S → List Key} (hs : c.split = Keys.split)
    (hg : ∀ e b s k ps, ∃ l, used (c.grad e b s k ps).2 = used s ++ l ∧ Fresh l ∧ ∀ x ∈ l, Below k x) {rng : Key}
    {s t : Train.TState P S Key F} {l : List (Train.Snap P S Key F)} (h : TrainSpec.History c s l t) (hi : KeyInv used rng s.inner) :
    KeyInv used rng t.inner := by
  induction h with
  | stop => exact hi
  | epoch _ htr hfin _ ih =>
    refine ih ?_
    obtain ⟨bs, _, hst, _⟩ := Train.epochTrain_inv htr
    have := steps_keys hs hg hst hi
    rw [(Train.epochFinish_inv hfin).2]
    exact this

theorem loop_kept {c : Train.Cfg α P S Key F} (hs : c.split = Keys.split) (hcb : ∀ k e ps, (c.callback k e ps).1 = k) {b : Key} :
    ∀ {n : Nat} {s t : Train.TState P S Key F}, Train.loop c n s = .ok t → s.batchRng = keptKey b (2 * s.epoch) →
    t.batchRng = keptKey b (2 * t.epoch)
  | 0, s, t, h, hb => by cases h; exact hb
  | n + 1, s, t, h, hb => by
    unfold Train.loop at h
    split at h
    · simp only [Train.epochBody, Bind.bind, Except.bind] at h
      split at h
      · cases h
      · rename_i s' hs'
        split at hs'
        · cases hs'
        · rename_i r hr
          obtain ⟨k, snap⟩ := r
          simp only at hs'
          refine loop_kept hs hcb h ?_
          obtain ⟨_, _, _, _, _, hk⟩ := Train.epochTrain_inv hr
          rw [(Train.epochFinish_inv hs').2]
          simp only [hcb, hk, hs, Keys.split, hb]
          rw [show 2 * (s.epoch + 1) = 2 * s.epoch + 1 + 1 by omega]
          rfl
    · cases h; exact hb

end Verif.KeysSpec
