import Verif.Spec.Nested
import Verif.Lemmas.SeqCompose
import Verif.Lemmas.ModelTrain
import Verif.Lemmas.ModelFile
import Verif.Lemmas.Samplewise
import Verif.Props.BatchArr

namespace Verif.NestedSpec
open Nested Forward ForwardSpec Tree Samplewise

variable {M P S K A : Type}

theorem mem_flatL {a : A} : ∀ {ts : List (Tree A)} {c : Tree A}, c ∈ ts → a ∈ flat c → a ∈ flatL ts
  | _ :: _, _, .head _, h => by simp [flatL, h]
  | _ :: _, _, .tail _ h', h => by simp [flatL, mem_flatL h' h]

theorem mem_flatD {a : A} {k : Str} : ∀ {ts : List (Str × Tree A)} {c : Tree A}, ts.lookup k = some c → a ∈ flat c → a ∈ flatD ts
  | (k', t) :: ts, c, h', h => by
    rw [List.lookup_cons] at h'
    simp only [flatD, List.mem_append]
    split at h'
    · cases h'; exact .inl h
    · exact .inr (mem_flatD h' h)

theorem get_leaf_mem {a : A} : ∀ {p : List Str} {t : Tree A}, Tree.get t p = .ok (.leaf a) → a ∈ flat t
  | [], t, h => by
    rw [get_nil] at h
    cases h
    simp [flat]
  | k :: ks, t, h => by
    by_cases hk : k = [] ∧ ks = []
    · obtain ⟨rfl, rfl⟩ := hk
      rw [get_empty] at h
      cases h
      simp [flat]
    · rw [get_cons _ _ _ hk] at h
      cases hc : child t k with
      | error e => rw [hc] at h; cases h
      | ok c =>
        rw [hc] at h
        have ih := get_leaf_mem h
        unfold child at hc
        cases t with
        | dict kvs =>
          simp only at hc
          split at hc
          · next hl => cases hc; rw [flat]; exact mem_flatD hl ih
          · cases hc
        | list ts =>
          simp only at hc
          split at hc
          · cases hc
          · split at hc
            · next hl => cases hc; rw [flat]; exact mem_flatL (List.mem_of_getElem? hl) ih
            · cases hc
        | tuple ts =>
          simp only at hc
          split at hc
          · cases hc
          · split at hc
            · next hl => cases hc; rw [flat]; exact mem_flatL (List.mem_of_getElem? hl) ih
            · cases hc
        | leaf _ => cases hc
        | none => cases hc

theorem splitN_at (fresh : Str → Nat → Nat → Str) (sig : Sig M P S K A) : ∀ n, (sigAt fresh sig n).splitN = sig.splitN
  | 0 => rfl
  | _ + 1 => rfl

theorem call_inl (fresh : Str → Nat → Nat → Str) (sig : Sig M P S K A) (n : Nat) (m : M) (p : P) (s : S) (x : Tree A) (training : Bool) (k : K) :
    (sigAt fresh sig (n + 1)).call (.inl m) (.inl p) x training (.inl s) k = match sig.call m p x training s k with
      | .error e => .error e
      | .ok (y, s') => .ok (y, .inl s') := rfl

theorem call_inr (fresh : Str → Nat → Nat → Str) (sig : Sig M P S K A) (n : Nat) (m : NModel (ModAt M n)) (p : Tree (ValAt P n)) (s : Tree (ValAt S n)) (x : Tree A) (training : Bool)
    (k : K) : (sigAt fresh sig (n + 1)).call (.inr m) (.inr p) x training (.inr s) k = match (modelSig fresh (sigAt fresh sig n)).call m p x training s k with
      | .error e => .error e
      | .ok (y, s') => .ok (y, .inr s') := by
  rw [sigAt]
  simp only [sumSig]
  cases (modelSig fresh (sigAt fresh sig n)).call m p x training s k <;> rfl

/-! ### States -/

theorem seqLoop_state' {sig : Sig M P S K A} {training : Bool} :
    ∀ {st : List (Stage M P S K)} {x y : Tree A} {ss ss' : List S},
    (∀ a ∈ st, ∀ x y s', sig.call a.mod a.params x training a.state a.key = .ok (y, s') → s' = a.state) →
    seqLoop sig training st x ss = .ok (y, ss') → ss' = ss ++ st.map (·.state)
  | [], x, y, ss, ss', _, e => by cases e; simp
  | st :: rest, x, y, ss, ss', h, e => by
    rw [seqLoop] at e
    split at e
    · cases e
    · next y' s' e' =>
      rw [seqLoop_state' (fun a ha => h a (by simp [ha])) e, h st (by simp) _ _ _ e']
      simp

theorem stages_state_mem {st : Stage M P S K} : ∀ {ms : List M} {ps : List P} {ss : List S} {ks : List K}, st ∈ stages ms ps ss ks → st.state ∈ ss
  | [], _, _, _, h => by simp [stages] at h
  | m :: ms, [], _, _, h => by simp [stages] at h
  | m :: ms, _ :: _, [], _, h => by simp [stages] at h
  | m :: ms, _ :: _, _ :: _, [], h => by simp [stages] at h
  | m :: ms, p :: ps, s :: ss, k :: ks, h => by
    simp only [stages, List.mem_cons] at h
    rcases h with rfl | h
    · simp
    · exact .tail _ (stages_state_mem h)

theorem seqCall_state' {sig : Sig M P S K A} (hsplit : ∀ k n, (sig.splitN k n).length = n) {modules : Tree M} {params : Tree P} {d out : Tree A} {training : Bool}
    {state st : Tree S} {rng : K} (h : ∀ s ∈ flat state, ∀ m p x k y s', sig.call m p x training s k = .ok (y, s') → s' = s) (hst : state.norm = state)
    (e : seqCall sig modules params d training state rng = .ok (out, st)) : st = state := by
  unfold seqCall at e
  split at e
  · cases e
  · next hstr =>
    simp only [Bool.or_eq_true, Bool.not_eq_true', not_or, Bool.not_eq_false] at hstr
    simp only at e
    split at e
    · cases e
    · next o ss hl =>
      split at e
      · cases e
      · next st' hu =>
        cases e
        have e1 := seqLoop_state' (fun a ha x y s' => h a.state (mem_flat_norm.1 (stages_state_mem (ss := state.jaxLeaves) ha)) a.mod a.params x a.key y s') hl
        have e2 := Props.stages_states (ms := modules.jaxLeaves) (ps := params.jaxLeaves) (ss := state.jaxLeaves) (ks := sig.splitN rng modules.jaxLeaves.length)
          (jaxLeaves_length hstr.1) (jaxLeaves_length hstr.2) (hsplit _ _)
        rw [List.nil_append, e2] at e1
        subst e1
        have := Props.unflat_flat modules.norm state.norm [] hstr.2
        unfold unflatten at hu
        rw [List.append_nil] at this
        rw [show state.jaxLeaves = flat state.norm from rfl, this] at hu
        cases hu
        exact hst

theorem nsLoop_state' {sig : Sig M P S K A} {sep : Char} {params : Tree P} {training : Bool} {rng : K} {st : Tree S}
    (h : ∀ s ∈ flat st, ∀ m p x k y s', sig.call m p x training s k = .ok (y, s') → s' = s) : ∀ {L : List (Str × Option M × Tree Str)} {outs outs' : Tree A} {st' : Tree S},
    nsLoop sep (callStep sig sep params training rng) L outs st = .ok (outs', st') → st' = st
  | [], outs, outs', st', e => by cases e; rfl
  | (path, m, req) :: rest, outs, outs', st', e => by
    unfold nsLoop at e
    split at e
    · exact nsLoop_state' h e
    · split at e
      · cases e
      · split at e
        · cases e
        · split at e
          · cases e
          · next out st'' hc =>
            have : st'' = st := by
              unfold callStep at hc
              split at hc
              · cases hc
              · split at hc
                · cases hc
                · next s hs =>
                  have hg : ∃ q, Tree.get st q = .ok (.leaf s) := by
                    unfold leafAt at hs
                    split at hs
                    · cases hs
                    · next hg => cases hs; exact ⟨_, hg⟩
                    · cases hs
                  obtain ⟨q, hg⟩ := hg
                  split at hc
                  · cases hc
                  · next o s' hcall =>
                    split at hc
                    · cases hc
                    · next state' hset =>
                      cases hc
                      rw [h _ (get_leaf_mem hg) _ _ _ _ _ _ hcall] at hset
                      refine set_self ?_ hset
                      unfold leafAt at hs
                      split at hs
                      · cases hs
                      · next hg => cases hs; exact hg
                      · cases hs
            subst this
            split at e
            · cases e
            · exact nsLoop_state' h e

theorem nsCall_state' {sig : Sig M P S K A} {sep : Char} {fresh : Str → Nat → Nat → Str} {modules : Tree M} {conn : List (Str × List Str)} {params : Tree P}
    {d out : Tree A} {training : Bool} {state st : Tree S} {rng : K} (h : ∀ s ∈ flat state, ∀ m p x k y s', sig.call m p x training s k = .ok (y, s') → s' = s)
    (e : nsCall sig sep fresh modules conn params d training state rng = .ok (out, st)) : st = state := by
  unfold nsCall at e
  split at e
  · cases e
  · next o outs st' hr =>
    cases e
    unfold nsRun at hr
    repeat' (split at hr; · cases hr)
    cases hr
    exact nsLoop_state' h (by assumption)

/-! ### Flattening -/

theorem flatMap_length {B C X Y : Type} (f : B → List X) (g : C → List Y) : ∀ {bs : List B} {cs : List C}, cs.length = bs.length →
    (∀ (i : Nat) b c, bs[i]? = some b → cs[i]? = some c → (g c).length = (f b).length) → (cs.flatMap g).length = (bs.flatMap f).length
  | [], [], _, _ => rfl
  | b :: bs, c :: cs, hl, h => by
    simp only [List.flatMap_cons, List.length_append]
    rw [h 0 b c rfl rfl, flatMap_length f g (by simpa using hl) fun i b c h1 h2 => h (i + 1) b c h1 h2]

theorem fits_length : ∀ n {m : ModAt M n} {p : ValAt P n} {s : ValAt S n}, Fits n m p s → (vals n p).length = (mods n m).length ∧ (vals n s).length = (mods n m).length
  | 0, _, _, _, _ => ⟨rfl, rfl⟩
  | n + 1, m, p, s, h => by
    cases m with
    | inl m =>
      cases p with
      | inl p => cases s with
        | inl s => exact ⟨rfl, rfl⟩
        | inr s => exact h.elim
      | inr p => cases s <;> exact h.elim
    | inr m =>
      cases p with
      | inl p => cases s <;> exact h.elim
      | inr p => cases s with
        | inl s => exact h.elim
        | inr s =>
          obtain ⟨-, -, h1, h2, h3⟩ := h
          have l1 := jaxLeaves_length h1
          have l2 := jaxLeaves_length h2
          constructor
          · refine flatMap_length _ _ l1 fun i b c hb hc => ?_
            have hi : i < s.jaxLeaves.length := by
              rw [l2]; exact (List.getElem?_eq_some_iff.1 hb).1
            exact (fits_length n (h3 i b c _ hb hc (List.getElem?_eq_getElem hi))).1
          · refine flatMap_length _ _ l2 fun i b c hb hc => ?_
            have hi : i < p.jaxLeaves.length := by
              rw [l1]; exact (List.getElem?_eq_some_iff.1 hb).1
            exact (fits_length n (h3 i b _ c hb (List.getElem?_eq_getElem hi) hc)).2

/-- What a nested call and the flat loop have to do with each other. -/
def Same (n : Nat) (m : ModAt M n) (p : ValAt P n) (r : Tree A × ValAt S n) (r' : Tree A × List S) : Prop := r.1 = r'.1 ∧ vals n r.2 = r'.2 ∧ Fits n m p r.2

theorem loop_flat {sig : Sig M P S K A} {training : Bool} (fresh : Str → Nat → Nat → Str) (n : Nat)
    (hcall : ∀ m p s, Fits n m p s → ∀ x k ks, ks.length = (mods n m).length →
      Agree (Same n m p) ((sigAt fresh sig n).call m p x training s k) (seqLoop sig training (stages (mods n m) (vals n p) (vals n s) ks) x [])) :
    ∀ {ms : List (ModAt M n)} {ps : List (ValAt P n)} {ss : List (ValAt S n)} {ks : List K} {ks' : List K} (x : Tree A), ps.length = ms.length → ss.length = ms.length →
      ks.length = ms.length → ks'.length = (ms.flatMap (mods n)).length →
      (∀ (i : Nat) m p s, ms[i]? = some m → ps[i]? = some p → ss[i]? = some s → Fits n m p s) →
      Agree (fun r r' => r.1 = r'.1 ∧ r.2.flatMap (vals n) = r'.2 ∧ r.2.length = ms.length ∧
          ∀ (i : Nat) m p s, ms[i]? = some m → ps[i]? = some p → r.2[i]? = some s → Fits n m p s)
        (seqLoop (sigAt fresh sig n) training (stages ms ps ss ks) x [])
        (seqLoop sig training (stages (ms.flatMap (mods n)) (ps.flatMap (vals n)) (ss.flatMap (vals n)) ks') x [])
  | [], [], [], [], ks', x, _, _, _, _, _ => by
    refine ⟨rfl, rfl, rfl, fun i m p s h => by simp at h⟩
  | m :: ms, p :: ps, s :: ss, k :: ks, ks', x, h1, h2, h3, h4, hf => by
    have hfit := hf 0 m p s rfl rfl rfl
    have hlen := fits_length n hfit
    simp only [List.flatMap_cons, List.length_append] at h4 ⊢
    have hk' : ks' = ks'.take (mods n m).length ++ ks'.drop (mods n m).length := (List.take_append_drop _ _).symm
    have ht : (ks'.take (mods n m).length).length = (mods n m).length := by rw [List.length_take]; omega
    rw [hk', stages_append hlen.1 hlen.2 ht, seqLoop_append, stages, seqLoop]
    rcases agree_cases (hcall m p s hfit x k _ ht) with ⟨e, e1, e2⟩ | ⟨⟨y, s'⟩, ⟨y', l⟩, e1, e2, hy, hl, hf'⟩
    · rw [e1, e2]; rfl
    · simp only at hy hl hf'
      subst hy hl
      rw [e1, e2]
      simp only [List.nil_append]
      rw [seqLoop_acc _ _ _ _ [s'], seqLoop_acc _ _ _ _ (vals n s')]
      rcases agree_cases (loop_flat fresh n hcall (ms := ms) (ps := ps) (ss := ss) (ks := ks) (ks' := ks'.drop (mods n m).length) y (by simpa using h1) (by simpa using h2) (by simpa using h3)
        (by rw [List.length_drop]; omega) fun i m p s a b c => hf (i + 1) m p s a b c) with ⟨e, f1, f2⟩ | ⟨⟨z, t⟩, ⟨z', l'⟩, f1, f2, hz, hl', hn, hfs⟩
      · rw [f1, f2]; rfl
      · simp only at hz hl' hn hfs
        subst hz hl'
        rw [f1, f2]
        refine ⟨rfl, by simp, by simp [hn], fun i m' p' s'' a b c => ?_⟩
        cases i with
        | zero =>
          simp only [List.getElem?_cons_zero, Option.some.injEq, List.singleton_append] at a b c
          subst a b c
          exact hf'
        | succ i =>
          simp only [List.getElem?_cons_succ, List.singleton_append] at a b c
          exact hfs i m' p' s'' a b c

theorem call_flat {sig : Sig M P S K A} {training : Bool} (fresh : Str → Nat → Nat → Str) (hi : ∀ m p x t s k k', sig.call m p x t s k = sig.call m p x t s k')
    (hk : ∀ k n, (sig.splitN k n).length = n) : ∀ (n : Nat) (m : ModAt M n) (p : ValAt P n) (s : ValAt S n), Fits n m p s → ∀ (x : Tree A) (k : K) (ks : List K),
      ks.length = (mods n m).length →
      Agree (Same n m p) ((sigAt fresh sig n).call m p x training s k) (seqLoop sig training (stages (mods n m) (vals n p) (vals n s) ks) x []) := by
  intro n
  induction n with
  | zero =>
    intro m p s _ x k ks hks
    obtain ⟨k', rfl⟩ := List.length_eq_one_iff.1 hks
    show Agree _ (sig.call m p x training s k) (match sig.call m p x training s k' with | .error e => .error e | .ok (y, s') => .ok (y, [] ++ [s']))
    rw [hi m p x training s k k']
    cases sig.call m p x training s k' with
    | error e => rfl
    | ok r => exact ⟨rfl, rfl, trivial⟩
  | succ n ih =>
    intro m p s h x k ks hks
    cases m with
    | inl m =>
      cases p with
      | inl p => cases s with
        | inl s =>
          obtain ⟨k', rfl⟩ := List.length_eq_one_iff.1 hks
          rw [call_inl]
          show Agree _ _ (match sig.call m p x training s k' with | .error e => .error e | .ok (y, s') => .ok (y, [] ++ [s']))
          rw [hi m p x training s k k']
          cases sig.call m p x training s k' with
          | error e => rfl
          | ok r => exact ⟨rfl, rfl, trivial⟩
        | inr s => exact h.elim
      | inr p => cases s <;> exact h.elim
    | inr nm =>
      cases p with
      | inl p => cases s <;> exact h.elim
      | inr p => cases s with
        | inl s => exact h.elim
        | inr s =>
          obtain ⟨h0, hko, h1, h2, h3⟩ := h
          have l1 := jaxLeaves_length h1
          have l2 := jaxLeaves_length h2
          have key := loop_flat (sig := sig) (training := training) fresh n ih (ms := nm.modules.jaxLeaves) (ps := p.jaxLeaves) (ss := s.jaxLeaves)
            (ks := (sigAt fresh sig n).splitN k nm.modules.jaxLeaves.length) (ks' := ks) x l1 l2 (by rw [splitN_at, hk]) hks h3
          have hc : (sigAt fresh sig (n + 1)).call (.inr nm) (.inr p) x training (.inr s) k =
              match seqCall (sigAt fresh sig n) nm.modules p x training s k with | .error e => .error e | .ok (y, s') => .ok (y, .inr s') := by
            rw [call_inr]
            simp only [modelSig, h0]
          rw [hc]
          unfold seqCall
          rw [if_neg (by simp [h1, h2])]
          simp only
          rcases agree_cases key with ⟨e, e1, e2⟩ | ⟨⟨y, t⟩, ⟨y', l⟩, e1, e2, hy, hl, hn, hf⟩
          · rw [e1]
            show Agree _ (.error e) (seqLoop sig training (stages (nm.modules.jaxLeaves.flatMap (mods n)) (p.jaxLeaves.flatMap (vals n)) (s.jaxLeaves.flatMap (vals n)) ks) x [])
            rw [e2]; rfl
          · simp only at hy hl hn hf
            subst hy hl
            obtain ⟨r, hr⟩ := unflatten_ok (t := nm.modules) (xs := t) hn
            have hri := unflatten_inv hr
            have hso : Sorted r := (sorted_map (fun _ => ()) r).1 (hri.1 ▸ (sorted_map _ _).2 (sorted_norm _ hko))
            have hrn := norm_of_sorted _ hso
            rw [e1]
            simp only [hr]
            show Agree _ (.ok (y, Sum.inr r)) (seqLoop sig training (stages (nm.modules.jaxLeaves.flatMap (mods n)) (p.jaxLeaves.flatMap (vals n)) (s.jaxLeaves.flatMap (vals n)) ks) x [])
            rw [e2]
            have hj : r.jaxLeaves = t := by rw [jaxLeaves, hrn, hri.2]
            refine ⟨rfl, ?_, h0, hko, h1, ?_, ?_⟩
            · show r.jaxLeaves.flatMap (vals n) = _
              rw [hj]
            · rw [hrn, sameStruct_iff, hri.1]
            · rw [hj]; exact hf

end Verif.NestedSpec
