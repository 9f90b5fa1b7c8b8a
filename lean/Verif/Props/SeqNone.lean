import Verif.Model.SeqNone
import Verif.Props.Sequential

/-!
# C18: modules without parameters
-/

namespace Verif.Props

open Verif.Forward Verif.Tree

variable {M P S K A : Type}

theorem seqLoop_reduced {sig : Sig M P S K A} {isNone : P → Bool} {t : Bool} : ∀ {l : List (Stage M P S K)} {x : Tree A} {ss : List S}, (∀ st ∈ l, isNone st.params = false) →
    seqLoop (reduced sig isNone) t l x ss = seqLoop sig t l x ss
  | [], x, ss, _ => rfl
  | st :: l, x, ss, h => by
    have h1 := h st (List.mem_cons_self ..)
    rw [seqLoop, seqLoop]
    have : (reduced sig isNone).call st.mod st.params x t st.state st.key = sig.call st.mod st.params x t st.state st.key := by simp [reduced, h1]
    rw [this]
    split
    · rfl
    · exact seqLoop_reduced fun s hs => h s (List.mem_cons_of_mem _ hs)

theorem seqLoop_none {sig : Sig M P S K A} {isNone : P → Bool} {t : Bool} : ∀ {l : List (Stage M P S K)} {x : Tree A} {ss : List S} {r : Tree A × List S},
    seqLoop (reduced sig isNone) t l x ss = .ok r → ∀ st ∈ l, isNone st.params = false
  | st :: l, x, ss, r, h, s, hs => by
    rw [seqLoop] at h
    split at h
    · cases h
    · rename_i y s' hc
      rcases List.mem_cons.1 hs with rfl | hs
      · cases hn : isNone s.params with
        | false => rfl
        | true => simp [reduced, hn] at hc
      · exact seqLoop_none h s hs

theorem stages_params : ∀ {ms : List M} {ps : List P} {ss : List S} {ks : List K}, ps.length = ms.length → ss.length = ms.length → ks.length = ms.length →
    (stages ms ps ss ks).map Stage.params = ps
  | [], [], _, _, _, _, _ => by simp [stages]
  | _ :: ms, p :: ps, s :: ss, k :: ks, h1, h2, h3 => by
    simp only [List.length_cons, Nat.add_right_cancel_iff] at h1 h2 h3
    simp [stages, stages_params h1 h2 h3]

/-- **C18.** If no module has `None` for parameters, the test of the reduction changes nothing. -/
theorem C18_parameters (sig : Sig M P S K A) (isNone : P → Bool) (modules : Tree M) (params : Tree P) (data : Tree A) (training : Bool) (state : Tree S) (rng : K)
    (h : ∀ p ∈ params.jaxLeaves, isNone p = false) : seqCallNone sig isNone modules params data training state rng = seqCall sig modules params data training state rng := by
  unfold seqCallNone seqCall
  split
  · rfl
  · have hs : ∀ (ms : List M) (ps : List P) (ss : List S) (ks : List K), (∀ p ∈ ps, isNone p = false) → ∀ st ∈ stages ms ps ss ks, isNone st.params = false := by
      intro ms
      induction ms with
      | nil => intro ps ss ks _ st hst; simp [stages] at hst
      | cons m ms ih =>
        intro ps ss ks hp st hst
        match ps, ss, ks with
        | p :: ps, s :: ss, k :: ks =>
          rw [stages] at hst
          rcases List.mem_cons.1 hst with rfl | hst
          · exact hp _ (List.mem_cons_self ..)
          · exact ih ps ss ks (fun q hq => hp q (List.mem_cons_of_mem _ hq)) st hst
        | [], _, _ => simp [stages] at hst
        | _ :: _, [], _ => simp [stages] at hst
        | _ :: _, _ :: _, [] => simp [stages] at hst
    dsimp only
    rw [seqLoop_reduced (hs _ _ _ _ h)]
    rfl

/-- **C18 refuted for modules without parameters.** If the parameters of some module are `None`, no call of the model returns, whatever its modules do. -/
theorem C18_none_params_refuted (sig : Sig M P S K A) (hk : ∀ k n, (sig.splitN k n).length = n) (isNone : P → Bool) (modules : Tree M) (params : Tree P) (data : Tree A) (training : Bool)
    (state : Tree S) (rng : K) {p : P} (hp : p ∈ params.jaxLeaves) (hn : isNone p = true) :
    ∃ e, seqCallNone sig isNone modules params data training state rng = .error e := by
  cases hc : seqCallNone sig isNone modules params data training state rng with
  | error e => exact ⟨e, rfl⟩
  | ok r =>
    obtain ⟨out, st'⟩ := r
    obtain ⟨h1, h2, ss, h3, -⟩ := seqCall_iff.1 hc
    have hall := seqLoop_none h3
    have hm := stages_params (jaxLeaves_length h1) (jaxLeaves_length h2) (hk rng modules.jaxLeaves.length)
    have hp' : p ∈ (stages modules.jaxLeaves params.jaxLeaves state.jaxLeaves (sig.splitN rng modules.jaxLeaves.length)).map Stage.params := by
      rw [hm]; exact hp
    obtain ⟨st, hst, rfl⟩ := List.mem_map.1 hp'
    rw [hall st hst] at hn
    cases hn

/-- Both cases: parameters `none` stand for `None`, and a module by itself computes also without parameters. -/
def noneSig : Sig Int (Option Int) Nat Nat Int where
  call m p x _ s _ := .ok (x.map fun a => m * a + p.getD 0, s + 1)
  outShape _ s := .ok s
  compile m _ _ := .ok m
  split k := (k, k + 1)
  splitN k n := (List.range n).map (k + ·)

example : noneSig.call 2 Option.none (.leaf 1) false 0 0 = .ok (.leaf 2, 1) ∧
    seqCall noneSig (.list [.leaf 3, .leaf 2]) (.list [.leaf (some 1), .leaf Option.none]) (.leaf 1) false (.list [.leaf 0, .leaf 0]) 0 = .ok (.leaf 8, .list [.leaf 1, .leaf 1]) ∧
    seqCallNone noneSig Option.isNone (.list [.leaf 3, .leaf 2]) (.list [.leaf (some 1), .leaf Option.none]) (.leaf 1) false (.list [.leaf 0, .leaf 0]) 0 = .error .typeError ∧
    seqCallNone noneSig Option.isNone (.list [.leaf 3, .leaf 2]) (.list [.leaf (some 1), .leaf (some 5)]) (.leaf 1) false (.list [.leaf 0, .leaf 0]) 0 =
      .ok (.leaf 13, .list [.leaf 1, .leaf 1]) := ⟨rfl, rfl, rfl, rfl⟩

example : ∀ k n, (noneSig.splitN k n).length = n := by simp [noneSig]

end Verif.Props
