import Verif.Lemmas.SeqCompose
import Verif.Lemmas.JaxTree
import Verif.Spec.Dataflow

/-!
# C18 and the sequential half of C21: sequential models
-/

namespace Verif.Props
open Verif.Forward Verif.ForwardSpec Verif.DataflowSpec Verif.Tree

variable {M P S K A : Type}

/-! ### The signature used in the examples -/

/-- Modules are numbers: a module `m` with parameter `p` maps every entry `x` to `m * x + p`, counts its calls in its state
and keeps shapes. -/
def demoSig : Sig Int Int Nat Nat Int where
  call m p x _ s _ := .ok (x.map fun a => m * a + p, s + 1)
  outShape _ s := .ok s
  compile m _ _ := .ok m
  split k := (k, k + 1)
  splitN k n := (List.range n).map (k + ·)

/-- **C18**: a call that returns has applied the modules one after another, in the order of their places, each to the output
of the previous one, with its own parameters, state and key; the new states are in the same places. -/
theorem C18_forward (sig : Sig M P S K A) (hk : ∀ k n, (sig.splitN k n).length = n) (modules : Tree M) (params : Tree P)
    (data out : Tree A) (training : Bool) (state st' : Tree S) (rng : K) (hm : KeysOk modules)
    (h : seqCall sig modules params data training state rng = .ok (out, st')) :
    ∃ rows : List (Row M P S), (rows.Pairwise fun a b => Precedes a.place b.place) ∧
      Column rows Row.mod modules ∧ Column rows Row.params params ∧ Column rows Row.state state ∧
      Column rows Row.state' st' ∧
      Passes (fun m p x s k => sig.call m p x training s k) rows (sig.splitN rng rows.length) data out :=
  seqCall_ok hk hm h

/-- **C18**: conversely, if the calls along the modules in the order of their places succeed, so does the model, with that
output and those new states. -/
theorem C18_complete (sig : Sig M P S K A) (modules : Tree M) (params : Tree P)
    (data out : Tree A) (training : Bool) (state : Tree S) (rng : K) (hm : KeysOk modules) (hkp : KeysOk params)
    (hks : KeysOk state) (hsp : sameStruct modules.norm params.norm = true) (hss : sameStruct modules.norm state.norm = true)
    (rows : List (Row M P S)) (hs : rows.Pairwise fun a b => Precedes a.place b.place)
    (h1 : Column rows Row.mod modules) (h2 : Column rows Row.params params) (h3 : Column rows Row.state state)
    (hp : Passes (fun m p x s k => sig.call m p x training s k) rows (sig.splitN rng rows.length) data out) :
    ∃ st', seqCall sig modules params data training state rng = .ok (out, st') ∧ Column rows Row.state' st' :=
  seqCall_complete hm hkp hks hsp hss hs h1 h2 h3 hp

/-- A list, a dictionary and an empty place, nested. -/
def demoSeq : Tree Int := .list [.leaf 2, .dict [("b".toList, .leaf 3), ("a".toList, .leaf 5)], .none, .leaf 7]

/-- Parameters (the dictionary is written in another order). -/
def demoSeqParams : Tree Int := .list [.leaf 1, .dict [("a".toList, .leaf 20), ("b".toList, .leaf 10)], .none, .leaf 4]

/-- States. -/
def demoSeqState : Tree Nat := .list [.leaf 0, .dict [("b".toList, .leaf 6), ("a".toList, .leaf 5)], .none, .leaf 9]

-- ((((1*2+1)*5+20)*3+10)*7+4, the module under "a" comes before the one under "b"
example : seqCall demoSig demoSeq demoSeqParams (.list [.leaf 1]) false demoSeqState 0
    = .ok (.list [.leaf 809], .list [.leaf 1, .dict [("a".toList, .leaf 6), ("b".toList, .leaf 7)], .none, .leaf 10]) := rfl

example : KeysOk demoSeq ∧ KeysOk demoSeqParams ∧ sameStruct demoSeq.norm demoSeqParams.norm = true ∧
    sameStruct demoSeq.norm demoSeqState.norm = true ∧ ∀ k n, (demoSig.splitN k n).length = n := by
  refine ⟨?_, ?_, rfl, rfl, ?_⟩
  · simp [demoSeq, KeysOk, KeysOkL, KeysOkD]
  · simp [demoSeqParams, KeysOk, KeysOkL, KeysOkD]
  · simp [demoSig]

/-- **C18**: running a model made of two models is running the first and then the second, if no module uses its key. -/
theorem C18_compose (sig : Sig M P S K A) (hk : ∀ k n, (sig.splitN k n).length = n)
    (hi : ∀ m p x t s k k', sig.call m p x t s k = sig.call m p x t s k') (mA mB : Tree M) (pA pB : Tree P)
    (x z : Tree A) (training : Bool) (sA sB st' : Tree S) (r r1 r2 : K) :
    seqCall sig (.list [mA, mB]) (.list [pA, pB]) x training (.list [sA, sB]) r = .ok (z, st') ↔
    ∃ y sA' sB', seqCall sig mA pA x training sA r1 = .ok (y, sA') ∧ seqCall sig mB pB y training sB r2 = .ok (z, sB') ∧
      st' = .list [sA', sB'] :=
  seqCall_compose hk hi

example : seqCall demoSig (.list [demoSeq, .leaf 2]) (.list [demoSeqParams, .leaf 0]) (.leaf 1) false
    (.list [demoSeqState, .leaf 0]) 3
    = .ok (.leaf 1618, .list [.list [.leaf 1, .dict [("a".toList, .leaf 6), ("b".toList, .leaf 7)], .none, .leaf 10], .leaf 1]) :=
  rfl

/-- **C18, defect**: the documentation says that a dictionary's insertion order is the application order. It is not: the
modules are applied in alphabetical order of their keys. -/
theorem C18_insertion_order_refuted :
    ∃ (f g : Int) (y z out : Tree Int) (s1 s2 : Nat) (st' : Tree Nat),
      demoSig.call f 0 (.leaf 1) false 0 0 = .ok (y, s1) ∧ demoSig.call g 1 y false 0 0 = .ok (z, s2) ∧
      seqCall demoSig (.dict [("b".toList, .leaf f), ("a".toList, .leaf g)]) (.dict [("b".toList, .leaf 0), ("a".toList, .leaf 1)])
        (.leaf 1) false (.dict [("b".toList, .leaf 0), ("a".toList, .leaf 0)]) 0 = .ok (out, st') ∧ out ≠ z := by
  refine ⟨2, 3, .leaf 2, .leaf 7, .leaf 8, 1, 1, _, rfl, rfl, rfl, ?_⟩
  simp

/-! ### Shapes -/

/-- **C21**, sequential models: the declared output shape is the shape of what the model computes. -/
theorem C21_sequential (sig : Sig M P S K A) (hk : ∀ k n, (sig.splitN k n).length = n) (shp : A → Shape)
    (hd : Declares sig shp) (modules : Tree M) (params : Tree P) (data out : Tree A) (training : Bool)
    (state st' : Tree S) (rng : K) (h : seqCall sig modules params data training state rng = .ok (out, st')) :
    seqOutputShape sig modules (data.map shp) = checkShape (out.map shp) := by
  obtain ⟨h1, h2, ss, h3, -⟩ := seqCall_iff.1 h
  have l1 := jaxLeaves_length h1
  have l2 := jaxLeaves_length h2
  have l3 : (sig.splitN rng modules.jaxLeaves.length).length = modules.jaxLeaves.length := hk _ _
  unfold seqOutputShape
  suffices hl : seqShapeLoop sig modules.jaxLeaves (data.map shp) = .ok (out.map shp) by rw [hl]
  generalize sig.splitN rng modules.jaxLeaves.length = ks at h3 l3
  generalize modules.jaxLeaves = ms at *
  generalize params.jaxLeaves = ps at *
  generalize state.jaxLeaves = qs at *
  generalize ([] : List S) = acc at h3
  clear h h1 h2
  induction ms generalizing ps qs ks data acc with
  | nil =>
    simp only [stages, seqLoop, Except.ok.injEq, Prod.mk.injEq] at h3
    simp [seqShapeLoop, h3.1]
  | cons m ms ih =>
    match ps, qs, ks, l1, l2, l3 with
    | p :: ps, s :: qs, k :: ks, l1, l2, l3 =>
      simp only [List.length_cons, Nat.add_right_cancel_iff] at l1 l2 l3
      simp only [stages, seqLoop] at h3
      split at h3
      · simp at h3
      · next y s' hc =>
        simp only [seqShapeLoop, hd _ _ _ _ _ _ _ _ hc]
        exact ih y ks l3 ps l1 qs l2 _ h3

/-- **C21**, sequential models: compilation gives each module the shape of the data it will see, and records the shape of
the output. -/
theorem C21_sequential_compile (sig : Sig M P S K A) (shp : A → Shape) (hd : Declares sig shp) (modules : Tree M)
    (key : K) (data out : Tree A) (ms' : List M) (r : Tree Shape)
    (hc : seqCompile sig modules key (data.map shp) = .ok (ms', r)) (training : Bool) (rows : List (Row M P S)) (ks : List K)
    (hrows : rows.map Row.mod = ms')
    (hp : Passes (fun m p x s k => sig.call m p x training s k) rows ks data out) :
    r = out.map shp ∧ rows.length = modules.jaxLeaves.length ∧
    ∀ (i : Nat) (row : Row M P S), rows[i]? = some row → ∃ m k x, modules.jaxLeaves[i]? = some m ∧
      Passes (fun m p x s k => sig.call m p x training s k) (rows.take i) (ks.take i) data x ∧
      sig.compile m k (x.map shp) = .ok row.mod := by
  unfold seqCompile at hc
  split at hc
  · simp at hc
  · next ms r0 hl =>
    split at hc
    · simp at hc
    · next r1 hcs =>
      simp only [Except.ok.injEq, Prod.mk.injEq] at hc
      obtain ⟨rfl, rfl⟩ := hc
      obtain rfl := checkShape_ok hcs
      obtain ⟨l, el, hch⟩ := seqCompileLoop_chain hl
      rw [List.nil_append] at el
      subst el
      clear hl hcs
      generalize modules.jaxLeaves = os at *
      generalize hs : data.map shp = s at hch
      induction hch generalizing rows ks data with
      | nil =>
        simp only [List.map_eq_nil_iff] at hrows
        subst hrows
        cases hp
        exact ⟨hs.symm, rfl, by simp⟩
      | cons h1 h2 h3 ih =>
        cases hp with
        | nil => simp at hrows
        | cons hc hp' =>
          simp only [List.map_cons, List.cons.injEq] at hrows
          obtain ⟨e1, e2⟩ := hrows
          have hs' := hd _ _ _ _ _ _ _ _ hc
          rw [e1, hs, h2] at hs'
          simp only [Except.ok.injEq] at hs'
          obtain ⟨g1, g2, g3⟩ := ih _ _ _ hp' e2 hs'.symm
          refine ⟨g1, by simp [g2], fun i row hi => ?_⟩
          cases i with
          | zero =>
            simp only [List.getElem?_cons_zero, Option.some.injEq] at hi
            subst hi
            exact ⟨_, _, data, rfl, .nil _, by rw [hs, h1, e1]⟩
          | succ i =>
            obtain ⟨m, k, x, q1, q2, q3⟩ := g3 i row (by simpa using hi)
            exact ⟨m, k, x, by simpa using q1, .cons hc q2, q3⟩

/-- A signature whose shapes change: a module `n` repeats every entry of an array `n` times. -/
def repSig : Sig Nat Unit Unit Nat (List Int) where
  call n _ x _ s _ := .ok (x.map fun a => a.flatMap fun v => List.replicate n v, s)
  outShape n s := .ok (s.map fun d => d.map (n * ·))
  compile m _ _ := .ok m
  split k := (k, k + 1)
  splitN k n := (List.range n).map (k + ·)

example : seqCall repSig (.list [.leaf 2, .leaf 3]) (.list [.leaf (), .leaf ()]) (.leaf [5, 6]) false
    (.list [.leaf (), .leaf ()]) 0 = .ok (.leaf [5, 5, 5, 5, 5, 5, 6, 6, 6, 6, 6, 6], .list [.leaf (), .leaf ()]) := rfl

example : seqCompile repSig (.list [.leaf 2, .leaf 3]) 0 (.leaf [2]) = .ok ([2, 3], .leaf [12]) := rfl

example : Declares repSig (fun a => [a.length]) := by
  intro m p x t s k y s' h
  simp only [repSig, Except.ok.injEq, Prod.mk.injEq] at h ⊢
  rw [← h.1, map_map, map_map]
  congr 1
  funext a
  induction a with
  | nil => simp
  | cons v l ih => simp_all [Nat.mul_add, Nat.add_comm]

end Verif.Props
