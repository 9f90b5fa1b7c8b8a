import Verif.Lemmas.NonSeqChain
import Verif.Lemmas.NonSeqShape
import Verif.Lemmas.TreeDec
import Verif.Props.Sequential

/-!
# C19, C20, the other half of C21, and C22: non-sequential models

`fresh` stands for `uuid.uuid4().hex`.
-/

namespace Verif.Props
open Verif.Forward Verif.ForwardSpec Verif.DataflowSpec Verif.Tree Verif.ConnSpec Verif.TreeSpec Verif.PathSpec Verif.Conn
open Relation

variable {M P S K A : Type}

/-- **C19** A model has an execution order exactly if its connections deserve one: the output is reached from the input, no
module between them is on a cycle, and whatever feeds such a module is itself reached from the input. -/
theorem C19_executable_iff (sep : Char) (modules : Tree M) (conn : List (Str × List Str)) (h : Names sep modules conn) :
    (∃ order, execOrder sep modules conn = .ok order) ↔ Accepted (nsCfg sep) modules conn :=
  exec_iff h

/-- **C19** Every other model whose input is connected to something is refused, whatever one does with it: asking for the order, for the shape of the output, compiling and calling raise `RuntimeError`. -/
theorem C19_rejected (sig : Sig M P S K A) (sep : Char) (fresh : Str → Nat → Nat → Str) (modules : Tree M) (conn : List (Str × List Str)) (h : Names sep modules conn)
    (hin : ∃ m, Feeds (nsCfg sep) modules conn ["input".toList] m) (hn : ¬ Accepted (nsCfg sep) modules conn) :
    execOrder sep modules conn = .error .runtimeError ∧ (∀ s, nsShapes sig sep fresh modules conn s = .error .runtimeError) ∧ (∀ k s, nsCompile sig sep fresh modules conn k s = .error .runtimeError) ∧
      ∀ params data training state rng, nsCall sig sep fresh modules conn params data training state rng = .error .runtimeError := by
  have he : execOrder sep modules conn = .error .runtimeError := exec_error h hin fun hc => hn ((exec_iff h).1 hc)
  refine ⟨he, fun s => ?_, fun k s => ?_, fun params data training state rng => ?_⟩
  · unfold nsShapes; rw [he]
  · unfold nsCompile; rw [he]
  · unfold nsCall nsRun; rw [he]

/-- **C19** What a call returns satisfies the dataflow equations: every scheduled module got exactly the outputs named by the
(numbered) connections that lead to it, and the model output is what is connected to it. -/
theorem C19_dataflow (sig : Sig M P S K A) (sep : Char) (fresh : Str → Nat → Nat → Str) (hf : FreshOk sep fresh)
    (modules : Tree M) (conn : List (Str × List Str)) (h : Names sep modules conn) (params : Tree P) (data out : Tree A)
    (training : Bool) (state st' : Tree S) (rng : K)
    (hc : nsCall sig sep fresh modules conn params data training state rng = .ok (out, st')) :
    ∃ R req val news, concretizeConnections (nsCfg sep) fresh modules conn = .ok R ∧
      (∀ m, Scheduled (nsCfg sep) modules conn m → Holds sep R m (req m)) ∧
      Holds sep R ["output".toList] (req ["output".toList]) ∧
      Dataflow (nsCfg sep) modules params state (fun b p x s => sig.call b p x training s rng)
        (Scheduled (nsCfg sep) modules conn) req data val news out ∧
      Updates state st' (Scheduled (nsCfg sep) modules conn) news := by
  obtain ⟨R, placed, outPlaced, val, news, h1, -, h3, h4, h5, h6⟩ := nsCall_dataflow h hf hc
  exact ⟨R, _, val, news, h1, h3, h4, h5, h6⟩

/-- **C19** The equations have at most one solution. -/
theorem C19_unique (sep : Char) (fresh : Str → Nat → Nat → Str) (hf : FreshOk sep fresh)
    (modules : Tree M) (conn R : List (Str × List Str)) (h : Names sep modules conn) (ha : Accepted (nsCfg sep) modules conn)
    (hR : concretizeConnections (nsCfg sep) fresh modules conn = .ok R) (req : List Str → Tree Str)
    (hreq : ∀ m, Scheduled (nsCfg sep) modules conn m → Holds sep R m (req m))
    (hreqo : Holds sep R ["output".toList] (req ["output".toList])) (params : Tree P) (state : Tree S)
    (call : M → P → Tree A → S → Except PyErr (Tree A × S)) (data : Tree A) (val val' : List Str → Tree A)
    (news news' : List Str → Option S) (out out' : Tree A)
    (h1 : Dataflow (nsCfg sep) modules params state call (Scheduled (nsCfg sep) modules conn) req data val news out)
    (h2 : Dataflow (nsCfg sep) modules params state call (Scheduled (nsCfg sep) modules conn) req data val' news' out') :
    out = out' ∧ ∀ m, Scheduled (nsCfg sep) modules conn m → val m = val' m ∧ news m = news' m := by
  obtain ⟨order, ho⟩ := (exec_iff h).2 ha
  obtain ⟨R', hR', hc⟩ := concrete_ok h hf
  rw [hR] at hR'
  cases hR'
  exact dataflow_unique h ho hc hreq hreqo h1 h2

/-- **C19** Conversely the model computes the solution whenever there is one: the layout of the inputs is fixed by the
connections, and for all parameters, states and data a solution of the equations is what the call returns. The two
hypotheses on uniformity say that numbers and names are not mixed as siblings below the top level (see
`C19_slot_order_defect`). -/
theorem C19_complete (sep : Char) (fresh : Str → Nat → Nat → Str) (hf : FreshOk sep fresh)
    (modules : Tree M) (conn : List (Str × List Str)) (h : Names sep modules conn) (ha : Accepted (nsCfg sep) modules conn)
    (hu : ∀ m m', Scheduled (nsCfg sep) modules conn m → Scheduled (nsCfg sep) modules conn m' → Uniform m m')
    (hu' : ∀ R, concretizeConnections (nsCfg sep) fresh modules conn = .ok R → ∀ k v k' v', (k, v) ∈ edges R →
      (k', v') ∈ edges R → Uniform (splitOn sep v) (splitOn sep v')) :
    ∃ R req, concretizeConnections (nsCfg sep) fresh modules conn = .ok R ∧
      (∀ m, Scheduled (nsCfg sep) modules conn m → Holds sep R m (req m)) ∧
      Holds sep R ["output".toList] (req ["output".toList]) ∧
      ∀ (P S K A : Type) (sig : Sig M P S K A) (params : Tree P) (state : Tree S) (data out : Tree A) (training : Bool) (rng : K)
        (val : List Str → Tree A) (news : List Str → Option S), hasTuple state = false →
        Dataflow (nsCfg sep) modules params state (fun b p x s => sig.call b p x training s rng)
          (Scheduled (nsCfg sep) modules conn) req data val news out →
        ∃ st', nsCall sig sep fresh modules conn params data training state rng = .ok (out, st') ∧
          Updates state st' (Scheduled (nsCfg sep) modules conn) news := by
  obtain ⟨order, ho⟩ := (exec_iff h).2 ha
  obtain ⟨R, hR, hc⟩ := concrete_ok h hf
  obtain ⟨placed, outPlaced, hp⟩ := place_ok h hf hR (hu' R hR)
  obtain ⟨ms, hms⟩ := order_main h ho
  obtain ⟨hh1, hh2, hh3⟩ := place_holds h hf hR hc hp
  refine ⟨R, reqOf placed outPlaced, hR, ?_, ?_, ?_⟩
  · intro m hm
    have hmm := (hms.mem m).2 hm
    obtain ⟨a, ha⟩ := fed_of_scheduled hm
    obtain ⟨req, hreq⟩ := hh2 a m ha hm.1
    refine hh1 m _ hm.1 (hms.comps m hmm).1 (hms.comps m hmm).2 ?_
    unfold reqOf
    rw [if_neg (by rintro e; exact hm.1.2.2.1 (by rw [e]; rfl)), hreq]
  · unfold reqOf; rw [if_pos rfl]; exact hh3
  · intro P S K A sig params state data out training rng val news hst hd
    exact nsCall_complete h hf ho hp hu hst hd

/-! ### Examples: a diamond -/

/-- Three modules, one of them in a list. -/
def diaModules : Tree Int := .dict [("A".toList, .leaf 2), ("B".toList, .list [.leaf 3]), ("C".toList, .leaf 5)]
/-- `{"input": ["A", "B.0"], "A": "C.x", "B.0": "C.y", "C": "output"}` -/
def diaConn : List (Str × List Str) :=
  [("input".toList, ["A".toList, "B.0".toList]), ("A".toList, ["C.x".toList]), ("B.0".toList, ["C.y".toList]),
   ("C".toList, ["output".toList])]
/-- Parameters of the diamond. -/
def diaParams : Tree Int := .dict [("A".toList, .leaf 1), ("B".toList, .list [.leaf 10]), ("C".toList, .leaf 100)]
/-- States of the diamond. -/
def diaState : Tree Nat := .dict [("A".toList, .leaf 0), ("B".toList, .list [.leaf 7]), ("C".toList, .leaf 9)]
/-- The new identifiers of the examples. -/
def uFresh : Str → Nat → Nat → Str := fun _ _ _ => "u".toList

theorem uFresh_ok : FreshOk '.' uFresh := by
  refine ⟨fun _ _ _ => ?_, fun _ _ _ => ?_, fun _ _ _ => ?_⟩
  · show "u".toList ≠ []; decide
  · show '.' ∉ "u".toList; decide
  show Canonical ["u".toList]
  unfold Canonical; decide

theorem diaNames : Names '.' diaModules diaConn := by
  have m1 : IsModule (nsCfg '.') diaModules ["A".toList] := ⟨by decide, by decide, by decide, 2, rfl⟩
  have m2 : IsModule (nsCfg '.') diaModules ["B".toList, "0".toList] := ⟨by decide, by decide, by decide, 3, rfl⟩
  have m3 : IsModule (nsCfg '.') diaModules ["C".toList] := ⟨by decide, by decide, by decide, 5, rfl⟩
  refine ⟨by decide, by decide, by decide, ⟨by decide, ?_, ?_⟩, ?_, ?_, ?_, ?_⟩
  · intro kv hkv
    simp only [diaConn, List.mem_cons, List.not_mem_nil, or_false] at hkv
    rcases hkv with rfl | rfl | rfl | rfl
    · exact ⟨["input".toList], [], by decide, by decide, .inl rfl⟩
    · exact ⟨["A".toList], [], by decide, by decide, .inr m1⟩
    · exact ⟨["B".toList, "0".toList], [], by decide, by decide, .inr m2⟩
    · exact ⟨["C".toList], [], by decide, by decide, .inr m3⟩
  · intro kv hkv v hv
    simp only [diaConn, List.mem_cons, List.not_mem_nil, or_false] at hkv
    rcases hkv with rfl | rfl | rfl | rfl <;> simp only [List.mem_cons, List.not_mem_nil, or_false] at hv
    · rcases hv with rfl | rfl
      · exact ⟨["A".toList], [], by decide, by decide, .inr m1⟩
      · exact ⟨["B".toList, "0".toList], [], by decide, by decide, .inr m2⟩
    · subst hv; exact ⟨["C".toList], ["x".toList], by decide, by decide, .inr m3⟩
    · subst hv; exact ⟨["C".toList], ["y".toList], by decide, by decide, .inr m3⟩
    · subst hv; exact ⟨["output".toList], [], by decide, by decide, .inl rfl⟩
  · unfold Canonical; decide
  · unfold Canonical; decide
  · intro kv hkv w hw
    rcases hw with rfl | rfl <;> revert kv <;> decide
  · decide

-- 5*(2*1+1)+100 and 5*(3*1+10)+100; every module has been called once
example : nsCall demoSig '.' uFresh diaModules diaConn diaParams (.leaf 1) false diaState 0 =
    .ok (.dict [("x".toList, .leaf 115), ("y".toList, .leaf 165)],
      .dict [("A".toList, .leaf 1), ("B".toList, .list [.leaf 8]), ("C".toList, .leaf 10)]) := by decide +kernel

/-- `{"input": "A.x", "A": ["B.0", "output"], "B.0": "A.y"}`: a cycle -/
def cycConn : List (Str × List Str) :=
  [("input".toList, ["A.x".toList]), ("A".toList, ["B.0".toList, "output".toList]), ("B.0".toList, ["A.y".toList])]

theorem cycNames : Names '.' diaModules cycConn := by
  have m1 : IsModule (nsCfg '.') diaModules ["A".toList] := ⟨by decide, by decide, by decide, 2, rfl⟩
  have m2 : IsModule (nsCfg '.') diaModules ["B".toList, "0".toList] := ⟨by decide, by decide, by decide, 3, rfl⟩
  refine ⟨by decide, by decide, by decide, ⟨by decide, ?_, ?_⟩, ?_, ?_, ?_, ?_⟩
  · intro kv hkv
    simp only [cycConn, List.mem_cons, List.not_mem_nil, or_false] at hkv
    rcases hkv with rfl | rfl | rfl
    · exact ⟨["input".toList], [], by decide, by decide, .inl rfl⟩
    · exact ⟨["A".toList], [], by decide, by decide, .inr m1⟩
    · exact ⟨["B".toList, "0".toList], [], by decide, by decide, .inr m2⟩
  · intro kv hkv v hv
    simp only [cycConn, List.mem_cons, List.not_mem_nil, or_false] at hkv
    rcases hkv with rfl | rfl | rfl <;> simp only [List.mem_cons, List.not_mem_nil, or_false] at hv
    · subst hv; exact ⟨["A".toList], ["x".toList], by decide, by decide, .inr m1⟩
    · rcases hv with rfl | rfl
      · exact ⟨["B".toList, "0".toList], [], by decide, by decide, .inr m2⟩
      · exact ⟨["output".toList], [], by decide, by decide, .inl rfl⟩
    · subst hv; exact ⟨["A".toList], ["y".toList], by decide, by decide, .inr m1⟩
  · unfold Canonical; decide
  · unfold Canonical; decide
  · intro kv hkv w hw
    rcases hw with rfl | rfl <;> revert kv <;> decide
  · decide

/-- The cycle is refused. -/
example : (∃ m, Feeds (nsCfg '.') diaModules cycConn ["input".toList] m) ∧ ¬ Accepted (nsCfg '.') diaModules cycConn := by
  constructor
  · exact ⟨["A".toList], ("input".toList, "A.x".toList), by decide, [], ["x".toList], ⟨by decide, by decide, .inl rfl⟩, ⟨by decide, by decide, .inr ⟨by decide, by decide, by decide, 2, rfl⟩⟩⟩
  · rw [← C19_executable_iff '.' diaModules cycConn cycNames]
    rintro ⟨o, ho⟩
    have : execOrder '.' diaModules cycConn = .error .runtimeError := by decide +kernel
    rw [this] at ho
    cases ho

example : Accepted (nsCfg '.') diaModules diaConn :=
  (C19_executable_iff '.' diaModules diaConn diaNames).1 ⟨_, rfl⟩

/-- The three modules of the diamond are the scheduled ones. -/
theorem diaScheduled (m : List Str) (h : Scheduled (nsCfg '.') diaModules diaConn m) :
    m = ["A".toList] ∨ m = ["B".toList, "0".toList] ∨ m = ["C".toList] := by
  have ho : execOrder '.' diaModules diaConn =
      .ok ["input".toList, "A".toList, "B.0".toList, "C".toList, "output".toList] := rfl
  obtain ⟨ms, hms⟩ := order_main diaNames ho
  have := (hms.mem m).2 h
  have e := order_split diaNames hms
  have e2 : ["input".toList, "A".toList, "B.0".toList, "C".toList, "output".toList].map (splitOn '.') =
    ["input".toList] :: ([["A".toList], ["B".toList, "0".toList], ["C".toList]] ++ [["output".toList]]) := by decide
  rw [e2] at e
  simp only [List.cons.injEq, true_and] at e
  have e3 : ms = [["A".toList], ["B".toList, "0".toList], ["C".toList]] := (List.append_cancel_right e).symm
  rw [e3] at this
  simpa using this

example : (∀ m m', Scheduled (nsCfg '.') diaModules diaConn m → Scheduled (nsCfg '.') diaModules diaConn m' → Uniform m m') := by
  have hu : ∀ (k : Str) (q : List Str), Uniform [k] q ∧ Uniform q [k] := fun k q => uniform_single k q
  intro m m' h h'
  rcases diaScheduled m h with rfl | rfl | rfl
  · exact (hu _ _).1
  · rcases diaScheduled m' h' with rfl | rfl | rfl
    · exact (hu _ _).2
    · intro c k r k' r' _ e e'
      rw [e] at e'
      have := List.append_cancel_left e'
      simp only [List.cons.injEq] at this
      rw [this.1]
    · exact (hu _ _).2
  · exact (hu _ _).1

/-- **C19, defect**: the documentation says that the order of the connections does not matter. Whether a model is accepted
depends on it: a slot with a name and a slot with a number are accepted in this order and rejected in the other. -/
theorem C19_slot_order_defect :
    ∃ (sig : Sig Int Int Nat Nat Int) (out : Tree Int) (st' : Tree Nat),
      nsCall sig '.' uFresh (.dict [("M".toList, .leaf 2)])
        [("input".toList, ["M.a".toList, "M.0".toList]), ("M".toList, ["output".toList])]
        (.dict [("M".toList, .leaf 1)]) (.leaf 1) false (.dict [("M".toList, .leaf 0)]) 0 = .ok (out, st') ∧
      nsCall sig '.' uFresh (.dict [("M".toList, .leaf 2)])
        [("input".toList, ["M.0".toList, "M.a".toList]), ("M".toList, ["output".toList])]
        (.dict [("M".toList, .leaf 1)]) (.leaf 1) false (.dict [("M".toList, .leaf 0)]) 0 = .error .keyError :=
  ⟨demoSig, .dict [("a".toList, .leaf 3), ("0".toList, .leaf 3)], .dict [("M".toList, .leaf 1)],
    by decide +kernel, by decide +kernel⟩

/-! ### C20 -/

/-- **C20** A non-sequential model whose connections are `input → ps[0] → … → output` and the sequential model of the same
modules in this order return the same output and the same new states: one returns exactly if the other does. The modules
must not use their key (the two kinds of model hand out different keys). -/
theorem C20_chain (sig : Sig M P S K A) (hk : ∀ k n, (sig.splitN k n).length = n)
    (hi : ∀ m p x t s k k', sig.call m p x t s k = sig.call m p x t s k') (sep : Char) (fresh : Str → Nat → Nat → Str)
    (hf : FreshOk sep fresh) (modules : Tree M) (ps : List (List Str)) (hc : ChainOk sep fresh modules ps) (params : Tree P)
    (state : Tree S) (hst : hasTuple state = false) (bs : List M) (pp : List P) (ss : List S)
    (h1 : List.Forall₂ (fun p b => Tree.get modules p = .ok (.leaf b)) ps bs)
    (h2 : List.Forall₂ (fun p b => Tree.get params p = .ok (.leaf b)) ps pp)
    (h3 : List.Forall₂ (fun p b => Tree.get state p = .ok (.leaf b)) ps ss) (data out : Tree A) (training : Bool) (rng r : K)
    (ss' : List S) :
    (∃ st', nsCall sig sep fresh modules (chainConn sep ps) params data training state rng = .ok (out, st') ∧
      List.Forall₂ (fun p b => Tree.get st' p = .ok (.leaf b)) ps ss') ↔
    seqCall sig (.list (bs.map .leaf)) (.list (pp.map .leaf)) data training (.list (ss.map .leaf)) r
      = .ok (out, .list (ss'.map .leaf)) := by
  constructor
  · rintro ⟨st', h, hs⟩
    obtain ⟨ss2, hs2, h4⟩ := chain_forward hk hi hc hf h1 h2 h3 (r := r) h
    have : ss2 = ss' := by
      clear h4 h1 h2 h3 hc h
      induction hs2 generalizing ss' with
      | nil => cases hs; rfl
      | cons a _ ih =>
        cases hs with
        | cons b hb =>
          rw [a] at b
          cases b
          rw [ih _ hb]
    rw [← this]; exact h4
  · intro h
    obtain ⟨st', h4⟩ := chain_backward hk hi hc hf hst h1 h2 h3 (rng := rng) h
    obtain ⟨ss2, hs2, h5⟩ := chain_forward hk hi hc hf h1 h2 h3 (r := r) h4
    rw [h] at h5
    simp only [Except.ok.injEq, Prod.mk.injEq, Tree.list.injEq, true_and] at h5
    have : ss' = ss2 := (List.map_injective_iff.2 (fun a b h => by simpa using h)) h5
    exact ⟨st', h4, by rw [this]; exact hs2⟩

/-- The modules of the chain, in a dictionary with a list. -/
def chModules : Tree Int := .dict [("z".toList, .leaf 2), ("B".toList, .list [.leaf 3, .leaf 11]), ("C".toList, .leaf 5)]
/-- The chain `z, B.1, C`. -/
def chPaths : List (List Str) := [["z".toList], ["B".toList, "1".toList], ["C".toList]]
/-- Parameters. -/
def chParams : Tree Int := .dict [("z".toList, .leaf 1), ("B".toList, .list [.leaf 0, .leaf 10]), ("C".toList, .leaf 100)]
/-- States. -/
def chState : Tree Nat := .dict [("z".toList, .leaf 0), ("B".toList, .list [.leaf 6, .leaf 7]), ("C".toList, .leaf 9)]

theorem chainOk_demo : ChainOk '.' uFresh chModules chPaths := by
  refine ⟨by decide, by decide, by decide, by decide, ?_, by decide, ?_, by decide, ?_, ?_⟩
  · intro p hp
    simp only [chPaths, List.mem_cons, List.not_mem_nil, or_false] at hp
    rcases hp with rfl | rfl | rfl
    · exact ⟨by decide, by decide, by decide, 2, rfl⟩
    · exact ⟨by decide, by decide, by decide, 11, rfl⟩
    · exact ⟨by decide, by decide, by decide, 5, rfl⟩
  · unfold Canonical; decide
  · have hu : ∀ (k : Str) (q : List Str), Uniform [k] q ∧ Uniform q [k] := fun k q => uniform_single k q
    intro m h m' h'
    simp only [chPaths, List.mem_cons, List.not_mem_nil, or_false] at h h'
    rcases h with rfl | rfl | rfl
    · exact (hu _ _).1
    · rcases h' with rfl | rfl | rfl
      · exact (hu _ _).2
      · intro c k r k' r' _ e e'
        rw [e] at e'
        have := List.append_cancel_left e'
        simp only [List.cons.injEq] at this
        rw [this.1]
      · exact (hu _ _).2
    · exact (hu _ _).1
  · intro p hp w hw o c i
    show w ≠ "u".toList
    revert w; revert p; decide

example : chainConn '.' chPaths = [("input".toList, ["z".toList]), ("z".toList, ["B.1".toList]), ("B.1".toList, ["C".toList]),
    ("C".toList, ["output".toList])] := by decide

example : ∃ st', nsCall demoSig '.' uFresh chModules (chainConn '.' chPaths) chParams (.leaf 1) false chState 0 =
    .ok (.leaf 315, st') ∧
    List.Forall₂ (fun p b => Tree.get st' p = .ok (.leaf b)) chPaths [1, 8, 10] :=
  ⟨.dict [("z".toList, .leaf 1), ("B".toList, .list [.leaf 6, .leaf 8]), ("C".toList, .leaf 10)], by decide +kernel,
    .cons rfl (.cons rfl (.cons rfl .nil))⟩

/-! ### C21 -/

/-- **C21**, non-sequential models: the declared output shape is the shape of what the model computes. -/
theorem C21_nonsequential (sig : Sig M P S K A) (shp : A → Shape) (hd : Declares sig shp) (sep : Char)
    (fresh : Str → Nat → Nat → Str) (modules : Tree M) (conn : List (Str × List Str)) (h : Names sep modules conn)
    (params : Tree P) (data out : Tree A) (training : Bool) (state st' : Tree S) (rng : K)
    (hc : nsCall sig sep fresh modules conn params data training state rng = .ok (out, st')) :
    nsOutputShape sig sep fresh modules conn (data.map shp) = checkShape (out.map shp) := by
  obtain ⟨outs, ins, hs⟩ := nsShapes_of_call hd h hc
  unfold nsOutputShape
  rw [hs]

/-- **C21**, non-sequential models: compilation gives each scheduled module the shape of what it will later be given, keeps
all other modules, and records the shape of the output. Compiling a module must not change the output shape it declares
for the shape it is compiled with (the model infers all shapes before it compiles any module). -/
theorem C21_nonsequential_compile (sig : Sig M P S K A) (shp : A → Shape) (hd : Declares sig shp)
    (hkeep : ∀ m k s m', sig.compile m k s = .ok m' → sig.outShape m' s = sig.outShape m s) (sep : Char)
    (fresh : Str → Nat → Nat → Str) (hf : FreshOk sep fresh) (modules modules' : Tree M) (conn : List (Str × List Str))
    (h : Names sep modules conn) (key : K) (order : List Str) (r : Tree Shape)
    (params : Tree P) (data out : Tree A) (training : Bool) (state st' : Tree S) (rng : K)
    (hcomp : nsCompile sig sep fresh modules conn key (data.map shp) = .ok (modules', order, r))
    (hcall : nsCall sig sep fresh modules' conn params data training state rng = .ok (out, st')) :
    r = out.map shp ∧
    (∀ q, Proper q → (∀ m, Scheduled (nsCfg sep) modules conn m → Diverge m q) → Tree.get modules' q = Tree.get modules q) ∧
    ∃ R req val news, concretizeConnections (nsCfg sep) fresh modules conn = .ok R ∧
      (∀ m, Scheduled (nsCfg sep) modules conn m → Holds sep R m (req m)) ∧
      Holds sep R ["output".toList] (req ["output".toList]) ∧
      Dataflow (nsCfg sep) modules' params state (fun b p x s => sig.call b p x training s rng)
        (Scheduled (nsCfg sep) modules conn) req data val news out ∧
      ∀ m, Scheduled (nsCfg sep) modules conn m → ∃ b b' k inp, Tree.get modules m = .ok (.leaf b) ∧
        Tree.get modules' m = .ok (.leaf b') ∧ Fills (Reads (nsCfg sep) modules' val) (req m) inp ∧
        sig.compile b k (inp.map shp) = .ok b' := by
  obtain ⟨h1, -, h3, h4⟩ := nsCompile_call hd hkeep h hf hcomp hcall
  exact ⟨h1, h3, h4⟩

/-- The diamond with modules that change shapes. -/
def diaRep : Tree Nat := .dict [("A".toList, .leaf 2), ("B".toList, .list [.leaf 3]), ("C".toList, .leaf 2)]

example : nsCompile repSig '.' uFresh diaRep diaConn 0 (.leaf [2]) = .ok (diaRep,
    ["input".toList, "A".toList, "B.0".toList, "C".toList, "output".toList],
    .dict [("x".toList, .leaf [8]), ("y".toList, .leaf [12])]) := by decide +kernel

example : (nsCall repSig '.' uFresh diaRep diaConn (diaRep.map fun _ => ()) (.leaf [5, 6]) false (diaRep.map fun _ => ()) 0) =
    .ok (.dict [("x".toList, .leaf [5, 5, 5, 5, 6, 6, 6, 6]), ("y".toList, .leaf [5, 5, 5, 5, 5, 5, 6, 6, 6, 6, 6, 6])],
      diaRep.map fun _ => ()) := by decide +kernel

example : ∀ m k s m', repSig.compile m k s = .ok m' → repSig.outShape m' s = repSig.outShape m s := by
  intro m k s m' h
  simp only [repSig, Except.ok.injEq] at h
  rw [h]

/-! ### C22 -/

/-- **C22** After a call the state of a module that is not scheduled is what it was, and the state of a scheduled module is
what its own callable returned for the input given by the dataflow equations. -/
theorem C22_states (sig : Sig M P S K A) (sep : Char) (fresh : Str → Nat → Nat → Str) (hf : FreshOk sep fresh)
    (modules : Tree M) (conn : List (Str × List Str)) (h : Names sep modules conn) (params : Tree P) (data out : Tree A)
    (training : Bool) (state st' : Tree S) (rng : K)
    (hc : nsCall sig sep fresh modules conn params data training state rng = .ok (out, st')) :
    (∀ m, IsModule (nsCfg sep) modules m → Proper m → Canonical m → ¬ Scheduled (nsCfg sep) modules conn m →
      Tree.get st' m = Tree.get state m) ∧
    (∀ m, Scheduled (nsCfg sep) modules conn m → ∃ b p s inp v s', Tree.get modules m = .ok (.leaf b) ∧
      Tree.get params m = .ok (.leaf p) ∧ Tree.get state m = .ok (.leaf s) ∧ sig.call b p inp training s rng = .ok (v, s') ∧
      Tree.get st' m = .ok (.leaf s')) := by
  obtain ⟨R, placed, outPlaced, val, news, h1, -, h3, h4, h5, h6⟩ := nsCall_dataflow h hf hc
  obtain ⟨order, ho⟩ : ∃ order, execOrder sep modules conn = .ok order := by
    obtain ⟨_, order, _, _, _, _, _, hr⟩ := (nsCall_run h).1 hc
    exact ⟨order, hr.exec⟩
  obtain ⟨ms, hms⟩ := order_main h ho
  constructor
  · intro m hm hp hcan hs
    refine h6.frame m hp fun m' hm' => ?_
    have hmm := (hms.mem m').2 hm'
    obtain ⟨b, hb⟩ := hm.2.2.2
    obtain ⟨b', hb'⟩ := hm'.1.2.2.2
    have hne : m' ≠ m := by rintro rfl; exact hs hm'
    have hp' : Proper m' := fun w hw => ((hms.comps m' hmm).1 w hw).1
    exact diverge_of_free (hms.comps m' hmm).2 hcan (fun hpre => hne (leaf_not_prefix hp hb' hb hpre))
      (fun hpre => hne (leaf_not_prefix hp' hb hb' hpre).symm)
  · intro m hm
    obtain ⟨b, p, s, inp, s', a1, a2, a3, a4, a5, a6⟩ := h5.step m hm
    obtain ⟨s2, e, hs2⟩ := h6.new m hm
    rw [a6] at e
    cases e
    exact ⟨b, p, s, inp, _, s', a1, a2, a3, a5, hs2⟩

/-- **C22** Parameters and states of modules that are not scheduled have no influence on the output. -/
theorem C22_unused_irrelevant (sig : Sig M P S K A) (sep : Char) (fresh : Str → Nat → Nat → Str) (hf : FreshOk sep fresh)
    (modules : Tree M) (conn : List (Str × List Str)) (h : Names sep modules conn) (params params2 : Tree P)
    (data out out2 : Tree A) (training : Bool) (state state2 st' st2' : Tree S) (rng : K)
    (hp : ∀ m, Scheduled (nsCfg sep) modules conn m → Tree.get params m = Tree.get params2 m)
    (hs : ∀ m, Scheduled (nsCfg sep) modules conn m → Tree.get state m = Tree.get state2 m)
    (hc : nsCall sig sep fresh modules conn params data training state rng = .ok (out, st'))
    (hc2 : nsCall sig sep fresh modules conn params2 data training state2 rng = .ok (out2, st2')) :
    out = out2 ∧ ∀ m, Scheduled (nsCfg sep) modules conn m → Tree.get st' m = Tree.get st2' m := by
  obtain ⟨R, placed, outPlaced, val, news, h1, g, h3, h4, h5, h6⟩ := nsCall_dataflow h hf hc
  obtain ⟨R2, placed2, outPlaced2, val2, news2, h1', g2, h3', h4', h5', h6'⟩ := nsCall_dataflow h hf hc2
  rw [g] at g2
  cases g2
  obtain ⟨order, ho⟩ : ∃ order, execOrder sep modules conn = .ok order := by
    obtain ⟨_, order, _, _, _, _, _, hr⟩ := (nsCall_run h).1 hc
    exact ⟨order, hr.exec⟩
  obtain ⟨R3, hR3, hcon⟩ := concrete_ok h hf
  rw [h1] at hR3
  cases hR3
  have hd : Dataflow (nsCfg sep) modules params state (fun b p x s => sig.call b p x training s rng)
      (Scheduled (nsCfg sep) modules conn) (reqOf placed outPlaced) data val2 news2 out2 := by
    refine ⟨h5'.input, fun m hm => ?_, h5'.output⟩
    obtain ⟨b, p, s, inp, s', a1, a2, a3, a4, a5, a6⟩ := h5'.step m hm
    exact ⟨b, p, s, inp, s', a1, by rw [hp m hm]; exact a2, by rw [hs m hm]; exact a3, a4, a5, a6⟩
  obtain ⟨u1, u2⟩ := dataflow_unique h ho hcon h3 h4 h5 hd
  refine ⟨u1, fun m hm => ?_⟩
  obtain ⟨s1, e1, q1⟩ := h6.new m hm
  obtain ⟨s2, e2, q2⟩ := h6'.new m hm
  rw [(u2 m hm).2, e2] at e1
  cases e1
  rw [q1, q2]

/-- The diamond with a module `D` that nothing leads to. -/
def deadModules : Tree Int :=
  .dict [("A".toList, .leaf 2), ("B".toList, .list [.leaf 3]), ("C".toList, .leaf 5), ("D".toList, .leaf 4)]

example : IsModule (nsCfg '.') deadModules ["D".toList] ∧ Proper ["D".toList] ∧ Canonical ["D".toList] :=
  ⟨⟨by decide, by decide, by decide, 4, rfl⟩, by decide, by unfold Canonical; decide⟩

-- `D` keeps its state 3
example : nsCall demoSig '.' uFresh deadModules diaConn
    (.dict [("A".toList, .leaf 1), ("B".toList, .list [.leaf 10]), ("C".toList, .leaf 100), ("D".toList, .leaf 0)])
    (.leaf 1) false
    (.dict [("A".toList, .leaf 0), ("B".toList, .list [.leaf 7]), ("C".toList, .leaf 9), ("D".toList, .leaf 3)]) 0 =
    .ok (.dict [("x".toList, .leaf 115), ("y".toList, .leaf 165)],
      .dict [("A".toList, .leaf 1), ("B".toList, .list [.leaf 8]), ("C".toList, .leaf 10), ("D".toList, .leaf 3)]) := by decide +kernel

end Verif.Props
