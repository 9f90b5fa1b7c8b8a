import Verif.Lemmas.Unused
import Verif.Props.Rename

/-!
# C113: what does not lead to the output of a graph model does not matter

Two models are compared that have the same modules and connections as far as these lead to the output.
-/

namespace Verif.Props
open Verif.Forward Verif.ForwardSpec Verif.DataflowSpec Verif.RenameSpec Verif.Tree Verif.ConnSpec Verif.TreeSpec Verif.PathSpec Verif.Conn

variable {M P S K A : Type}

/-- **C113** Two graph models that agree in the modules that lead to the output, in the parameters and states of these, and in the connections that end
at these or at the output, return the same output (up to the order of dictionaries) and the same new states of the executed modules. All other modules and connections
may differ; they may be fed by anything and may even form cycles. -/
theorem C113_same_result (sig : Sig M P S K A) (hb : OrderBlind sig) (sep : Char) (fresh fresh' : Str → Nat → Nat → Str) (hf : FreshOk sep fresh)
    (hf' : FreshOk sep fresh') (modules modules' : Tree M) (conn conn' : List (Str × List Str)) (h : Names sep modules conn)
    (h' : Names sep modules' conn') (hcl : Clear sep fresh conn) (hcl' : Clear sep fresh' conn')
    (hforth : ∀ e ∈ edges conn, Used (nsCfg sep) modules conn e → e ∈ edges conn')
    (hback : ∀ e ∈ edges conn', Used (nsCfg sep) modules' conn' e → e ∈ edges conn) (params params' : Tree P) (state state' : Tree S)
    (hM : ∀ m, IsModule (nsCfg sep) modules m → Leads (nsCfg sep) modules conn m →
      Tree.get modules' m = Tree.get modules m ∧ Tree.get params' m = Tree.get params m ∧ Tree.get state' m = Tree.get state m)
    (data out out' : Tree A) (hd : KeysOk data) (st st' : Tree S) (training : Bool) (rng : K)
    (hc : nsCall sig sep fresh modules conn params data training state rng = .ok (out, st))
    (hc' : nsCall sig sep fresh' modules' conn' params' data training state' rng = .ok (out', st')) :
    out'.norm = out.norm ∧ ∀ m, Scheduled (nsCfg sep) modules conn m → Tree.get st' m = Tree.get st m := by
  have hr := unused_renames h h' (fun m h1 h2 => (hM m h1 h2).1) hforth hback
  have hl : ∀ m m', Counts sep modules modules' conn m m' → IsModule (nsCfg sep) modules m → m = m' ∧ Leads (nsCfg sep) modules conn m := by
    rintro m m' ⟨rfl, h1 | h1 | h1⟩ hm
    · subst h1; exact absurd rfl hm.2.1
    · subst h1; exact absurd rfl hm.2.2.1
    · exact ⟨rfl, h1.2.2⟩
  have key := nsCall_rename hb h h' hf hf' hcl hcl' hr
    (fun m m' hmm hm => by obtain ⟨rfl, k⟩ := hl m m' hmm hm; exact (hM m hm k).1)
    (params := params) (params' := params') (fun m m' hmm hm => by obtain ⟨rfl, k⟩ := hl m m' hmm hm; exact (hM m hm k).2.1)
    (state := state) (state' := state') (fun m m' hmm hm => by obtain ⟨rfl, k⟩ := hl m m' hmm hm; exact (hM m hm k).2.2)
    ⟨hd, hd, rfl⟩ hc hc'
  exact ⟨key.1, fun m hm => key.2 m m ⟨rfl, .inr (.inr ⟨hm.1, isModule_same hm.1 (hM m hm.1 hm.2.2).1, hm.2.2⟩)⟩ hm⟩

/-- **C113** The second model returns if the first does, provided that places beside each other are either all numbered or all named: what is not used cannot make a call fail. -/
theorem C113_returns (sig : Sig M P S K A) (hb : OrderBlind sig) (sep : Char) (fresh fresh' : Str → Nat → Nat → Str) (hf : FreshOk sep fresh)
    (hf' : FreshOk sep fresh') (modules modules' : Tree M) (conn conn' : List (Str × List Str)) (h : Names sep modules conn)
    (h' : Names sep modules' conn') (hcl : Clear sep fresh conn) (hcl' : Clear sep fresh' conn')
    (hforth : ∀ e ∈ edges conn, Used (nsCfg sep) modules conn e → e ∈ edges conn')
    (hback : ∀ e ∈ edges conn', Used (nsCfg sep) modules' conn' e → e ∈ edges conn) (params params' : Tree P) (state state' : Tree S)
    (hM : ∀ m, IsModule (nsCfg sep) modules m → Leads (nsCfg sep) modules conn m →
      Tree.get modules' m = Tree.get modules m ∧ Tree.get params' m = Tree.get params m ∧ Tree.get state' m = Tree.get state m)
    (hst : hasTuple state' = false) (hu : ∀ e ∈ edges conn', ∀ e' ∈ edges conn', Uniform (splitOn sep e.2) (splitOn sep e'.2))
    (hum : ∀ m m', Scheduled (nsCfg sep) modules' conn' m → Scheduled (nsCfg sep) modules' conn' m' → Uniform m m')
    (data out : Tree A) (hd : KeysOk data) (st : Tree S) (training : Bool) (rng : K)
    (hc : nsCall sig sep fresh modules conn params data training state rng = .ok (out, st)) :
    ∃ out' st', nsCall sig sep fresh' modules' conn' params' data training state' rng = .ok (out', st') ∧ out'.norm = out.norm ∧
      ∀ m, Scheduled (nsCfg sep) modules conn m → Tree.get st' m = Tree.get st m := by
  have hr := unused_renames h h' (fun m h1 h2 => (hM m h1 h2).1) hforth hback
  have hl : ∀ m m', Counts sep modules modules' conn m m' → IsModule (nsCfg sep) modules m → m = m' ∧ Leads (nsCfg sep) modules conn m := by
    rintro m m' ⟨rfl, h1 | h1 | h1⟩ hm
    · subst h1; exact absurd rfl hm.2.1
    · subst h1; exact absurd rfl hm.2.2.1
    · exact ⟨rfl, h1.2.2⟩
  obtain ⟨out', st', hc'⟩ := nsCall_rename_ok hb h h' hf hf' hcl hcl' hr
    (fun m m' hmm hm => by obtain ⟨rfl, k⟩ := hl m m' hmm hm; exact (hM m hm k).1)
    (params := params) (params' := params') (fun m m' hmm hm => by obtain ⟨rfl, k⟩ := hl m m' hmm hm; exact (hM m hm k).2.1)
    (state := state) (state' := state') (fun m m' hmm hm => by obtain ⟨rfl, k⟩ := hl m m' hmm hm; exact (hM m hm k).2.2)
    hst hu hum ⟨hd, hd, rfl⟩ hc
  exact ⟨out', st', hc', C113_same_result sig hb sep fresh fresh' hf hf' modules modules' conn conn' h h' hcl hcl' hforth hback params params' state state'
    hM data out out' hd st st' training rng hc hc'⟩

/-! ### Example: the diamond with two more modules, one fed by a module of the diamond, the other by itself -/

/-- The diamond with two more modules. -/
def moreModules : Tree Int :=
  .dict [("A".toList, .leaf 2), ("B".toList, .list [.leaf 3]), ("C".toList, .leaf 5), ("D".toList, .leaf 7), ("E".toList, .leaf 11)]
/-- `{"input": ["A", "B.0"], "A": ["C.x", "D"], "B.0": "C.y", "C": "output", "E": "E"}` -/
def moreConn : List (Str × List Str) :=
  [("input".toList, ["A".toList, "B.0".toList]), ("A".toList, ["C.x".toList, "D".toList]), ("B.0".toList, ["C.y".toList]),
   ("C".toList, ["output".toList]), ("E".toList, ["E".toList])]
/-- Parameters of the larger model. -/
def moreParams : Tree Int :=
  .dict [("A".toList, .leaf 1), ("B".toList, .list [.leaf 10]), ("C".toList, .leaf 100), ("D".toList, .leaf 0), ("E".toList, .leaf 0)]
/-- States of the larger model. -/
def moreState : Tree Nat :=
  .dict [("A".toList, .leaf 0), ("B".toList, .list [.leaf 7]), ("C".toList, .leaf 9), ("D".toList, .leaf 3), ("E".toList, .leaf 4)]

theorem moreNames : Names '.' moreModules moreConn := by
  have mA : IsModule (nsCfg '.') moreModules ["A".toList] := ⟨by decide, by decide, by decide, 2, rfl⟩
  have mB : IsModule (nsCfg '.') moreModules ["B".toList, "0".toList] := ⟨by decide, by decide, by decide, 3, rfl⟩
  have mC : IsModule (nsCfg '.') moreModules ["C".toList] := ⟨by decide, by decide, by decide, 5, rfl⟩
  have mD : IsModule (nsCfg '.') moreModules ["D".toList] := ⟨by decide, by decide, by decide, 7, rfl⟩
  have mE : IsModule (nsCfg '.') moreModules ["E".toList] := ⟨by decide, by decide, by decide, 11, rfl⟩
  refine ⟨by decide, by decide, by decide, ⟨by decide, ?_, ?_⟩, ?_, ?_, ?_, ?_⟩
  · intro kv hkv
    simp only [moreConn, List.mem_cons, List.not_mem_nil, or_false] at hkv
    rcases hkv with rfl | rfl | rfl | rfl | rfl
    · exact ⟨["input".toList], [], by decide, by decide, .inl rfl⟩
    · exact ⟨["A".toList], [], by decide, by decide, .inr mA⟩
    · exact ⟨["B".toList, "0".toList], [], by decide, by decide, .inr mB⟩
    · exact ⟨["C".toList], [], by decide, by decide, .inr mC⟩
    · exact ⟨["E".toList], [], by decide, by decide, .inr mE⟩
  · intro kv hkv v hv
    simp only [moreConn, List.mem_cons, List.not_mem_nil, or_false] at hkv
    rcases hkv with rfl | rfl | rfl | rfl | rfl <;> simp only [List.mem_cons, List.not_mem_nil, or_false] at hv
    · rcases hv with rfl | rfl
      · exact ⟨["A".toList], [], by decide, by decide, .inr mA⟩
      · exact ⟨["B".toList, "0".toList], [], by decide, by decide, .inr mB⟩
    · rcases hv with rfl | rfl
      · exact ⟨["C".toList], ["x".toList], by decide, by decide, .inr mC⟩
      · exact ⟨["D".toList], [], by decide, by decide, .inr mD⟩
    · subst hv; exact ⟨["C".toList], ["y".toList], by decide, by decide, .inr mC⟩
    · subst hv; exact ⟨["output".toList], [], by decide, by decide, .inl rfl⟩
    · subst hv; exact ⟨["E".toList], [], by decide, by decide, .inr mE⟩
  · unfold Canonical; decide
  · unfold Canonical; decide
  · intro kv hkv w hw
    rcases hw with rfl | rfl <;> revert kv <;> decide
  · decide

theorem moreClear : Clear '.' uFresh moreConn := by
  refine ⟨by unfold PrefixFree; decide, ?_⟩
  intro e he w hw o c i
  show w ≠ "u".toList
  revert e w; decide

/-- Whatever leads to the output of the larger model is the output, or belongs to the diamond. -/
theorem more_leads {m : List Str} (h : Leads (nsCfg '.') moreModules moreConn m) : m ≠ ["D".toList] ∧ m ≠ ["E".toList] := by
  have mD : IsModule (nsCfg '.') moreModules ["D".toList] := ⟨by decide, by decide, by decide, 7, rfl⟩
  have mE : IsModule (nsCfg '.') moreModules ["E".toList] := ⟨by decide, by decide, by decide, 11, rfl⟩
  induction h using Relation.ReflTransGen.head_induction_on with
  | refl => exact ⟨by decide, by decide⟩
  | @head a b hf _ ih =>
    obtain ⟨e, he, r, s, h1, h2⟩ := hf
    simp only [edges, moreConn, List.flatMap_cons, List.flatMap_nil, List.map_cons, List.map_nil, List.cons_append, List.nil_append, List.append_nil,
      List.mem_cons, List.not_mem_nil, or_false] at he
    have hE : e.1 = "E".toList → e.2 = "E".toList := by
      rcases he with rfl | rfl | rfl | rfl | rfl | rfl | rfl <;> decide
    have hD : e.1 ≠ "D".toList := by
      rcases he with rfl | rfl | rfl | rfl | rfl | rfl | rfl <;> decide
    have hsp : ∀ x : Str, x = "D".toList ∨ x = "E".toList → a = [x] → e.1 = x := by
      rintro x hx rfl
      have := h1.1
      rcases he with rfl | rfl | rfl | rfl | rfl | rfl | rfl <;> rcases hx with rfl | rfl <;> first | rfl | (exfalso; revert this; simp [nsCfg, splitOn])
    constructor
    · intro ha
      exact hD (hsp _ (.inl rfl) ha)
    · intro ha
      have e2 := hE (hsp _ (.inr rfl) ha)
      have ht : Target (nsCfg '.') moreModules e.2 ["E".toList] [] := by rw [e2]; exact ⟨by decide, by decide, .inr mE⟩
      exact ih.2 (target_unique h2 ht).1

theorem more_used : (∀ e ∈ edges diaConn, Used (nsCfg '.') diaModules diaConn e → e ∈ edges moreConn) ∧
    ∀ e ∈ edges moreConn, Used (nsCfg '.') moreModules moreConn e → e ∈ edges diaConn := by
  have mD : IsModule (nsCfg '.') moreModules ["D".toList] := ⟨by decide, by decide, by decide, 7, rfl⟩
  have mE : IsModule (nsCfg '.') moreModules ["E".toList] := ⟨by decide, by decide, by decide, 11, rfl⟩
  constructor
  · have : ∀ e ∈ edges diaConn, e ∈ edges moreConn := by decide
    exact fun e he _ => this e he
  · rintro e he ⟨b, s, ht, hl⟩
    have : ∀ e ∈ edges moreConn, e ∈ edges diaConn ∨ e.2 = "D".toList ∨ e.2 = "E".toList := by decide
    rcases this e he with h | h | h
    · exact h
    · have h2 : Target (nsCfg '.') moreModules e.2 ["D".toList] [] := by rw [h]; exact ⟨by decide, by decide, .inr mD⟩
      exact absurd (target_unique ht h2).1 (more_leads hl).1
    · have h2 : Target (nsCfg '.') moreModules e.2 ["E".toList] [] := by rw [h]; exact ⟨by decide, by decide, .inr mE⟩
      exact absurd (target_unique ht h2).1 (more_leads hl).2

theorem more_agree (m : List Str) (hm : IsModule (nsCfg '.') diaModules m) (hl : Leads (nsCfg '.') diaModules diaConn m) :
    Tree.get moreModules m = Tree.get diaModules m ∧ Tree.get moreParams m = Tree.get diaParams m ∧ Tree.get moreState m = Tree.get diaState m := by
  rcases Relation.ReflTransGen.cases_head hl with e | ⟨b, ⟨e, he, r, s, h1, -⟩, -⟩
  · subst e; exact absurd rfl hm.2.2.1
  · have hc : ∀ e ∈ edges diaConn, splitOn '.' e.1 = ["input".toList] ∨ splitOn '.' e.1 = ["A".toList] ∨ splitOn '.' e.1 = ["B".toList, "0".toList] ∨
        splitOn '.' e.1 = ["C".toList] := by decide
    have hs : splitOn '.' e.1 = m ++ r := h1.1
    rcases hc e he with h | h | h | h <;> rw [h] at hs
    · obtain ⟨x, rfl⟩ : ∃ x, m = x :: [] := by
        cases m with
        | nil => exact absurd rfl hm.1
        | cons x l => simp at hs; exact ⟨x, by rw [hs.2.1]⟩
      simp at hs
      exact absurd (by rw [← hs.1]; rfl) hm.2.1
    · obtain ⟨x, rfl⟩ : ∃ x, m = x :: [] := by
        cases m with
        | nil => exact absurd rfl hm.1
        | cons x l => simp at hs; exact ⟨x, by rw [hs.2.1]⟩
      simp at hs
      obtain ⟨rfl, -⟩ := hs
      exact ⟨rfl, rfl, rfl⟩
    · have mB : IsModule (nsCfg '.') diaModules ["B".toList, "0".toList] := ⟨by decide, by decide, by decide, 3, rfl⟩
      obtain ⟨rfl, -⟩ := isTarget_unique (r := []) (.inr mB) (.inr hm) (by decide) (by rw [List.append_nil]; exact hs)
      exact ⟨rfl, rfl, rfl⟩
    · obtain ⟨x, rfl⟩ : ∃ x, m = x :: [] := by
        cases m with
        | nil => exact absurd rfl hm.1
        | cons x l => simp at hs; exact ⟨x, by rw [hs.2.1]⟩
      simp at hs
      obtain ⟨rfl, -⟩ := hs
      exact ⟨rfl, rfl, rfl⟩

-- the hypotheses hold for the diamond and the larger model
example (out out' : Tree Int) (st st' : Tree Nat) (hc : nsCall demoSig '.' uFresh diaModules diaConn diaParams (.leaf 1) false diaState 0 = .ok (out, st))
    (hc' : nsCall demoSig '.' uFresh moreModules moreConn moreParams (.leaf 1) false moreState 0 = .ok (out', st')) : out'.norm = out.norm :=
  (C113_same_result demoSig demoBlind '.' uFresh uFresh uFresh_ok uFresh_ok diaModules moreModules diaConn moreConn diaNames moreNames diaClear moreClear
    more_used.1 more_used.2 diaParams moreParams diaState moreState more_agree (.leaf 1) out out' trivial st st' false 0 hc hc').1

example : nsCall demoSig '.' uFresh moreModules moreConn moreParams (.leaf 1) false moreState 0 =
    .ok (.dict [("x".toList, .leaf 115), ("y".toList, .leaf 165)],
      .dict [("A".toList, .leaf 1), ("B".toList, .list [.leaf 8]), ("C".toList, .leaf 10), ("D".toList, .leaf 3), ("E".toList, .leaf 4)]) := by decide +kernel

end Verif.Props
