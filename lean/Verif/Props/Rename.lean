import Verif.Lemmas.Rename
import Verif.Lemmas.TreeZip
import Verif.Props.NonSeq

/-!
# C103: names and order do not matter in a graph model

Two models are compared that are the same up to the paths of their modules, the order of the connections and the order of dictionaries.
-/

namespace Verif.Props
open Verif.Forward Verif.ForwardSpec Verif.DataflowSpec Verif.RenameSpec Verif.Tree Verif.ConnSpec Verif.TreeSpec Verif.PathSpec Verif.Conn

variable {M P S K A : Type}

/-- **C103** Two graph models whose connected modules correspond to each other one to one, with the same connections between corresponding modules, the same
modules, parameters and states, return the same output up to the order of dictionaries, and the same new states. No place may be connected twice. -/
theorem C103_same_result (sig : Sig M P S K A) (hb : OrderBlind sig) (sep : Char) (fresh fresh' : Str → Nat → Nat → Str) (hf : FreshOk sep fresh)
    (hf' : FreshOk sep fresh') (modules modules' : Tree M) (conn conn' : List (Str × List Str)) (h : Names sep modules conn)
    (h' : Names sep modules' conn') (hcl : Clear sep fresh conn) (hcl' : Clear sep fresh' conn') (rel : List Str → List Str → Prop)
    (hr : Renames (nsCfg sep) modules modules' conn conn' rel) (params params' : Tree P) (state state' : Tree S)
    (hM : Agree (nsCfg sep) modules rel modules modules') (hP : Agree (nsCfg sep) modules rel params params')
    (hS : Agree (nsCfg sep) modules rel state state') (data data' out out' : Tree A) (hd : KeysOk data) (hd' : KeysOk data')
    (hdd : data'.norm = data.norm) (st st' : Tree S) (training : Bool) (rng : K)
    (hc : nsCall sig sep fresh modules conn params data training state rng = .ok (out, st))
    (hc' : nsCall sig sep fresh' modules' conn' params' data' training state' rng = .ok (out', st')) :
    out'.norm = out.norm ∧ ∀ m m', rel m m' → Scheduled (nsCfg sep) modules conn m → Tree.get st' m' = Tree.get st m :=
  nsCall_rename hb h h' hf hf' hcl hcl' hr hM hP hS ⟨hd, hd', hdd⟩ hc hc'

/-- **C103** If one of the models returns, so does the other, provided that places beside each other are either all numbered or all named. -/
theorem C103_returns (sig : Sig M P S K A) (hb : OrderBlind sig) (sep : Char) (fresh fresh' : Str → Nat → Nat → Str) (hf : FreshOk sep fresh)
    (hf' : FreshOk sep fresh') (modules modules' : Tree M) (conn conn' : List (Str × List Str)) (h : Names sep modules conn)
    (h' : Names sep modules' conn') (hcl : Clear sep fresh conn) (hcl' : Clear sep fresh' conn') (rel : List Str → List Str → Prop)
    (hr : Renames (nsCfg sep) modules modules' conn conn' rel) (params params' : Tree P) (state state' : Tree S)
    (hM : Agree (nsCfg sep) modules rel modules modules') (hP : Agree (nsCfg sep) modules rel params params')
    (hS : Agree (nsCfg sep) modules rel state state') (hst : hasTuple state' = false)
    (hu : ∀ e ∈ edges conn', ∀ e' ∈ edges conn', Uniform (splitOn sep e.2) (splitOn sep e'.2))
    (hum : ∀ m m', Scheduled (nsCfg sep) modules' conn' m → Scheduled (nsCfg sep) modules' conn' m' → Uniform m m')
    (data data' out : Tree A) (hd : KeysOk data) (hd' : KeysOk data') (hdd : data'.norm = data.norm) (st : Tree S) (training : Bool) (rng : K)
    (hc : nsCall sig sep fresh modules conn params data training state rng = .ok (out, st)) :
    ∃ out' st', nsCall sig sep fresh' modules' conn' params' data' training state' rng = .ok (out', st') ∧ out'.norm = out.norm ∧
      ∀ m m', rel m m' → Scheduled (nsCfg sep) modules conn m → Tree.get st' m' = Tree.get st m := by
  obtain ⟨out', st', hc'⟩ := nsCall_rename_ok hb h h' hf hf' hcl hcl' hr hM hP hS hst hu hum ⟨hd, hd', hdd⟩ hc
  exact ⟨out', st', hc', nsCall_rename hb h h' hf hf' hcl hcl' hr hM hP hS ⟨hd, hd', hdd⟩ hc hc'⟩

/-- **C103** The same model with the connections written in another order, grouped differently by source, and with a source of new identifiers of its own. -/
theorem C103_order (sig : Sig M P S K A) (hb : OrderBlind sig) (sep : Char) (fresh fresh' : Str → Nat → Nat → Str) (hf : FreshOk sep fresh)
    (hf' : FreshOk sep fresh') (modules : Tree M) (conn conn' : List (Str × List Str)) (h : Names sep modules conn)
    (h' : Names sep modules conn') (hcl : Clear sep fresh conn) (hnew : ∀ e ∈ edges conn, ∀ w ∈ splitOn sep e.2, ∀ o c i, w ≠ fresh' o c i)
    (hperm : (edges conn').Perm (edges conn)) (params : Tree P) (state : Tree S) (data out out' : Tree A) (hd : KeysOk data) (st st' : Tree S)
    (training : Bool) (rng : K) (hc : nsCall sig sep fresh modules conn params data training state rng = .ok (out, st))
    (hc' : nsCall sig sep fresh' modules conn' params data training state rng = .ok (out', st')) :
    out'.norm = out.norm ∧ ∀ m, Scheduled (nsCfg sep) modules conn m → Tree.get st' m = Tree.get st m := by
  have hsame : ∀ e ∈ edges conn, SameEdge (nsCfg sep) modules modules Eq e e := by
    intro e he
    obtain ⟨kv, hkv, e1, e2⟩ := mem_edges_key he
    obtain ⟨a, r, hs⟩ := h.wf.source kv hkv
    obtain ⟨b, s, ht⟩ := h.wf.target kv hkv _ e2
    rw [e1] at hs
    exact ⟨a, r, b, s, a, b, rfl, rfl, hs, ht, hs, ht⟩
  have hcl' : Clear sep fresh' conn' := by
    refine ⟨?_, fun e he => hnew e (hperm.subset he)⟩
    have hp := hperm.map fun e : Str × Str => splitOn sep e.2
    exact (List.Perm.pairwise_iff (fun {x y} hxy => ⟨hxy.2, hxy.1⟩) hp).2 hcl.free
  have hr : Renames (nsCfg sep) modules modules conn conn' Eq :=
    { input := rfl, output := rfl, left := fun _ _ _ h1 h2 => h1.trans h2.symm, right := fun _ _ _ h1 h2 => h1.symm.trans h2
      mod := fun _ _ e => by rw [e], forth := fun e he _ => ⟨e, hperm.symm.subset he, hsame e he⟩
      back := fun e he _ => ⟨e, hperm.subset he, hsame e (hperm.subset he)⟩ }
  have hag : ∀ {β : Type} (t : Tree β), Agree (nsCfg sep) modules Eq t t := fun t m m' e _ => by rw [e]
  obtain ⟨h1, h2⟩ := nsCall_rename hb h h' hf hf' hcl hcl' hr (hag _) (hag params) (hag state) ⟨hd, hd, rfl⟩ hc hc'
  exact ⟨h1, fun m hm => h2 m m rfl hm⟩

/-! ### Examples: the diamond with other names and another order -/

/-- The modules of the diamond under other names. -/
def renModules : Tree Int := .dict [("q".toList, .leaf 5), ("k".toList, .dict [("n".toList, .leaf 2)]), ("w".toList, .leaf 3), ("unused".toList, .leaf 8)]
/-- `{"q": "output", "w": "q.y", "k.n": "q.x", "input": ["w", "k.n"]}` -/
def renConn : List (Str × List Str) :=
  [("q".toList, ["output".toList]), ("w".toList, ["q.y".toList]), ("k.n".toList, ["q.x".toList]), ("input".toList, ["w".toList, "k.n".toList])]
/-- Parameters of the renamed diamond. -/
def renParams : Tree Int := .dict [("q".toList, .leaf 100), ("k".toList, .dict [("n".toList, .leaf 1)]), ("w".toList, .leaf 10), ("unused".toList, .leaf 0)]
/-- States of the renamed diamond. -/
def renState : Tree Nat := .dict [("q".toList, .leaf 9), ("k".toList, .dict [("n".toList, .leaf 0)]), ("w".toList, .leaf 7), ("unused".toList, .leaf 4)]
/-- Which modules correspond to each other. -/
def renPairs : List (List Str × List Str) :=
  [(["input".toList], ["input".toList]), (["output".toList], ["output".toList]), (["A".toList], ["k".toList, "n".toList]),
   (["B".toList, "0".toList], ["w".toList]), (["C".toList], ["q".toList])]

theorem demoBlind : OrderBlind demoSig where
  keys m p x t s k y s' hx e := by
    simp only [demoSig, Except.ok.injEq, Prod.mk.injEq] at e
    rw [← e.1]
    exact (keysOk_map _ _).2 hx
  blind m p x x' t s k y s' _ _ hn e := by
    simp only [demoSig, Except.ok.injEq, Prod.mk.injEq] at e
    refine ⟨x'.map fun a => m * a + p, by simp only [demoSig, e.2], ?_⟩
    rw [← e.1, Tree.norm_map, Tree.norm_map, hn]

theorem renNames : Names '.' renModules renConn := by
  have m1 : IsModule (nsCfg '.') renModules ["k".toList, "n".toList] := ⟨by decide, by decide, by decide, 2, rfl⟩
  have m2 : IsModule (nsCfg '.') renModules ["w".toList] := ⟨by decide, by decide, by decide, 3, rfl⟩
  have m3 : IsModule (nsCfg '.') renModules ["q".toList] := ⟨by decide, by decide, by decide, 5, rfl⟩
  refine ⟨by decide, by decide, by decide, ⟨by decide, ?_, ?_⟩, ?_, ?_, ?_, ?_⟩
  · intro kv hkv
    simp only [renConn, List.mem_cons, List.not_mem_nil, or_false] at hkv
    rcases hkv with rfl | rfl | rfl | rfl
    · exact ⟨["q".toList], [], by decide, by decide, .inr m3⟩
    · exact ⟨["w".toList], [], by decide, by decide, .inr m2⟩
    · exact ⟨["k".toList, "n".toList], [], by decide, by decide, .inr m1⟩
    · exact ⟨["input".toList], [], by decide, by decide, .inl rfl⟩
  · intro kv hkv v hv
    simp only [renConn, List.mem_cons, List.not_mem_nil, or_false] at hkv
    rcases hkv with rfl | rfl | rfl | rfl <;> simp only [List.mem_cons, List.not_mem_nil, or_false] at hv
    · subst hv; exact ⟨["output".toList], [], by decide, by decide, .inl rfl⟩
    · subst hv; exact ⟨["q".toList], ["y".toList], by decide, by decide, .inr m3⟩
    · subst hv; exact ⟨["q".toList], ["x".toList], by decide, by decide, .inr m3⟩
    · rcases hv with rfl | rfl
      · exact ⟨["w".toList], [], by decide, by decide, .inr m2⟩
      · exact ⟨["k".toList, "n".toList], [], by decide, by decide, .inr m1⟩
  · unfold Canonical; decide
  · unfold Canonical; decide
  · intro kv hkv w hw
    rcases hw with rfl | rfl <;> revert kv <;> decide
  · decide

theorem diaClear : Clear '.' uFresh diaConn := by
  refine ⟨by unfold PrefixFree; decide, ?_⟩
  intro e he w hw o c i
  show w ≠ "u".toList
  revert e w; decide

theorem renClear : Clear '.' uFresh renConn := by
  refine ⟨by unfold PrefixFree; decide, ?_⟩
  intro e he w hw o c i
  show w ≠ "u".toList
  revert e w; decide

theorem renRenames : Renames (nsCfg '.') diaModules renModules diaConn renConn (fun a b => (a, b) ∈ renPairs) := by
  have mA : IsModule (nsCfg '.') diaModules ["A".toList] := ⟨by decide, by decide, by decide, 2, rfl⟩
  have mB : IsModule (nsCfg '.') diaModules ["B".toList, "0".toList] := ⟨by decide, by decide, by decide, 3, rfl⟩
  have mC : IsModule (nsCfg '.') diaModules ["C".toList] := ⟨by decide, by decide, by decide, 5, rfl⟩
  have m1 : IsModule (nsCfg '.') renModules ["k".toList, "n".toList] := ⟨by decide, by decide, by decide, 2, rfl⟩
  have m2 : IsModule (nsCfg '.') renModules ["w".toList] := ⟨by decide, by decide, by decide, 3, rfl⟩
  have m3 : IsModule (nsCfg '.') renModules ["q".toList] := ⟨by decide, by decide, by decide, 5, rfl⟩
  have e1 : SameEdge (nsCfg '.') diaModules renModules (fun a b => (a, b) ∈ renPairs) ("input".toList, "A".toList) ("input".toList, "k.n".toList) :=
    ⟨["input".toList], [], ["A".toList], [], ["input".toList], ["k".toList, "n".toList], by decide, by decide, ⟨by decide, by decide, .inl rfl⟩,
      ⟨by decide, by decide, .inr mA⟩, ⟨by decide, by decide, .inl rfl⟩, ⟨by decide, by decide, .inr m1⟩⟩
  have e2 : SameEdge (nsCfg '.') diaModules renModules (fun a b => (a, b) ∈ renPairs) ("input".toList, "B.0".toList) ("input".toList, "w".toList) :=
    ⟨["input".toList], [], ["B".toList, "0".toList], [], ["input".toList], ["w".toList], by decide, by decide, ⟨by decide, by decide, .inl rfl⟩,
      ⟨by decide, by decide, .inr mB⟩, ⟨by decide, by decide, .inl rfl⟩, ⟨by decide, by decide, .inr m2⟩⟩
  have e3 : SameEdge (nsCfg '.') diaModules renModules (fun a b => (a, b) ∈ renPairs) ("A".toList, "C.x".toList) ("k.n".toList, "q.x".toList) :=
    ⟨["A".toList], [], ["C".toList], ["x".toList], ["k".toList, "n".toList], ["q".toList], by decide, by decide, ⟨by decide, by decide, .inr mA⟩,
      ⟨by decide, by decide, .inr mC⟩, ⟨by decide, by decide, .inr m1⟩, ⟨by decide, by decide, .inr m3⟩⟩
  have e4 : SameEdge (nsCfg '.') diaModules renModules (fun a b => (a, b) ∈ renPairs) ("B.0".toList, "C.y".toList) ("w".toList, "q.y".toList) :=
    ⟨["B".toList, "0".toList], [], ["C".toList], ["y".toList], ["w".toList], ["q".toList], by decide, by decide, ⟨by decide, by decide, .inr mB⟩,
      ⟨by decide, by decide, .inr mC⟩, ⟨by decide, by decide, .inr m2⟩, ⟨by decide, by decide, .inr m3⟩⟩
  have e5 : SameEdge (nsCfg '.') diaModules renModules (fun a b => (a, b) ∈ renPairs) ("C".toList, "output".toList) ("q".toList, "output".toList) :=
    ⟨["C".toList], [], ["output".toList], [], ["q".toList], ["output".toList], by decide, by decide, ⟨by decide, by decide, .inr mC⟩,
      ⟨by decide, by decide, .inl rfl⟩, ⟨by decide, by decide, .inr m3⟩, ⟨by decide, by decide, .inl rfl⟩⟩
  refine ⟨by decide, by decide, ?_, ?_, ?_, ?_, ?_⟩
  · have : ∀ p ∈ renPairs, ∀ q ∈ renPairs, p.2 = q.2 → p.1 = q.1 := by decide
    exact fun a b c h1 h2 => this _ h1 _ h2 rfl
  · have : ∀ p ∈ renPairs, ∀ q ∈ renPairs, p.1 = q.1 → p.2 = q.2 := by decide
    exact fun a b c h1 h2 => this _ h1 _ h2 rfl
  · intro a b hab
    simp only [renPairs, List.mem_cons, List.not_mem_nil, or_false, Prod.mk.injEq] at hab
    rcases hab with ⟨rfl, rfl⟩ | ⟨rfl, rfl⟩ | ⟨rfl, rfl⟩ | ⟨rfl, rfl⟩ | ⟨rfl, rfl⟩
    · exact ⟨fun h => absurd rfl h.2.1, fun h => absurd rfl h.2.1⟩
    · exact ⟨fun h => absurd rfl h.2.2.1, fun h => absurd rfl h.2.2.1⟩
    · exact ⟨fun _ => m1, fun _ => mA⟩
    · exact ⟨fun _ => m2, fun _ => mB⟩
    · exact ⟨fun _ => m3, fun _ => mC⟩
  · intro e he _
    simp only [edges, diaConn, List.flatMap_cons, List.flatMap_nil, List.map_cons, List.map_nil, List.cons_append, List.nil_append, List.append_nil,
      List.mem_cons, List.not_mem_nil, or_false] at he
    rcases he with rfl | rfl | rfl | rfl | rfl
    · exact ⟨_, by decide, e1⟩
    · exact ⟨_, by decide, e2⟩
    · exact ⟨_, by decide, e3⟩
    · exact ⟨_, by decide, e4⟩
    · exact ⟨_, by decide, e5⟩
  · intro e he _
    simp only [edges, renConn, List.flatMap_cons, List.flatMap_nil, List.map_cons, List.map_nil, List.cons_append, List.nil_append, List.append_nil,
      List.mem_cons, List.not_mem_nil, or_false] at he
    rcases he with rfl | rfl | rfl | rfl | rfl
    · exact ⟨_, by decide, e5⟩
    · exact ⟨_, by decide, e4⟩
    · exact ⟨_, by decide, e3⟩
    · exact ⟨_, by decide, e2⟩
    · exact ⟨_, by decide, e1⟩

theorem renAgree : Agree (nsCfg '.') diaModules (fun a b => (a, b) ∈ renPairs) diaModules renModules ∧
    Agree (nsCfg '.') diaModules (fun a b => (a, b) ∈ renPairs) diaParams renParams ∧
    Agree (nsCfg '.') diaModules (fun a b => (a, b) ∈ renPairs) diaState renState := by
  refine ⟨?_, ?_, ?_⟩ <;> intro m m' hab hm <;> simp only [renPairs, List.mem_cons, List.not_mem_nil, or_false, Prod.mk.injEq] at hab <;>
    rcases hab with ⟨rfl, rfl⟩ | ⟨rfl, rfl⟩ | ⟨rfl, rfl⟩ | ⟨rfl, rfl⟩ | ⟨rfl, rfl⟩ <;>
    first | exact absurd rfl hm.2.1 | exact absurd rfl hm.2.2.1 | rfl

-- the hypotheses of `C103_same_result` hold for the diamond and the renamed diamond; the two outputs differ in the order of their entries
example : nsCall demoSig '.' uFresh renModules renConn renParams (.leaf 1) false renState 0 =
    .ok (.dict [("y".toList, .leaf 165), ("x".toList, .leaf 115)],
      .dict [("q".toList, .leaf 10), ("k".toList, .dict [("n".toList, .leaf 1)]), ("w".toList, .leaf 8), ("unused".toList, .leaf 4)]) := by decide +kernel

example (out out' : Tree Int) (st st' : Tree Nat) (hc : nsCall demoSig '.' uFresh diaModules diaConn diaParams (.leaf 1) false diaState 0 = .ok (out, st))
    (hc' : nsCall demoSig '.' uFresh renModules renConn renParams (.leaf 1) false renState 0 = .ok (out', st')) : out'.norm = out.norm :=
  (C103_same_result demoSig demoBlind '.' uFresh uFresh uFresh_ok uFresh_ok diaModules renModules diaConn renConn diaNames renNames diaClear renClear _
    renRenames diaParams renParams diaState renState renAgree.1 renAgree.2.1 renAgree.2.2 (.leaf 1) (.leaf 1) out out' trivial trivial rfl st st' false 0 hc hc').1

/-- **C103** If two connections lead to the same place, they are numbered in the order in which they are written, and the result depends on it. -/
theorem C103_shared_place_refuted :
    ∃ (conn conn' : List (Str × List Str)) (out out' : Tree Int) (st st' : Tree Nat), conn'.Perm conn ∧
      nsCall demoSig '.' uFresh (.dict [("M".toList, .leaf 2)]) conn (.dict [("M".toList, .leaf 1)])
        (.dict [("a".toList, .leaf 1), ("b".toList, .leaf 2)]) false (.dict [("M".toList, .leaf 0)]) 0 = .ok (out, st) ∧
      nsCall demoSig '.' uFresh (.dict [("M".toList, .leaf 2)]) conn' (.dict [("M".toList, .leaf 1)])
        (.dict [("a".toList, .leaf 1), ("b".toList, .leaf 2)]) false (.dict [("M".toList, .leaf 0)]) 0 = .ok (out', st') ∧ out'.norm ≠ out.norm :=
  ⟨[("input.a".toList, ["M".toList]), ("input.b".toList, ["M".toList]), ("M".toList, ["output".toList])],
    [("input.b".toList, ["M".toList]), ("input.a".toList, ["M".toList]), ("M".toList, ["output".toList])],
    .list [.leaf 3, .leaf 5], .list [.leaf 5, .leaf 3], .dict [("M".toList, .leaf 1)], .dict [("M".toList, .leaf 1)],
    List.Perm.swap _ _ _, by decide +kernel, by decide +kernel, by decide⟩

end Verif.Props
