import Verif.Lemmas.NonSeqExec
import Verif.Lemmas.Sequential

/-! A chain of modules. -/

namespace Verif.Forward
open TreeSpec ConnSpec PathSpec ForwardSpec DataflowSpec GraphSpec Conn Tree Relation

variable {M P S K A : Type} {sep : Char} {modules : Tree M} {fresh : Str → Nat → Nat → Str} {ps : List (List Str)}

/-- Neighbours in the chain. -/
def Next (ps : List (List Str)) (a b : List Str) : Prop := (a, b) ∈ (["input".toList] :: ps).zip (ps ++ [["output".toList]])

theorem chain_edges (sep : Char) (ps : List (List Str)) : edges (chainConn sep ps) =
    ((["input".toList] :: ps).zip (ps ++ [["output".toList]])).map fun x => (joinWith sep x.1, joinWith sep x.2) := by
  unfold chainConn edges
  generalize ["input".toList] :: ps = l
  generalize ps ++ [["output".toList]] = l'
  induction l generalizing l' with
  | nil => rfl
  | cons a l ih =>
    cases l' with
    | nil => rfl
    | cons b l' => simp [ih]

theorem chain_keys (sep : Char) (ps : List (List Str)) :
    (chainConn sep ps).map Prod.fst = (["input".toList] :: ps).map (joinWith sep) := by
  unfold chainConn
  rw [List.map_zipWith]
  generalize "input".toList = w
  generalize "output".toList = w'
  apply List.ext_getElem
  · simp
  · intro i h1 h2
    rw [List.getElem_zipWith, List.getElem_map]

theorem next_mem {a b : List Str} (h : Next ps a b) : (a = ["input".toList] ∨ a ∈ ps) ∧ (b = ["output".toList] ∨ b ∈ ps) := by
  have := List.of_mem_zip h
  simp only [List.mem_cons, List.mem_append, List.not_mem_nil, or_false] at this
  exact ⟨this.1, this.2.symm⟩

theorem chain_mem {kv : Str × List Str} (h : kv ∈ chainConn sep ps) : ∃ a b, Next ps a b ∧ kv = (joinWith sep a, [joinWith sep b]) := by
  unfold chainConn at h
  rw [← List.map_uncurry_zip_eq_zipWith] at h
  obtain ⟨x, hx, rfl⟩ := List.mem_map.1 h
  exact ⟨x.1, x.2, hx, rfl⟩

variable (hc : ChainOk sep fresh modules ps)
include hc

theorem _root_.Verif.DataflowSpec.ChainOk.compsIn : Comps sep ["input".toList] := by
  intro w hw; rw [List.mem_singleton] at hw; subst hw; exact ⟨by decide, hc.inSep⟩

theorem _root_.Verif.DataflowSpec.ChainOk.compsOut : Comps sep ["output".toList] := by
  intro w hw; rw [List.mem_singleton] at hw; subst hw; exact ⟨by decide, hc.outSep⟩

theorem _root_.Verif.DataflowSpec.ChainOk.src {a : List Str} (h : a = ["input".toList] ∨ a ∈ ps) : Comps sep a ∧ a ≠ [] ∧ Canonical a ∧
    Source (nsCfg sep) modules (joinWith sep a) a [] := by
  have h1 : Comps sep a ∧ a ≠ [] := by
    rcases h with rfl | h
    · exact ⟨hc.compsIn, by simp⟩
    · exact ⟨hc.comps a h, (hc.mods a h).1⟩
  refine ⟨h1.1, h1.2, ?_, ?_, ?_, ?_⟩
  · rcases h with rfl | h
    · intro w hw; rw [List.mem_singleton] at hw; subst hw; decide
    · exact hc.canon a h
  · rw [List.append_nil]; exact split_join_comps h1.1 h1.2
  · rw [List.append_nil]; exact fun w hw => (h1.1 w hw).1
  · rcases h with rfl | h
    · exact .inl rfl
    · exact .inr (hc.mods a h)

theorem _root_.Verif.DataflowSpec.ChainOk.tgt {a : List Str} (h : a = ["output".toList] ∨ a ∈ ps) : Comps sep a ∧ a ≠ [] ∧ Canonical a ∧
    Target (nsCfg sep) modules (joinWith sep a) a [] := by
  have h1 : Comps sep a ∧ a ≠ [] := by
    rcases h with rfl | h
    · exact ⟨hc.compsOut, by simp⟩
    · exact ⟨hc.comps a h, (hc.mods a h).1⟩
  refine ⟨h1.1, h1.2, ?_, ?_, ?_, ?_⟩
  · rcases h with rfl | h
    · intro w hw; rw [List.mem_singleton] at hw; subst hw; decide
    · exact hc.canon a h
  · rw [List.append_nil]; exact split_join_comps h1.1 h1.2
  · rw [List.append_nil]; exact fun w hw => (h1.1 w hw).1
  · rcases h with rfl | h
    · exact .inl rfl
    · exact .inr (hc.mods a h)

theorem _root_.Verif.DataflowSpec.ChainOk.ne_in {p : List Str} (h : p ∈ ps) : p ≠ ["input".toList] := by
  rintro rfl; exact (hc.mods _ h).2.1 rfl

theorem _root_.Verif.DataflowSpec.ChainOk.ne_out {p : List Str} (h : p ∈ ps) : p ≠ ["output".toList] := by
  rintro rfl; exact (hc.mods _ h).2.2.1 rfl

theorem _root_.Verif.DataflowSpec.ChainOk.names : Names sep modules (chainConn sep ps) := by
  have hsp : ∀ {a}, (a = ["input".toList] ∨ a ∈ ps) ∨ (a = ["output".toList] ∨ a ∈ ps) → splitOn sep (joinWith sep a) = a := by
    intro a h
    rcases h with h | h
    · exact split_join_comps (hc.src h).1 (hc.src h).2.1
    · exact split_join_comps (hc.tgt h).1 (hc.tgt h).2.1
  have hed : ∀ e ∈ edges (chainConn sep ps), ∃ a b, Next ps a b ∧ e = (joinWith sep a, joinWith sep b) := by
    intro e he
    rw [chain_edges] at he
    obtain ⟨x, hx, rfl⟩ := List.mem_map.1 he
    exact ⟨x.1, x.2, hx, rfl⟩
  refine ⟨hc.digit, hc.inSep, hc.outSep, ⟨?_, ?_, ?_⟩, ?_, ?_, ?_, ?_⟩
  · rw [chain_keys]
    have hnd : (["input".toList] :: ps).Nodup := by
      rw [List.nodup_cons]; exact ⟨fun h => hc.ne_in h rfl, hc.nodup⟩
    unfold List.Nodup at hnd ⊢
    rw [List.pairwise_map]
    refine List.Pairwise.imp_of_mem (fun {a b} ha hb hab e => hab ?_) hnd
    have h1 := hc.src (List.mem_cons.1 ha)
    have h2 := hc.src (List.mem_cons.1 hb)
    exact join_inj h1.1 h1.2.1 h2.1 h2.2.1 e
  · intro kv hkv
    obtain ⟨a, b, hn, rfl⟩ := chain_mem hkv
    exact ⟨a, [], (hc.src (next_mem hn).1).2.2.2⟩
  · intro kv hkv v hv
    obtain ⟨a, b, hn, rfl⟩ := chain_mem hkv
    simp only [List.mem_singleton] at hv
    subst hv
    exact ⟨b, [], (hc.tgt (next_mem hn).2).2.2.2⟩
  · intro kv hkv
    obtain ⟨a, b, hn, rfl⟩ := chain_mem hkv
    simp only
    rw [hsp (.inl (next_mem hn).1)]
    exact (hc.src (next_mem hn).1).2.2.1
  · intro e he
    obtain ⟨a, b, hn, rfl⟩ := hed e he
    simp only
    rw [hsp (.inr (next_mem hn).2)]
    exact (hc.tgt (next_mem hn).2).2.2.1
  · intro kv hkv w hw hp
    obtain ⟨a, b, hn, rfl⟩ := chain_mem hkv
    simp only at hp ⊢
    rw [hsp (.inl (next_mem hn).1)] at hp ⊢
    rcases (next_mem hn).1 with rfl | ha
    · rcases hw with rfl | rfl
      · rfl
      · exact absurd hp (by decide)
    · rcases hw with rfl | rfl
      · exact absurd hp (hc.clean a ha).1
      · exact absurd hp (hc.clean a ha).2
  · intro e he hp
    obtain ⟨a, b, hn, rfl⟩ := hed e he
    simp only at hp ⊢
    rw [hsp (.inr (next_mem hn).2)] at hp ⊢
    rcases (next_mem hn).2 with rfl | hb
    · rfl
    · exact absurd hp (hc.clean b hb).2

theorem _root_.Verif.DataflowSpec.ChainOk.feeds {a b : List Str} : Feeds (nsCfg sep) modules (chainConn sep ps) a b ↔ Next ps a b := by
  constructor
  · rintro ⟨e, he, r, r', h1, h2⟩
    rw [chain_edges] at he
    obtain ⟨⟨x, y⟩, hx, rfl⟩ := List.mem_map.1 he
    have hn : Next ps x y := hx
    obtain ⟨rfl, -⟩ := source_unique h1 (hc.src (next_mem hn).1).2.2.2
    obtain ⟨rfl, -⟩ := target_unique h2 (hc.tgt (next_mem hn).2).2.2.2
    exact hn
  · intro hn
    refine ⟨(joinWith sep a, joinWith sep b), ?_, [], [], (hc.src (next_mem hn).1).2.2.2, (hc.tgt (next_mem hn).2).2.2.2⟩
    rw [chain_edges]
    exact List.mem_map.2 ⟨(a, b), hn, rfl⟩

omit hc in
theorem next_iff {a b : List Str} : Next ps a b ↔ ∃ i : Nat, (["input".toList] :: ps ++ [["output".toList]])[i]? = some a ∧
    (["input".toList] :: ps ++ [["output".toList]])[i + 1]? = some b ∧ i ≤ ps.length := by
  unfold Next
  constructor
  · intro h
    obtain ⟨i, hi, e⟩ := List.mem_iff_getElem.1 h
    simp only [List.length_zip, List.length_cons, List.length_append, List.length_nil] at hi
    rw [List.getElem_zip] at e
    simp only [Prod.mk.injEq] at e
    refine ⟨i, ?_, ?_, by omega⟩
    · rw [List.getElem?_append_left (by simp; omega), List.getElem?_eq_getElem (by simp; omega), e.1]
    · rw [List.cons_append, List.getElem?_cons_succ, List.getElem?_eq_getElem (by simp; omega), e.2]
  · rintro ⟨i, h1, h2, h3⟩
    rw [List.getElem?_append_left (by simp; omega)] at h1
    rw [List.cons_append, List.getElem?_cons_succ] at h2
    obtain ⟨i1, e1⟩ := List.getElem?_eq_some_iff.1 h1
    obtain ⟨i2, e2⟩ := List.getElem?_eq_some_iff.1 h2
    refine List.mem_iff_getElem.2 ⟨i, by simp; omega, ?_⟩
    rw [List.getElem_zip, e1, e2]

theorem _root_.Verif.DataflowSpec.ChainOk.nodes : (["input".toList] :: ps ++ [["output".toList]]).Nodup := by
  rw [List.cons_append, List.nodup_cons]
  refine ⟨?_, ?_⟩
  · intro h
    rcases List.mem_append.1 h with h | h
    · exact hc.ne_in h rfl
    · simp only [List.mem_singleton] at h
      exact absurd h (by decide)
  · rw [List.nodup_append]
    refine ⟨hc.nodup, by simp, ?_⟩
    intro a ha b hb
    simp only [List.mem_singleton] at hb
    subst hb
    exact hc.ne_out ha

omit hc in
theorem reach_index {j i : Nat} {a b : List Str} (hij : i ≤ j) (hj : j ≤ ps.length + 1)
    (ha : (["input".toList] :: ps ++ [["output".toList]])[i]? = some a)
    (hb : (["input".toList] :: ps ++ [["output".toList]])[j]? = some b) : ReflTransGen (Next ps) a b := by
  induction j generalizing b with
  | zero =>
    obtain rfl : i = 0 := by omega
    rw [ha] at hb; cases hb; exact .refl
  | succ j ih =>
    rcases Nat.eq_or_lt_of_le hij with rfl | hlt
    · rw [ha] at hb; cases hb; exact .refl
    · have hl : j < (["input".toList] :: ps ++ [["output".toList]]).length := by simp; omega
      have := ih (by omega) (by omega) (List.getElem?_eq_getElem hl)
      exact this.tail (next_iff.2 ⟨j, List.getElem?_eq_getElem hl, hb, by omega⟩)

theorem _root_.Verif.DataflowSpec.ChainOk.index_lt {a b : List Str} (h : TransGen (Next ps) a b) : ∀ i j : Nat,
    (["input".toList] :: ps ++ [["output".toList]])[i]? = some a →
    (["input".toList] :: ps ++ [["output".toList]])[j]? = some b → i < j := by
  have hinj : ∀ {i j : Nat} {x : List Str}, (["input".toList] :: ps ++ [["output".toList]])[i]? = some x →
      (["input".toList] :: ps ++ [["output".toList]])[j]? = some x → i = j := by
    intro i j x h1 h2
    obtain ⟨i1, e1⟩ := List.getElem?_eq_some_iff.1 h1
    obtain ⟨i2, e2⟩ := List.getElem?_eq_some_iff.1 h2
    exact (hc.nodes.getElem_inj_iff).1 (e1.trans e2.symm)
  induction h with
  | single hn =>
    intro i j h1 h2
    obtain ⟨k, e1, e2, -⟩ := next_iff.1 hn
    rw [hinj h1 e1, hinj h2 e2]; omega
  | tail _ hn ih =>
    intro i j h1 h2
    obtain ⟨k, e1, e2, -⟩ := next_iff.1 hn
    have := ih i k h1 e1
    rw [hinj h2 e2]; omega

theorem _root_.Verif.DataflowSpec.ChainOk.feeds_eq : Feeds (nsCfg sep) modules (chainConn sep ps) = Next ps := by
  funext a b; exact propext hc.feeds

theorem _root_.Verif.DataflowSpec.ChainOk.scheduled {m : List Str} : Scheduled (nsCfg sep) modules (chainConn sep ps) m ↔ m ∈ ps := by
  unfold Scheduled
  rw [hc.feeds_eq]
  constructor
  · rintro ⟨h1, h2, -⟩
    rcases ReflTransGen.cases_tail h2 with e | ⟨a, -, ha⟩
    · exact absurd (by rw [e]; rfl) h1.2.1
    · rcases (next_mem ha).2 with rfl | h
      · exact absurd rfl h1.2.2.1
      · exact h
  · intro h
    obtain ⟨i, hi, e⟩ := List.mem_iff_getElem.1 h
    have hi' : (["input".toList] :: ps ++ [["output".toList]])[i + 1]? = some m := by
      rw [List.cons_append, List.getElem?_cons_succ, List.getElem?_append_left hi, List.getElem?_eq_getElem hi, e]
    refine ⟨hc.mods m h, reach_index (Nat.zero_le _) (by omega) rfl hi', ?_⟩
    refine reach_index (i := i + 1) (j := ps.length + 1) (by omega) (by omega) hi' ?_
    rw [List.cons_append, List.getElem?_cons_succ, List.getElem?_append_right (by omega)]
    simp [nsCfg]

theorem _root_.Verif.DataflowSpec.ChainOk.accepted : Accepted (nsCfg sep) modules (chainConn sep ps) := by
  have hidx : ∀ {m}, m = ["output".toList] ∨ m ∈ ps → ∃ i, (["input".toList] :: ps ++ [["output".toList]])[i]? = some m ∧
      i ≤ ps.length + 1 := by
    intro m h
    have : m ∈ (["input".toList] :: ps ++ [["output".toList]]) := by
      rcases h with rfl | h
      · simp
      · simp [h]
    obtain ⟨i, hi, e⟩ := List.mem_iff_getElem.1 this
    refine ⟨i, by rw [List.getElem?_eq_getElem hi, e], ?_⟩
    simp at hi; omega
  refine ⟨?_, ?_, ?_⟩
  · rw [hc.feeds_eq]
    refine reach_index (i := 0) (j := ps.length + 1) (by omega) (by omega) rfl ?_
    rw [List.cons_append, List.getElem?_cons_succ, List.getElem?_append_right (by omega)]
    simp [nsCfg]
  · intro m hm hcyc
    rw [hc.feeds_eq] at hcyc
    obtain ⟨i, hi, -⟩ := hidx (.inr (hc.scheduled.1 hm))
    have := hc.index_lt hcyc i i hi hi
    omega
  · intro m hm a ha
    rw [hc.feeds_eq] at ha ⊢
    obtain ⟨k, e1, -, h3⟩ := next_iff.1 ha
    exact reach_index (i := 0) (j := k) (by omega) (by omega) rfl e1

theorem _root_.Verif.DataflowSpec.ChainOk.edgesR (hf : FreshOk sep fresh) {R : List (Str × List Str)}
    (hR : concretizeConnections (nsCfg sep) fresh modules (chainConn sep ps) = .ok R) {a b : List Str} (hn : Next ps a b) :
    (joinWith sep a, joinWith sep b) ∈ edges R := by
  have hN := hc.names
  have hmem : (joinWith sep a, joinWith sep b) ∈ edges (chainConn sep ps) := by
    rw [chain_edges]; exact List.mem_map.2 ⟨(a, b), hn, rfl⟩
  obtain ⟨l1, l2, e⟩ := List.append_of_mem hmem
  refine lone_kept (rest := l1 ++ l2) (goodCfg hN) hc.digit (fun o c i => ⟨hf.ne o c i, hf.sepFree o c i⟩) hN.wf ?_ hR
    (by rw [e]; exact List.perm_middle) ?_
  · intro e he k hk o c i
    rw [chain_edges] at he
    obtain ⟨⟨x, y⟩, hx, rfl⟩ := List.mem_map.1 he
    have hn' : Next ps x y := hx
    have ht := hc.tgt (next_mem hn').2
    have hk' : k ∈ splitOn sep (joinWith sep y) := hk
    rw [split_join_comps ht.1 ht.2.1] at hk'
    exact hc.new y (List.mem_cons.2 (next_mem hn').2) k hk' o c i
  · -- the targets are different and none is the beginning of another one
    have hnd : ((edges (chainConn sep ps)).map Prod.snd).Pairwise fun v v' => ¬ splitOn sep v <+: splitOn sep v' ∧
        ¬ splitOn sep v' <+: splitOn sep v := by
      have e2 : (edges (chainConn sep ps)).map Prod.snd = (ps ++ [["output".toList]]).map (joinWith sep) := by
        rw [chain_edges, List.map_map]
        apply List.ext_getElem
        · simp
        · intro i h1 h2
          simp only [List.getElem_map, List.getElem_zip, Function.comp_apply]
      rw [e2, List.pairwise_map]
      have hnd := hc.nodes
      rw [List.cons_append, List.nodup_cons] at hnd
      refine List.Pairwise.imp_of_mem (fun {x y} hx hy hxy => ?_) hnd.2
      have hx' : x = ["output".toList] ∨ x ∈ ps := by
        rcases List.mem_append.1 hx with h | h
        · exact .inr h
        · exact .inl (by simpa using h)
      have hy' : y = ["output".toList] ∨ y ∈ ps := by
        rcases List.mem_append.1 hy with h | h
        · exact .inr h
        · exact .inl (by simpa using h)
      have tx := hc.tgt hx'
      have ty := hc.tgt hy'
      rw [split_join_comps tx.1 tx.2.1, split_join_comps ty.1 ty.2.1]
      constructor
      · have := mods_free (x := []) (x' := []) tx.2.2.2 ty.2.2.2 hxy
        simpa using this
      · have := mods_free (x := []) (x' := []) ty.2.2.2 tx.2.2.2 (Ne.symm hxy)
        simpa using this
    rw [e, List.map_append, List.map_cons, List.pairwise_append, List.pairwise_cons] at hnd
    intro e' he'
    rcases List.mem_append.1 he' with h | h
    · exact (hnd.2.2 _ (List.mem_map_of_mem (f := Prod.snd) h) _ (List.mem_cons_self ..)).2
    · exact (hnd.2.1.1 _ (List.mem_map_of_mem (f := Prod.snd) h)).1

theorem _root_.Verif.DataflowSpec.ChainOk.req_eq (hf : FreshOk sep fresh) {R : List (Str × List Str)}
    (hR : concretizeConnections (nsCfg sep) fresh modules (chainConn sep ps) = .ok R) {a b : List Str} (hn : Next ps a b)
    {req : Tree Str} (hh : Holds sep R b req) : req = .leaf (joinWith sep a) := by
  have ht := hc.tgt (next_mem hn).2
  have := hh.slot (joinWith sep a) (joinWith sep b) [] (hc.edgesR hf hR hn) (by
    rw [List.append_nil]; exact split_join_comps ht.1 ht.2.1)
  rw [get_nil] at this
  cases this; rfl

/-- Filling the input of the next module. -/
theorem _root_.Verif.DataflowSpec.ChainOk.fills {a : List Str} (h : a = ["input".toList] ∨ a ∈ ps) {val : List Str → Tree A} {inp : Tree A} :
    Fills (Reads (nsCfg sep) modules val) (.leaf (joinWith sep a)) inp ↔ inp = val a := by
  have hs := (hc.src h).2.2.2
  constructor
  · rintro ⟨f, h1, rfl⟩
    obtain ⟨m, r, h2, h3⟩ := h1 (joinWith sep a) (by simp [leaves])
    obtain ⟨rfl, rfl⟩ := source_unique h2 hs
    rw [get_nil] at h3
    simp only [Except.ok.injEq] at h3
    rw [subst]; exact h3.symm
  · rintro rfl
    refine ⟨fun _ => val a, ?_, by rw [subst]⟩
    intro k hk
    simp only [leaves, List.mem_singleton] at hk
    subst hk
    exact ⟨a, [], hs, get_nil _⟩

theorem _root_.Verif.DataflowSpec.ChainOk.place (hf : FreshOk sep fresh) : ∃ placed outPlaced,
    Conn.place (nsCfg sep) fresh modules (chainConn sep ps) = .ok (placed, outPlaced) := by
  obtain ⟨R, hR, hcon⟩ := concrete_ok hc.names hf
  have hed : ∀ k v, (k, v) ∈ edges R → splitOn sep v = ["output".toList] ∨ splitOn sep v ∈ ps := by
    intro k v hkv
    obtain ⟨m, r, w, r0, h1, h2, h3, -, h5, -⟩ := hcon.back k v hkv
    rw [chain_edges] at h1
    obtain ⟨⟨x, y⟩, hx, e⟩ := List.mem_map.1 h1
    simp only [Prod.mk.injEq] at e
    obtain ⟨rfl, rfl⟩ := e
    have hn : Next ps x y := hx
    obtain ⟨rfl, -⟩ := target_unique h2 (hc.tgt (next_mem hn).2).2.2.2
    have hkept := hc.edgesR hf hR hn
    -- the concrete targets form a prefix-free list
    obtain ⟨R', T, g1, -, g3, g4, g5, g6, g7, -⟩ := concretize_main (goodCfg hc.names) hc.digit
      (fun o c i => ⟨hf.ne o c i, hf.sepFree o c i⟩) (fun _ => True) (fun _ => trivial) (fun _ _ _ => trivial) hc.names.wf
    rw [hR] at g1
    cases g1
    obtain ⟨t, ht, et⟩ := List.mem_map.1 (g4.symm.subset hkv)
    obtain ⟨t', ht', et'⟩ := List.mem_map.1 (g4.symm.subset hkept)
    simp only [Prod.mk.injEq] at et et'
    have es : t.mod ++ t.inner = m ++ r := by
      obtain ⟨c1, c2, -⟩ := g6 t ht
      obtain ⟨r1, tg, -⟩ := g5 t ht
      rw [← h3, ← et.2]
      exact (splitOn_joinWith _ _ (by simp [target_ne tg]) (fun w hw => ((c1.append c2) w hw).2)).symm
    have es' : t'.mod ++ t'.inner = m := by
      obtain ⟨c1, c2, -⟩ := g6 t' ht'
      obtain ⟨r1, tg, -⟩ := g5 t' ht'
      have ty := hc.tgt (next_mem hn).2
      rw [← split_join_comps ty.1 ty.2.1, ← et'.2]
      exact (splitOn_joinWith _ _ (by simp [target_ne tg]) (fun w hw => ((c1.append c2) w hw).2)).symm
    have htt : t = t' := by
      by_contra hne
      haveI : Std.Symm (fun p q : Triple => ¬ p.mod ++ p.inner <+: q.mod ++ q.inner ∧ ¬ q.mod ++ q.inner <+: p.mod ++ p.inner) :=
        ⟨fun _ _ h => ⟨h.2, h.1⟩⟩
      unfold PrefixFree at g7
      rw [List.pairwise_map] at g7
      have := g7.forall ht ht' hne
      rw [es, es'] at this
      exact this.2 (List.prefix_append _ _)
    subst htt
    rw [h3, ← es, es']
    exact (next_mem hn).2
  refine place_ok hc.names hf hR ?_
  intro k v k' v' h1 h2
  rcases hed k v h1 with e | e
  · rw [e]; exact (uniform_single _ _).1
  · rcases hed k' v' h2 with e' | e'
    · rw [e']; exact (uniform_single _ _).2
    · exact hc.uniform _ e _ e'

omit hc

/-! ### Running a chain -/

theorem next_cons {p : List Str} (ps : List (List Str)) (i : Nat) (h : i < ps.length) :
    Next (p :: ps) ((p :: ps)[i]'(by simp; omega)) ps[i] := by
  refine next_iff.2 ⟨i + 1, ?_, ?_, by simp; omega⟩
  · rw [List.cons_append, List.getElem?_cons_succ, List.getElem?_append_left (by simp; omega), List.getElem?_eq_getElem (by simp; omega)]
  · rw [List.cons_append, List.getElem?_cons_succ, List.cons_append, List.getElem?_cons_succ,
      List.getElem?_append_left (by omega), List.getElem?_eq_getElem h]

/-- The values along the chain. -/
theorem seq_of_vals (sig : Sig M P S K A) (training : Bool) {val : List Str → Tree A} {rng : K} :
    ∀ (ps : List (List Str)) (a : List Str) (bs : List M) (pp : List P) (ss ss' : List S) (acc : List S),
      bs.length = ps.length → pp.length = ps.length → ss.length = ps.length → ss'.length = ps.length →
      (∀ (i : Nat) (h : i < ps.length) b p s s', bs[i]? = some b → pp[i]? = some p → ss[i]? = some s → ss'[i]? = some s' →
        sig.call b p (val ((a :: ps)[i]'(by simp; omega))) training s rng = .ok (val ps[i], s')) →
      seqLoop sig training (stages bs pp ss (List.replicate ps.length rng)) (val a) acc
        = .ok (val ((a :: ps).getLast (by simp)), acc ++ ss')
  | [], a, [], [], [], [], acc, _, _, _, _, _ => by simp [stages, seqLoop]
  | p :: ps, a, b :: bs, q :: pp, s :: ss, s' :: ss', acc, h1, h2, h3, h4, h => by
    simp only [List.length_cons, List.replicate_succ, stages, seqLoop]
    have h0 : sig.call b q (val a) training s rng = .ok (val p, s') := h 0 (by simp) b q s s' rfl rfl rfl rfl
    rw [h0]
    simp only [List.length_cons, Nat.add_right_cancel_iff] at h1 h2 h3 h4
    have := seq_of_vals sig training (val := val) (rng := rng) ps p bs pp ss ss' (acc ++ [s']) h1 h2 h3 h4 (by
      intro i hi b q s s' e1 e2 e3 e4
      exact h (i + 1) (by simp; omega) b q s s' e1 e2 e3 e4)
    simp only
    rw [this, List.append_assoc]
    rfl

/-- The other direction: the intermediate values of the loop. -/
theorem vals_of_seq (sig : Sig M P S K A) (training : Bool) {rng : K} :
    ∀ (bs : List M) (pp : List P) (ss : List S) (x out : Tree A) (acc acc' : List S),
      pp.length = bs.length → ss.length = bs.length →
      seqLoop sig training (stages bs pp ss (List.replicate bs.length rng)) x acc = .ok (out, acc') →
      ∃ (vs : List (Tree A)) (ss' : List S), vs.length = bs.length ∧ ss'.length = bs.length ∧ acc' = acc ++ ss' ∧
        (x :: vs).getLast (by simp) = out ∧
        ∀ (i : Nat) b p s, bs[i]? = some b → pp[i]? = some p → ss[i]? = some s → ∃ v v' s', (x :: vs)[i]? = some v ∧
          vs[i]? = some v' ∧ ss'[i]? = some s' ∧ sig.call b p v training s rng = .ok (v', s')
  | [], [], [], x, out, acc, acc', _, _, h => by
    simp only [stages, seqLoop, Except.ok.injEq, Prod.mk.injEq] at h
    obtain ⟨rfl, rfl⟩ := h
    exact ⟨[], [], rfl, rfl, by simp, rfl, by simp⟩
  | b :: bs, p :: pp, s :: ss, x, out, acc, acc', h1, h2, h => by
    simp only [List.length_cons, Nat.add_right_cancel_iff] at h1 h2
    simp only [List.length_cons, List.replicate_succ, stages, seqLoop] at h
    split at h
    · simp at h
    · next y s' hcall =>
      obtain ⟨vs, ss', e1, e2, e3, e4, e5⟩ := vals_of_seq sig training bs pp ss y out _ acc' h1 h2 h
      refine ⟨y :: vs, s' :: ss', by simp [e1], by simp [e2], by simp [e3], ?_, ?_⟩
      · rw [List.getLast_cons (by simp)]; exact e4
      · intro i b' p' s0 f1 f2 f3
        cases i with
        | zero =>
          simp only [List.getElem?_cons_zero, Option.some.injEq] at f1 f2 f3
          subst f1 f2 f3
          exact ⟨x, y, s', rfl, rfl, rfl, hcall⟩
        | succ i =>
          simp only [List.getElem?_cons_succ] at f1 f2 f3
          obtain ⟨v, v', s1, g1, g2, g3, g4⟩ := e5 i b' p' s0 f1 f2 f3
          exact ⟨v, v', s1, by rw [List.getElem?_cons_succ]; exact g1, by rw [List.getElem?_cons_succ]; exact g2,
            by rw [List.getElem?_cons_succ]; exact g3, g4⟩

/-! ### The sequential model on a list -/

theorem flatL_leaf {α : Type} : ∀ l : List α, flatL (l.map Tree.leaf) = l
  | [] => rfl
  | a :: l => by simp [flatL, flat, flatL_leaf l]

theorem normL_leaf {α : Type} : ∀ l : List α, normL (l.map Tree.leaf) = l.map Tree.leaf
  | [] => rfl
  | a :: l => by simp [normL, norm, normL_leaf l]

theorem sameStructL_leaf {α β : Type} : ∀ (l : List α) (l' : List β), l'.length = l.length →
    sameStructL (l.map Tree.leaf) (l'.map Tree.leaf) = true
  | [], [], _ => rfl
  | a :: l, b :: l', h => by
    simp only [List.length_cons, Nat.add_right_cancel_iff] at h
    simp [sameStructL, sameStruct, sameStructL_leaf l l' h]

theorem unflatL_leaf {α β : Type} : ∀ (l : List α) (l' : List β), l'.length = l.length →
    unflatL (l.map Tree.leaf) l' = some (l'.map Tree.leaf, [])
  | [], [], _ => rfl
  | a :: l, b :: l', h => by
    simp only [List.length_cons, Nat.add_right_cancel_iff] at h
    simp [unflatL, unflat, unflatL_leaf l l' h]

theorem seq_list (sig : Sig M P S K A) {bs : List M} {pp : List P} {ss : List S} (h1 : pp.length = bs.length)
    (h2 : ss.length = bs.length) (hk : ∀ k n, (sig.splitN k n).length = n) {x out : Tree A} {training : Bool} {rng : K} {r : Tree S} :
    seqCall sig (.list (bs.map .leaf)) (.list (pp.map .leaf)) x training (.list (ss.map .leaf)) rng = .ok (out, r) ↔
    ∃ ss', seqLoop sig training (stages bs pp ss (sig.splitN rng bs.length)) x [] = .ok (out, ss') ∧ r = .list (ss'.map .leaf) := by
  have hj : ∀ {α : Type} (l : List α), jaxLeaves (.list (l.map Tree.leaf)) = l := by
    intro α l; simp [jaxLeaves, norm, normL_leaf, flat, flatL_leaf]
  rw [seqCall_iff, hj, hj, hj]
  simp only [norm, normL_leaf, sameStruct, sameStructL_leaf bs pp h1, sameStructL_leaf bs ss h2, true_and]
  constructor
  · rintro ⟨ss', h3, h4⟩
    have hl : ss'.length = bs.length := by
      have := seqLoop_length sig training h3
      rw [this, List.length_nil, Nat.zero_add, stages_length h1 h2 (hk _ _)]
    rw [unflat, unflatL_leaf bs ss' hl] at h4
    simp only [Option.some.injEq, Prod.mk.injEq, and_true] at h4
    exact ⟨ss', h3, h4.symm⟩
  · rintro ⟨ss', h3, rfl⟩
    have hl : ss'.length = bs.length := by
      have := seqLoop_length sig training h3
      rw [this, List.length_nil, Nat.zero_add, stages_length h1 h2 (hk _ _)]
    exact ⟨ss', h3, by rw [unflat, unflatL_leaf bs ss' hl]⟩

theorem forall₂_choose {α β : Type} {R : α → β → Prop} : ∀ {l : List α}, (∀ x ∈ l, ∃ y, R x y) → ∃ ys, List.Forall₂ R l ys
  | [], _ => ⟨[], .nil⟩
  | x :: l, h => by
    obtain ⟨y, hy⟩ := h x (by simp)
    obtain ⟨ys, hys⟩ := forall₂_choose (l := l) fun z hz => h z (by simp [hz])
    exact ⟨y :: ys, .cons hy hys⟩

theorem forall₂_get {α β : Type} {R : α → β → Prop} {l : List α} {l' : List β} (h : List.Forall₂ R l l') {i : Nat} {x : α} {y : β}
    (hx : l[i]? = some x) (hy : l'[i]? = some y) : R x y := by
  induction h generalizing i with
  | nil => simp at hx
  | cons h1 _ ih =>
    cases i with
    | zero => simp at hx hy; subst hx hy; exact h1
    | succ i => exact ih (by simpa using hx) (by simpa using hy)

theorem next_first {ps : List (List Str)} (i : Nat) (h : i < ps.length) :
    Next ps ((["input".toList] :: ps)[i]'(by simp; omega)) ps[i] := by
  refine next_iff.2 ⟨i, ?_, ?_, by omega⟩
  · rw [List.getElem?_append_left (by simp; omega), List.getElem?_eq_getElem (by simp; omega)]
  · rw [List.cons_append, List.getElem?_cons_succ, List.getElem?_append_left h, List.getElem?_eq_getElem h]

theorem next_last (ps : List (List Str)) : Next ps ((["input".toList] :: ps).getLast (by simp)) ["output".toList] := by
  refine next_iff.2 ⟨ps.length, ?_, ?_, by omega⟩
  · rw [List.getElem?_append_left (by simp), List.getLast_eq_getElem, List.getElem?_eq_getElem (by simp)]
    rfl
  · rw [List.cons_append, List.getElem?_cons_succ, List.getElem?_append_right (by omega)]
    rw [Nat.sub_self]; rfl

theorem src_mem {ps : List (List Str)} {i : Nat} (h : i < ps.length) :
    (["input".toList] :: ps)[i]'(by simp; omega) = ["input".toList] ∨ (["input".toList] :: ps)[i]'(by simp; omega) ∈ ps :=
  (next_mem (next_first i h)).1

theorem stages_replicate {sig : Sig M P S K A} (hi : ∀ m p x t s k k', sig.call m p x t s k = sig.call m p x t s k') (training : Bool)
    {bs : List M} {pp : List P} {ss : List S} (hk : ∀ k n, (sig.splitN k n).length = n) (x : Tree A) (r rng : K) :
    seqLoop sig training (stages bs pp ss (sig.splitN r bs.length)) x [] =
    seqLoop sig training (stages bs pp ss (List.replicate bs.length rng)) x [] :=
  seqLoop_keys hi training x [] (hk _ _) (by simp)

theorem chain_forward {sig : Sig M P S K A} (hk : ∀ k n, (sig.splitN k n).length = n)
    (hi : ∀ m p x t s k k', sig.call m p x t s k = sig.call m p x t s k') (hc : ChainOk sep fresh modules ps)
    (hf : FreshOk sep fresh) {params : Tree P} {state st' : Tree S} {bs : List M} {pp : List P} {ss : List S}
    (h1 : List.Forall₂ (fun p b => get modules p = .ok (.leaf b)) ps bs)
    (h2 : List.Forall₂ (fun p b => get params p = .ok (.leaf b)) ps pp)
    (h3 : List.Forall₂ (fun p b => get state p = .ok (.leaf b)) ps ss) {data out : Tree A} {training : Bool} {rng r : K}
    (h : nsCall sig sep fresh modules (chainConn sep ps) params data training state rng = .ok (out, st')) :
    ∃ ss', List.Forall₂ (fun p b => get st' p = .ok (.leaf b)) ps ss' ∧
      seqCall sig (.list (bs.map .leaf)) (.list (pp.map .leaf)) data training (.list (ss.map .leaf)) r
        = .ok (out, .list (ss'.map .leaf)) := by
  obtain ⟨R, placed, outPlaced, val, news, hR, -, hh1, hh2, hd, hup⟩ := nsCall_dataflow hc.names hf h
  obtain ⟨ss', hss⟩ := forall₂_choose (l := ps) (R := fun p s' => news p = some s' ∧ get st' p = .ok (.leaf s'))
    (fun p hp => hup.new p (hc.scheduled.2 hp))
  refine ⟨ss', hss.imp fun _ _ h => h.2, ?_⟩
  have l1 := h1.length_eq
  have l2 := h2.length_eq
  have l3 := h3.length_eq
  have l4 := hss.length_eq
  rw [seq_list sig (by omega) (by omega) hk]
  refine ⟨ss', ?_, rfl⟩
  rw [stages_replicate hi training hk data r rng, ← hd.input, ← l1]
  have hkey := seq_of_vals sig training (val := val) (rng := rng) ps ["input".toList] bs pp ss ss' [] (by omega) (by omega)
    (by omega) (by omega) (by
      intro i hi' b p s s' e1 e2 e3 e4
      have hp : ps[i] ∈ ps := List.getElem_mem hi'
      obtain ⟨b', p', s0, inp, s1, a1, a2, a3, a4, a5, a6⟩ := hd.step ps[i] (hc.scheduled.2 hp)
      have ei : ps[i]? = some ps[i] := List.getElem?_eq_getElem hi'
      have g1 := forall₂_get h1 ei e1
      have g2 := forall₂_get h2 ei e2
      have g3 := forall₂_get h3 ei e3
      have g4 := (forall₂_get hss ei e4).1
      rw [a1] at g1; cases g1
      rw [a2] at g2; cases g2
      rw [a3] at g3; cases g3
      rw [a6] at g4; cases g4
      rw [hc.req_eq hf hR (next_first i hi') (hh1 _ (hc.scheduled.2 hp)), hc.fills (src_mem hi')] at a4
      rw [← a4]
      exact a5)
  refine hkey.trans ?_
  have ho := hd.output
  rw [show reqOf placed outPlaced [(nsCfg sep).outKey] = .leaf _ from hc.req_eq hf hR (next_last ps) hh2,
    hc.fills (next_mem (next_last ps)).1] at ho
  rw [ho]
  rfl

theorem chain_backward {sig : Sig M P S K A} (hk : ∀ k n, (sig.splitN k n).length = n)
    (hi : ∀ m p x t s k k', sig.call m p x t s k = sig.call m p x t s k') (hc : ChainOk sep fresh modules ps)
    (hf : FreshOk sep fresh) {params : Tree P} {state : Tree S} {bs : List M} {pp : List P} {ss : List S}
    (hst : hasTuple state = false)
    (h1 : List.Forall₂ (fun p b => get modules p = .ok (.leaf b)) ps bs)
    (h2 : List.Forall₂ (fun p b => get params p = .ok (.leaf b)) ps pp)
    (h3 : List.Forall₂ (fun p b => get state p = .ok (.leaf b)) ps ss) {data out : Tree A} {training : Bool} {rng r : K} {st' : Tree S}
    (h : seqCall sig (.list (bs.map .leaf)) (.list (pp.map .leaf)) data training (.list (ss.map .leaf)) r = .ok (out, st')) :
    ∃ st2, nsCall sig sep fresh modules (chainConn sep ps) params data training state rng = .ok (out, st2) := by
  have l1 := h1.length_eq
  have l2 := h2.length_eq
  have l3 := h3.length_eq
  obtain ⟨ss', hl, -⟩ := (seq_list sig (by omega) (by omega) hk).1 h
  rw [stages_replicate hi training hk data r rng] at hl
  obtain ⟨vs, ss1, e1, e2, e3, e4, e5⟩ := vals_of_seq sig training bs pp ss data out [] ss' (by omega) (by omega) hl
  obtain ⟨order, ho⟩ := (exec_iff hc.names).2 hc.accepted
  obtain ⟨placed, outPlaced, hp⟩ := hc.place hf
  obtain ⟨R, hR, hcon⟩ := concrete_ok hc.names hf
  obtain ⟨hh1, hh2, hh3⟩ := place_holds hc.names hf hR hcon hp
  -- the value of a node
  let val : List Str → Tree A := fun m => (data :: vs).getD ((["input".toList] :: ps).idxOf m) .none
  let news : List Str → Option S := fun m => ss1[ps.idxOf m]?
  have hnd : (["input".toList] :: ps).Nodup := by
    rw [List.nodup_cons]; exact ⟨fun h => hc.ne_in h rfl, hc.nodup⟩
  have hval : ∀ (i : Nat) (hi : i < (["input".toList] :: ps).length) v, (data :: vs)[i]? = some v →
      val ((["input".toList] :: ps)[i]) = v := by
    intro i hi v hv
    show (data :: vs).getD ((["input".toList] :: ps).idxOf _) .none = v
    rw [hnd.idxOf_getElem]
    simp [List.getD, hv]
  have hreq : ∀ m, Scheduled (nsCfg sep) modules (chainConn sep ps) m → Holds sep R m (reqOf placed outPlaced m) := by
    intro m hm
    have hmm := hc.scheduled.1 hm
    obtain ⟨a, ha⟩ := fed_of_scheduled hm
    obtain ⟨req, hreq⟩ := hh2 a m ha hm.1
    have : reqOf placed outPlaced m = req := by
      unfold reqOf
      rw [if_neg (hc.ne_out hmm), hreq]
    rw [this]
    exact hh1 m req hm.1 (hc.comps m hmm) (hc.canon m hmm) hreq
  have hreqo : reqOf placed outPlaced ["output".toList] = outPlaced := by unfold reqOf; exact if_pos rfl
  have hd : Dataflow (nsCfg sep) modules params state (fun b p x s => sig.call b p x training s rng)
      (Scheduled (nsCfg sep) modules (chainConn sep ps)) (reqOf placed outPlaced) data val news out := by
    refine ⟨?_, ?_, ?_⟩
    · exact hval 0 (by simp) data rfl
    · intro m hm
      obtain ⟨i, hi', rfl⟩ := List.mem_iff_getElem.1 (hc.scheduled.1 hm)
      have b1 : bs[i]? = some bs[i] := List.getElem?_eq_getElem (by omega)
      have b2 : pp[i]? = some pp[i] := List.getElem?_eq_getElem (by omega)
      have b3 : ss[i]? = some ss[i] := List.getElem?_eq_getElem (by omega)
      have ei : ps[i]? = some ps[i] := List.getElem?_eq_getElem hi'
      obtain ⟨v, v', s', f1, f2, f3, f4⟩ := e5 i _ _ _ b1 b2 b3
      refine ⟨bs[i], pp[i], ss[i], v, s', forall₂_get h1 ei b1, forall₂_get h2 ei b2, forall₂_get h3 ei b3, ?_, ?_, ?_⟩
      · rw [hc.req_eq hf hR (next_first i hi') (hreq _ hm), hc.fills (src_mem hi')]
        exact (hval i (by simp; omega) v f1).symm
      · have : val ps[i] = v' := hval (i + 1) (by simp; omega) v' (by rw [List.getElem?_cons_succ]; exact f2)
        rw [this]; exact f4
      · show ss1[ps.idxOf ps[i]]? = some s'
        rw [hc.nodup.idxOf_getElem]; exact f3
    · rw [show reqOf placed outPlaced [(nsCfg sep).outKey] = .leaf _ from hc.req_eq hf hR (next_last ps) (by rw [show reqOf placed outPlaced [(nsCfg sep).outKey] = outPlaced from hreqo]; exact hh3),
        hc.fills (next_mem (next_last ps)).1]
      have hlast : (["input".toList] :: ps).getLast (by simp) = (["input".toList] :: ps)[ps.length]'(by simp) := by
        rw [List.getLast_eq_getElem]; rfl
      rw [hlast]
      refine (hval ps.length (by simp) out ?_).symm
      rw [← e4, List.getLast_eq_getElem, List.getElem?_eq_getElem (by simp; omega)]
      have : vs.length = ps.length := by omega
      simp [this]
  obtain ⟨st2, h4, -⟩ := nsCall_complete hc.names hf ho hp
    (fun m m' hm hm' => hc.uniform m (hc.scheduled.1 hm) m' (hc.scheduled.1 hm')) hst hd
  exact ⟨st2, h4⟩

end Verif.Forward
