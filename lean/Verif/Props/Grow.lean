import Verif.Props.Keys
import Verif.Props.Edit

/-!
# Starting values of a model that is built up step by step
-/

namespace Verif.Props

open KeysSpec NestedSpec Keys Nested Forward ForwardSpec

variable {M P S K A : Type}

theorem compileLoop_acc (sig : Sig M P S K A) : ∀ (os : List M) (k : K) (s : Tree Shape) (acc : List M),
    seqCompileLoop sig os k s acc = (seqCompileLoop sig os k s []).map fun x => (acc ++ x.1, x.2)
  | [], k, s, acc => by simp [seqCompileLoop, Except.map]
  | m :: os, k, s, acc => by
    simp only [seqCompileLoop]
    cases sig.compile m (sig.split k).2 s with
    | error e => rfl
    | ok m' =>
      simp only
      cases sig.outShape m' s with
      | error e => rfl
      | ok s' =>
        simp only
        rw [compileLoop_acc sig os _ _ (acc ++ [m']), compileLoop_acc sig os _ _ ([] ++ [m'])]
        cases seqCompileLoop sig os (sig.split k).1 s' [] <;> simp [Except.map]

/-- The key that is left after `n` steps. -/
def leftKey (split : K → K × K) : K → Nat → K
  | k, 0 => k
  | k, n + 1 => leftKey split (split k).1 n

theorem stepKey_left (split : K → K × K) : ∀ (n i : Nat) (k : K), stepKey split k (n + i) = stepKey split (leftKey split k n) i
  | 0, i, k => by rw [Nat.zero_add]; rfl
  | n + 1, i, k => by
    rw [Nat.add_right_comm, stepKey, leftKey]
    exact stepKey_left split n i _

theorem compileLoop_append (sig : Sig M P S K A) : ∀ (os es : List M) (k : K) (s : Tree Shape),
    seqCompileLoop sig (os ++ es) k s [] = match seqCompileLoop sig os k s [] with
      | .error e => .error e
      | .ok (ms, r) => (seqCompileLoop sig es (leftKey sig.split k os.length) r []).map fun x => (ms ++ x.1, x.2)
  | [], es, k, s => by
    rw [List.nil_append]
    simp only [seqCompileLoop, List.length_nil, leftKey]
    cases seqCompileLoop sig es k s [] <;> simp [Except.map]
  | m :: os, es, k, s => by
    simp only [List.cons_append, seqCompileLoop, List.length_cons, leftKey]
    cases sig.compile m (sig.split k).2 s with
    | error e => rfl
    | ok m' =>
      simp only
      cases sig.outShape m' s with
      | error e => rfl
      | ok s' =>
        simp only
        rw [compileLoop_acc sig (os ++ es), compileLoop_acc sig os, compileLoop_append sig os es]
        cases seqCompileLoop sig os (sig.split k).1 s' [] with
        | error e => rfl
        | ok x =>
          simp only [Except.map]
          cases seqCompileLoop sig es (leftKey sig.split (sig.split k).1 os.length) x.2 [] <;> simp

theorem seqCompile_loop {sig : Sig M P S K A} {t : Tree M} {k : K} {s : Tree Shape} {ms : List M} {r : Tree Shape} :
    seqCompile sig t k s = .ok (ms, r) ↔ seqCompileLoop sig t.jaxLeaves k s [] = .ok (ms, r) ∧ checkShape r = .ok r := by
  unfold seqCompile
  cases hl : seqCompileLoop sig t.jaxLeaves k s [] with
  | error e => simp
  | ok x =>
    obtain ⟨ms', r'⟩ := x
    simp only
    cases hc : checkShape r' with
    | error e =>
      simp only [reduceCtorEq, Except.ok.injEq, Prod.mk.injEq, false_iff]
      rintro ⟨⟨rfl, rfl⟩, h⟩
      rw [hc] at h
      cases h
    | ok r'' =>
      obtain rfl := checkShape_ok hc
      simp only [Except.ok.injEq, Prod.mk.injEq]
      constructor
      · rintro ⟨rfl, rfl⟩
        exact ⟨⟨rfl, rfl⟩, hc⟩
      · rintro ⟨h, -⟩
        exact h

/-- **C116** If modules are added at the end of a sequential model, then those that were there start, with the same seed and input shape, as they do without the new ones; the new ones start with the
shape that the old model declares and with the keys of the steps that follow. -/
theorem C116_append (sig : Sig M P S K A) (old new more : Tree M) (hn : new.jaxLeaves = old.jaxLeaves ++ more.jaxLeaves) (k : K) (s r r' : Tree Shape) (ms ms' : List M)
    (ho : seqCompile sig old k s = .ok (ms, r)) (h : seqCompile sig new k s = .ok (ms', r')) :
    ∃ es, ms' = ms ++ es ∧ ms.length = old.jaxLeaves.length ∧ es.length = more.jaxLeaves.length ∧ ShapeAt sig.outShape es r es.length r' ∧
    ∀ (i : Nat) m, more.jaxLeaves[i]? = some m → ∃ m' q, es[i]? = some m' ∧ ShapeAt sig.outShape es r i q ∧ sig.compile m (stepKey sig.split k (old.jaxLeaves.length + i)) q = .ok m' := by
  obtain ⟨ho, -⟩ := seqCompile_loop.1 ho
  obtain ⟨h, -⟩ := seqCompile_loop.1 h
  rw [hn, compileLoop_append, ho] at h
  simp only at h
  cases he : seqCompileLoop sig more.jaxLeaves (leftKey sig.split k old.jaxLeaves.length) r [] with
  | error e => rw [he] at h; cases h
  | ok x =>
    obtain ⟨es, r2⟩ := x
    rw [he] at h
    simp only [Except.map, Except.ok.injEq, Prod.mk.injEq] at h
    obtain ⟨rfl, rfl⟩ := h
    obtain ⟨l1, e1, hlen, -, -⟩ := compileLoop_keys ho
    obtain ⟨l2, e2, hlen2, hr, hc⟩ := compileLoop_keys he
    rw [List.nil_append] at e1 e2
    subst e1 e2
    refine ⟨es, rfl, hlen, hlen2, hr, fun i m hm => ?_⟩
    obtain ⟨m', q, a, b, c⟩ := hc i m hm
    exact ⟨m', q, a, b, by rw [stepKey_left]; exact c⟩

/-- **C116** The longer model can only be compiled if the shorter one can, or if the shorter one is refused for its output shape only; whatever stands in the way of the shorter one stands in the way of
the longer one with the same exception. -/
theorem C116_prefix (sig : Sig M P S K A) (old new more : Tree M) (hn : new.jaxLeaves = old.jaxLeaves ++ more.jaxLeaves) (k : K) (s : Tree Shape) :
    (∀ ms' r', seqCompile sig new k s = .ok (ms', r') → ∃ ms r, ms <+: ms' ∧ ShapeAt sig.outShape ms s ms.length r ∧ ms.length = old.jaxLeaves.length ∧
      (seqCompile sig old k s = .ok (ms, r) ∨ checkShape r ≠ .ok r)) ∧
    ∀ e, seqCompile sig old k s = .error e → seqCompile sig new k s = .error e ∨ ∃ ms r, ShapeAt sig.outShape ms s ms.length r ∧ checkShape r = .error e := by
  constructor
  · intro ms' r' h
    obtain ⟨h, -⟩ := seqCompile_loop.1 h
    rw [hn, compileLoop_append] at h
    cases ho : seqCompileLoop sig old.jaxLeaves k s [] with
    | error e => rw [ho] at h; cases h
    | ok x =>
      obtain ⟨ms, r⟩ := x
      rw [ho] at h
      simp only at h
      cases he : seqCompileLoop sig more.jaxLeaves (leftKey sig.split k old.jaxLeaves.length) r [] with
      | error e => rw [he] at h; cases h
      | ok y =>
        rw [he] at h
        simp only [Except.map, Except.ok.injEq, Prod.mk.injEq] at h
        obtain ⟨l1, e1, hlen, hs, -⟩ := compileLoop_keys ho
        rw [List.nil_append] at e1
        subst e1
        refine ⟨ms, r, ⟨_, h.1⟩, hs, hlen, ?_⟩
        by_cases hc : checkShape r = .ok r
        · exact .inl (seqCompile_loop.2 ⟨ho, hc⟩)
        · exact .inr hc
  · intro e h
    unfold seqCompile at h ⊢
    rw [hn, compileLoop_append]
    cases ho : seqCompileLoop sig old.jaxLeaves k s [] with
    | error e' =>
      rw [ho] at h
      simp only [Except.error.injEq] at h ⊢
      exact .inl h
    | ok x =>
      obtain ⟨ms, r⟩ := x
      rw [ho] at h
      obtain ⟨l1, e1, -, hs, -⟩ := compileLoop_keys ho
      rw [List.nil_append] at e1
      subst e1
      refine .inr ⟨ms, r, hs, ?_⟩
      simp only at h
      cases hc : checkShape r with
      | error e' => rw [hc] at h; simpa using h
      | ok r' => rw [hc] at h; cases h

theorem compileLoop_keeps (sig : Sig M P S K A) : ∀ (ms : List M) (k : K) (s r : Tree Shape), ShapeAt sig.outShape ms s ms.length r →
    (∀ (i : Nat) m q, ms[i]? = some m → ShapeAt sig.outShape ms s i q → ∀ k, sig.compile m k q = .ok m) → seqCompileLoop sig ms k s [] = .ok (ms, r)
  | [], k, s, r, hs, _ => by
    cases hs
    rfl
  | m :: ms, k, s, r, hs, hk => by
    cases hs with
    | step e hs =>
      simp only [seqCompileLoop, hk 0 m s rfl .here, e, List.nil_append]
      rw [compileLoop_acc, compileLoop_keeps sig ms _ _ r hs fun i x q hx hq => hk (i + 1) x q (by simpa using hx) (.step e hq)]
      rfl

/-- **C116** A model that is compiled (and trained, so that its modules are now `ms`), to which modules are added at the end and which is compiled again, with any seed: the modules that were there stay
as they are, if each of them keeps what it has when it is compiled again for the shape it gets. -/
theorem C116_transfer (sig : Sig M P S K A) (ms : List M) (new more : Tree M) (hn : new.jaxLeaves = ms ++ more.jaxLeaves) (k : K) (s r r' : Tree Shape) (ms' : List M)
    (hs : ShapeAt sig.outShape ms s ms.length r) (hk : ∀ (i : Nat) m q, ms[i]? = some m → ShapeAt sig.outShape ms s i q → ∀ k, sig.compile m k q = .ok m)
    (h : seqCompile sig new k s = .ok (ms', r')) :
    ∃ es, ms' = ms ++ es ∧ es.length = more.jaxLeaves.length ∧
    ∀ (i : Nat) m, more.jaxLeaves[i]? = some m → ∃ m' q, es[i]? = some m' ∧ ShapeAt sig.outShape es r i q ∧ sig.compile m (stepKey sig.split k (ms.length + i)) q = .ok m' := by
  obtain ⟨h, -⟩ := seqCompile_loop.1 h
  rw [hn, compileLoop_append, compileLoop_keeps sig ms k s r hs hk] at h
  simp only at h
  cases he : seqCompileLoop sig more.jaxLeaves (leftKey sig.split k ms.length) r [] with
  | error e => rw [he] at h; cases h
  | ok x =>
    obtain ⟨es, r2⟩ := x
    rw [he] at h
    simp only [Except.map, Except.ok.injEq, Prod.mk.injEq] at h
    obtain ⟨rfl, rfl⟩ := h
    obtain ⟨l2, e2, hlen2, hr, hc⟩ := compileLoop_keys he
    rw [List.nil_append] at e2
    subst e2
    refine ⟨es, rfl, hlen2, fun i m hm => ?_⟩
    obtain ⟨m', q, a, b, c⟩ := hc i m hm
    exact ⟨m', q, a, b, by rw [stepKey_left]; exact c⟩

theorem flat_append (l : List (Tree Nat)) (m : Nat) : Tree.flatL (Tree.normL (l ++ [.leaf m])) = Tree.flatL (Tree.normL l) ++ [m] := by
  induction l with
  | nil => rfl
  | cons t ts ih => simp only [List.cons_append, Tree.normL, Tree.flatL, ih, List.append_assoc]

/-- **C116** What `append` does to the modules of a list or tuple model is adding one at the end, so that the theorems above apply: the modules in the order in which they are applied. (Entries without
modules, such as empty lists, move the new module: C23.) -/
theorem C116_edit {S' : Type} (w : Edit.Mdl S') (l : List (Tree Nat)) (hw : w.modules = .list l ∨ w.modules = .tuple l) (m : Nat) (hl : l.length ≤ w.modules.jaxLeaves.length) :
    (Edit.edit w (.append m)).2 = .ok Option.none ∧ (Edit.edit w (.append m)).1.modules.jaxLeaves = w.modules.jaxLeaves ++ [m] := by
  have e : Edit.clampIdx l.length (w.modules.jaxLeaves.length : Int) = l.length := by unfold Edit.clampIdx; split <;> omega
  rcases hw with h | h <;> rw [h] at e ⊢
  · simp only [Edit.edit, Edit.editT, Edit.appendT, Edit.insertT, h, Except.map, Edit.pyInsert, e, List.take_length, List.drop_length, true_and]
    exact flat_append l m
  · simp only [Edit.edit, Edit.editT, Edit.appendT, Edit.insertT, h, Except.map, Edit.slice_insert, Edit.pyInsert, e, List.take_length, List.drop_length, true_and]
    exact flat_append l m

/-! ### Modules of the library -/

/-- **C116** A module of the library that has parameters keeps them when it is compiled again, with any key, for a shape that it accepts. -/
theorem C116_library (m : Mod) (ps : Tree Rand) (h : m.params = some ps) (s : Tree Shape) (hc : m.check ps s = Option.none) (k : Key) : Keys.compile m k s = .ok m := by
  simp [Keys.compile, h, hc]

/-! ### Concrete models -/

/-- The parameters of the module at a path. -/
def startOf (t : Tree Mod) (p : List Str) : Option (Tree Rand) := match Tree.get t p with
  | .ok (.leaf m) => m.params
  | _ => Option.none

/-- A bias and a Hermitian matrix. -/
def growOld : Tree Mod := .list [.leaf (rawMod (.bias true false)), .leaf (rawMod (.hermitian true 3))]

/-- The same and two biases. -/
def growNew : Tree Mod := .list [.leaf (rawMod (.bias true false)), .leaf (rawMod (.hermitian true 3)), .list [.leaf (rawMod (.bias true false)), .leaf (rawMod (.bias true false))]]

/-- The two biases. -/
def growMore : Tree Mod := .list [.leaf (rawMod (.bias true false)), .leaf (rawMod (.bias true false))]

/-- What the modules were drawn with. -/
def starts (x : Except PyErr (List Mod × Tree Shape)) : Option (List (Option (Tree Rand))) := x.toOption.map fun y => y.1.map (·.params)

example : growNew.jaxLeaves = growOld.jaxLeaves ++ growMore.jaxLeaves := rfl

example : starts (seqCompile libSig growOld (.seed 3) (.leaf [4])) = some [some (.leaf (.real (.child (.seed 3) 1) [4])),
      some (.leaf (.cplx (.child (.child (.child (.seed 3) 0) 1) 0) (.child (.child (.child (.seed 3) 0) 1) 1) [5, 3, 3]))] ∧
    (starts (seqCompile libSig growNew (.seed 3) (.leaf [4]))).map (fun l => l.take 2) = starts (seqCompile libSig growOld (.seed 3) (.leaf [4])) ∧
    (starts (seqCompile libSig growNew (.seed 3) (.leaf [4]))).map (fun l => l.drop 2) =
      some [some (.leaf (.real (.child (.child (.child (.seed 3) 0) 0) 1) [4])), some (.leaf (.real (.child (.child (.child (.child (.seed 3) 0) 0) 0) 1) [4]))] := by
  decide +kernel

/-- A model whose first module has parameters and to which a bias is added. -/
example : let m : Mod := ⟨.bias true false, true, some (.leaf (.given [4])), fun _ s => if s = .leaf [4] then Option.none else some .valueError⟩
    (∀ (i : Nat) m' q, [m][i]? = some m' → ShapeAt libSig.outShape [m] (.leaf [4]) i q → ∀ k, libSig.compile m' k q = .ok m') ∧ ShapeAt libSig.outShape [m] (.leaf [4]) 1 (.leaf [4]) ∧
    starts (seqCompile libSig (.list [.leaf m, .leaf (rawMod (.bias true false))]) (.seed 8) (.leaf [4])) = some [some (.leaf (.given [4])), some (.leaf (.real (.child (.child (.seed 8) 0) 1) [4]))] := by
  intro m
  refine ⟨fun i m' q hi hq k => ?_, .step rfl .here, by decide +kernel⟩
  cases i with
  | zero =>
    cases hq
    obtain rfl : m = m' := by simpa using hi
    exact C116_library m _ rfl (.leaf [4]) (by decide +kernel) k
  | succ i => simp at hi

example : let w : Edit.Mdl Nat := Edit.init (.list [.leaf 0, .list [.leaf 1, .leaf 2]])
    (Edit.edit w (.append 3)).1.modules.jaxLeaves = [0, 1, 2, 3] := by decide +kernel

/-! ### Where the place in the order changes -/

/-- **C116 fails for dictionaries**: an entry added at the end of a dictionary of modules changes what the others start with, if its name comes earlier in the alphabet. -/
theorem C116_dict_refuted : ¬ ∀ (kvs : List (Str × Tree Mod)) (name : Str) (m : Mod) (k : Key) (s r r' : Tree Shape) (ms ms' : List Mod),
    seqCompile libSig (.dict kvs) k s = .ok (ms, r) → seqCompile libSig (.dict (kvs ++ [(name, .leaf m)])) k s = .ok (ms', r') →
    ∀ x ∈ ms, x.params ∈ ms'.map (·.params) := by
  intro h
  cases h1 : seqCompile libSig (.dict [("B".toList, .leaf (rawMod (.bias true false)))]) (.seed 0) (.leaf [2]) with
  | error e => exact absurd (congrArg (fun x => x.toOption.isSome) h1) (by rw [show (Except.error e : Except PyErr (List Mod × Tree Shape)).toOption.isSome = false from rfl]; decide +kernel)
  | ok x =>
    cases h2 : seqCompile libSig (.dict ([("B".toList, .leaf (rawMod (.bias true false)))] ++ [("A".toList, .leaf (rawMod .other))])) (.seed 0) (.leaf [2]) with
    | error e => exact absurd (congrArg (fun x => x.toOption.isSome) h2) (by rw [show (Except.error e : Except PyErr (List Mod × Tree Shape)).toOption.isSome = false from rfl]; decide +kernel)
    | ok y =>
      have e1 : starts (seqCompile libSig (.dict [("B".toList, .leaf (rawMod (.bias true false)))]) (.seed 0) (.leaf [2])) = some [some (.leaf (.real (.child (.seed 0) 1) [2]))] := by
        decide +kernel
      have e2 : starts (seqCompile libSig (.dict ([("B".toList, .leaf (rawMod (.bias true false)))] ++ [("A".toList, .leaf (rawMod .other))])) (.seed 0) (.leaf [2])) =
          some [some .none, some (.leaf (.real (.child (.child (.seed 0) 0) 1) [2]))] := by decide +kernel
      rw [h1] at e1
      rw [h2] at e2
      simp only [starts, Except.toOption, Option.map_some, Option.some.injEq] at e1 e2
      have := h _ _ _ _ _ _ _ _ _ h1 h2
      rw [e2] at this
      have hx : ∀ z ∈ x.1.map (·.params), z ∈ [some Tree.none, some (.leaf (.real (.child (.child (.seed 0) 0) 1) [2]))] := by
        intro z hz
        obtain ⟨w, hw, rfl⟩ := List.mem_map.1 hz
        exact this w hw
      rw [e1] at hx
      exact absurd (hx _ (List.mem_singleton.2 rfl)) (by decide +kernel)

/-- A graph with one bias. -/
def growGraph : List (Str × Tree Mod) := [("B".toList, .leaf (rawMod (.bias true false)))]

/-- **C116 fails for graphs**: a module beside the others, on which none of them depends, changes what they start with. -/
theorem C116_graph_refuted : ¬ ∀ (kvs : List (Str × Tree Mod)) (name : Str) (m : Mod) (conn conn' : List (Str × List Str)) (k : Key) (s r r' : Tree Shape) (c c' : Tree Mod) (o o' : List Str),
    (∀ e ∈ ConnSpec.edges conn, e ∈ ConnSpec.edges conn') →
    (∀ e ∈ ConnSpec.edges conn', e ∈ ConnSpec.edges conn ∨ e.2 = name ∨ e.1 = name ∧ "output".toList <+: e.2) →
    nsCompile libSig '.' uFresh (.dict kvs) conn k s = .ok (c, o, r) → nsCompile libSig '.' uFresh (.dict (kvs ++ [(name, .leaf m)])) conn' k s = .ok (c', o', r') →
    ∀ q t, (q, t) ∈ kvs → startOf c' [q] = startOf c [q] := by
  intro h
  have e1 : ((nsCompile libSig '.' uFresh (.dict growGraph) [("input".toList, ["B".toList]), ("B".toList, ["output.0".toList])] (.seed 0) (.leaf [2])).toOption.map
      fun x => startOf x.1 ["B".toList]) = some (some (.leaf (.real (.child (.seed 0) 1) [2]))) := by decide +kernel
  have e2 : ((nsCompile libSig '.' uFresh (.dict (growGraph ++ [("A".toList, .leaf (rawMod (.bias true false)))]))
      [("input".toList, ["A".toList, "B".toList]), ("B".toList, ["output.0".toList]), ("A".toList, ["output.1".toList])] (.seed 0) (.leaf [2])).toOption.map
      fun x => startOf x.1 ["B".toList]) = some (some (.leaf (.real (.child (.child (.seed 0) 0) 1) [2]))) := by decide +kernel
  cases h1 : nsCompile libSig '.' uFresh (.dict growGraph) [("input".toList, ["B".toList]), ("B".toList, ["output.0".toList])] (.seed 0) (.leaf [2]) with
  | error e => rw [h1] at e1; cases e1
  | ok x =>
    cases h2 : nsCompile libSig '.' uFresh (.dict (growGraph ++ [("A".toList, .leaf (rawMod (.bias true false)))]))
        [("input".toList, ["A".toList, "B".toList]), ("B".toList, ["output.0".toList]), ("A".toList, ["output.1".toList])] (.seed 0) (.leaf [2]) with
    | error e => rw [h2] at e2; cases e2
    | ok y =>
      rw [h1] at e1
      rw [h2] at e2
      simp only [Except.toOption, Option.map_some, Option.some.injEq] at e1 e2
      have := h growGraph _ _ _ _ _ _ _ _ _ _ _ _ (by decide) (by decide) h1 h2 "B".toList _ (List.mem_singleton.2 rfl)
      rw [e1, e2] at this
      exact absurd this (by decide +kernel)

end Verif.Props
