import Verif.Lemmas.NonSeqShape
import Verif.Lemmas.SeqCompose
import Verif.Props.NonSeq

/-!
# The random keys of the modules of a model
-/

namespace Verif.Props

open TreeSpec ConnSpec PathSpec ForwardSpec DataflowSpec Conn Tree Forward

variable {M P S K A : Type}

/-- The key of step `i`: at every step the key is split, the second half is used and the first half is kept for the next steps. -/
def stepKey (split : K → K × K) : K → Nat → K
  | k, 0 => (split k).2
  | k, i + 1 => stepKey split (split k).1 i

/-- The shape at step `i` of a sequence of modules. -/
inductive ShapeAt (outShape : M → Tree Shape → Except PyErr (Tree Shape)) : List M → Tree Shape → Nat → Tree Shape → Prop
  | here {ms s} : ShapeAt outShape ms s 0 s
  | step {m ms s s' i r} : outShape m s = .ok s' → ShapeAt outShape ms s' i r → ShapeAt outShape (m :: ms) s (i + 1) r

theorem compileLoop_keys {sig : Sig M P S K A} : ∀ {os : List M} {k : K} {s : Tree Shape} {acc res : List M} {r : Tree Shape},
    seqCompileLoop sig os k s acc = .ok (res, r) → ∃ l, res = acc ++ l ∧ l.length = os.length ∧ ShapeAt sig.outShape l s l.length r ∧
      ∀ (i : Nat) m, os[i]? = some m → ∃ m' s', l[i]? = some m' ∧ ShapeAt sig.outShape l s i s' ∧ sig.compile m (stepKey sig.split k i) s' = .ok m'
  | [], k, s, acc, res, r, h => by
    simp only [seqCompileLoop, Except.ok.injEq, Prod.mk.injEq] at h
    obtain ⟨rfl, rfl⟩ := h
    exact ⟨[], by simp, rfl, .here, by simp⟩
  | m :: os, k, s, acc, res, r, h => by
    simp only [seqCompileLoop] at h
    split at h
    · simp at h
    · next m' hm' =>
      split at h
      · simp at h
      · next s' hs' =>
        obtain ⟨l, hl, hlen, hr, hc⟩ := compileLoop_keys h
        refine ⟨m' :: l, by rw [hl]; simp, by simp [hlen], .step hs' hr, ?_⟩
        intro i b hb
        cases i with
        | zero =>
          simp only [List.getElem?_cons_zero, Option.some.injEq] at hb
          subst hb
          exact ⟨m', s, rfl, .here, hm'⟩
        | succ i =>
          rw [List.getElem?_cons_succ] at hb
          obtain ⟨b', t, h1, h2, h3⟩ := hc i b hb
          exact ⟨b', t, by rw [List.getElem?_cons_succ]; exact h1, .step hs' h2, h3⟩

/-- **C21**, keys of sequential models: the modules are compiled in the order in which they are applied, module number `i` with the key of step `i` and with the shape that the compiled
modules before it declare; the recorded output shape is the one that the last module declares. -/
theorem C21_keys_sequential (sig : Sig M P S K A) (modules : Tree M) (k : K) (s : Tree Shape) (ms : List M) (r : Tree Shape) (h : seqCompile sig modules k s = .ok (ms, r)) :
    ms.length = modules.jaxLeaves.length ∧ ShapeAt sig.outShape ms s ms.length r ∧
    ∀ (i : Nat) m, modules.jaxLeaves[i]? = some m → ∃ m' s', ms[i]? = some m' ∧ ShapeAt sig.outShape ms s i s' ∧ sig.compile m (stepKey sig.split k i) s' = .ok m' := by
  unfold seqCompile at h
  split at h
  · cases h
  · next ms' r' hl =>
    split at h
    · cases h
    · next r'' hc =>
      simp only [Except.ok.injEq, Prod.mk.injEq] at h
      obtain ⟨rfl, rfl⟩ := h
      obtain rfl := checkShape_ok hc
      obtain ⟨l, hl, h2, h3, h4⟩ := compileLoop_keys hl
      rw [List.nil_append] at hl
      subst hl
      exact ⟨h2, h3, h4⟩

theorem nsCompileLoop_keys {sep : Char} {sig : Sig M P S K A} {ins : Tree Shape} : ∀ {l : List (List Str)} {k : K} {t t' : Tree M},
    (∀ m ∈ l, Comps sep m ∧ m ≠ [] ∧ reserved (joinWith sep m) = false) → l.Pairwise Diverge →
    nsCompileLoop sig sep ins (l.map (joinWith sep) ++ ["output".toList]) k t = .ok t' →
    (∀ q, Proper q → (∀ m ∈ l, Diverge m q) → get t' q = get t q) ∧
    ∀ (i : Nat) m, l[i]? = some m → ∃ b b' s, get t m = .ok (.leaf b) ∧ get ins m = .ok s ∧ sig.compile b (stepKey sig.split k i) s = .ok b' ∧ get t' m = .ok (.leaf b')
  | [], k, t, t', _, _, h => by
    have hr : reserved "output".toList = true := by decide
    rw [List.map_nil, List.nil_append, nsCompileLoop.eq_def] at h
    simp only [hr, if_true, nsCompileLoop, Except.ok.injEq] at h
    subst h
    exact ⟨fun _ _ _ => rfl, by simp⟩
  | m :: l, k, t, t', hl, hd, h => by
    obtain ⟨hc, hne, hr⟩ := hl m (by simp)
    rw [List.map_cons, List.cons_append, nsCompileLoop.eq_def] at h
    simp only [hr, Bool.false_eq_true, if_false, split_join_comps hc hne] at h
    split at h
    · simp at h
    · next b hb =>
      rw [leafAt_iff _ hc hne] at hb
      split at h
      · simp at h
      · next s hs =>
        split at h
        · simp at h
        · next b' hcomp =>
          split at h
          · simp at h
          · next t1 hset =>
            rw [List.pairwise_cons] at hd
            obtain ⟨r2, r3⟩ := nsCompileLoop_keys (fun x hx => hl x (by simp [hx])) hd.2 h
            have hp : ∀ x ∈ m :: l, Proper x := fun x hx w hw => ((hl x hx).1 w hw).1
            refine ⟨?_, ?_⟩
            · intro q hq hdq
              rw [r2 q hq fun x hx => hdq x (by simp [hx])]
              exact get_set_div hset (hdq m (by simp)) hq
            · intro i x hx
              cases i with
              | zero =>
                simp only [List.getElem?_cons_zero, Option.some.injEq] at hx
                subst hx
                refine ⟨b, b', s, hb, hs, hcomp, ?_⟩
                rw [r2 m (hp m (by simp)) fun y hy => diverge_symm (hd.1 y hy)]
                exact get_set hset
              | succ i =>
                rw [List.getElem?_cons_succ] at hx
                have hxm := List.mem_of_getElem? hx
                obtain ⟨c, c', s', g1, g2, g3, g4⟩ := r3 i x hx
                refine ⟨c, c', s', ?_, g2, g3, g4⟩
                rw [← g1]
                exact (get_set_div hset (hd.1 x hxm) (hp x (by simp [hxm]))).symm

/-- The shape equations of a graph model. -/
theorem shapes_dataflow {sig : Sig M P S K A} {sep : Char} {fresh : Str → Nat → Nat → Str} {modules : Tree M} {conn : List (Str × List Str)} (h : Names sep modules conn)
    (hf : FreshOk sep fresh) {s r outs' outs ins ins0 : Tree Shape} {order : List Str} {ms : List (List Str)} {L : List (List Str × M × Tree Str)} {placed outPlaced : Tree Str}
    (hr : Run sep fresh (shapeStep sig sep) modules conn s ins0 r outs' ins order ms L placed outPlaced outs) :
    ∃ R, concretizeConnections (nsCfg sep) fresh modules conn = .ok R ∧
      (∀ m, Scheduled (nsCfg sep) modules conn m → Holds sep R m (reqOf placed outPlaced m)) ∧
      Holds sep R ["output".toList] (reqOf placed outPlaced ["output".toList]) ∧
      valAt outs' ["input".toList] = s ∧ Fills (Reads (nsCfg sep) modules (valAt outs')) (reqOf placed outPlaced ["output".toList]) r ∧
      ∀ m, Scheduled (nsCfg sep) modules conn m → ∃ b inp, get modules m = .ok (.leaf b) ∧ get ins m = .ok inp ∧
        Fills (Reads (nsCfg sep) modules (valAt outs')) (reqOf placed outPlaced m) inp ∧ sig.outShape b inp = .ok (valAt outs' m) := by
  obtain ⟨R, hR, hc⟩ := concrete_ok h hf
  obtain ⟨hin, hstep, hout, hho⟩ := run_equations h hf hr hR hc
  have hL : ∀ x ∈ L, Comps sep x.1 ∧ x.1 ≠ [] := by
    intro x hx
    have hm : x.1 ∈ ms := by rw [← hr.paths]; exact List.mem_map_of_mem (f := Prod.fst) hx
    exact ⟨(hr.ord.comps _ hm).1, ((hr.ord.mem _).1 hm).1.1⟩
  have hfind : ∀ m, Scheduled (nsCfg sep) modules conn m → ∃ L1 x L2, L = L1 ++ x :: L2 ∧ x.1 = m ∧ x.2.2 = reqOf placed outPlaced m := by
    intro m hm
    have := (hr.ord.mem m).2 hm
    rw [← hr.paths] at this
    obtain ⟨x, hx, rfl⟩ := List.mem_map.1 this
    obtain ⟨L1, L2, e⟩ := List.append_of_mem hx
    refine ⟨L1, x, L2, e, rfl, ?_⟩
    unfold reqOf
    rw [if_neg (by rintro e; exact hm.1.2.2.1 (by rw [e]; rfl)), (hr.elems x hx).2]
  have ho : reqOf placed outPlaced ["output".toList] = outPlaced := by unfold reqOf; exact if_pos rfl
  refine ⟨R, hR, fun m hm => ?_, by rw [ho]; exact hho, hin, by rw [ho]; exact hout, fun m hm => ?_⟩
  · obtain ⟨L1, x, L2, e, rfl, ereq⟩ := hfind m hm
    obtain ⟨_, _, _, _, _, _, _, _, _, hh, _⟩ := hstep L1 x L2 e
    rw [← ereq]; exact hh
  · obtain ⟨L1, x, L2, e, rfl, ereq⟩ := hfind m hm
    obtain ⟨outs1, st1, inp, st2, outs2, -, hfi, -, hca, -, hs2⟩ := hstep L1 x L2 e
    have hx : x ∈ L := by rw [e]; simp
    obtain ⟨h1, h2⟩ := (shapeStep_iff sig x.2.1 (hL x hx).1 (hL x hx).2 _ _ _ _).1 hca
    have hms : ms = L1.map Prod.fst ++ x.1 :: L2.map Prod.fst := by rw [← hr.paths, e]; simp
    have hdv := hr.ord.diverge
    rw [hms] at hdv
    obtain ⟨-, d2, -⟩ := pairwise_split diverge_symm hdv
    have hpx : Proper x.1 := fun w hw => ((hL x hx).1 w hw).1
    refine ⟨x.2.1, inp, (hr.elems x hx).1, ?_, by rw [← ereq]; exact hfi, h2⟩
    rw [steps_ins hpx hs2 (fun y hy => hL y (by rw [e]; simp [hy])) (fun y hy => d2 _ (List.mem_map_of_mem (f := Prod.fst) hy))]
    exact get_set h1

/-- **C21**, compiling non-sequential models: the recorded execution order lists the paths of all scheduled modules, each once, between `input` and `output`. The module at position `i`
is compiled with the key of step `i` and with the shape that it will be given: `val` solves the dataflow equations of the shapes, in which every module declares its output shape from
the declared shapes that are connected to it; the recorded output shape is what is connected to the output. -/
theorem C21_keys_nonsequential (sig : Sig M P S K A) (sep : Char) (fresh : Str → Nat → Nat → Str) (hf : FreshOk sep fresh) (modules modules' : Tree M) (conn : List (Str × List Str))
    (h : Names sep modules conn) (k : K) (s : Tree Shape) (order : List Str) (r : Tree Shape) (hcomp : nsCompile sig sep fresh modules conn k s = .ok (modules', order, r)) :
    ∃ (ms : List (List Str)) (R : List (Str × List Str)) (req : List Str → Tree Str) (val : List Str → Tree Shape),
      order = "input".toList :: ms.map (joinWith sep) ++ ["output".toList] ∧ ms.Nodup ∧ (∀ m, m ∈ ms ↔ Scheduled (nsCfg sep) modules conn m) ∧
      concretizeConnections (nsCfg sep) fresh modules conn = .ok R ∧ (∀ m ∈ ms, Holds sep R m (req m)) ∧ Holds sep R ["output".toList] (req ["output".toList]) ∧
      val ["input".toList] = s ∧ Fills (Reads (nsCfg sep) modules val) (req ["output".toList]) r ∧
      ∀ (i : Nat) m, ms[i]? = some m → ∃ b b' inp, Tree.get modules m = .ok (.leaf b) ∧ Tree.get modules' m = .ok (.leaf b') ∧
        Fills (Reads (nsCfg sep) modules val) (req m) inp ∧ sig.outShape b inp = .ok (val m) ∧ sig.compile b (stepKey sig.split k i) inp = .ok b' := by
  unfold nsCompile at hcomp
  cases ho : execOrder sep modules conn with
  | error e => rw [ho] at hcomp; simp at hcomp
  | ok order0 =>
  rw [ho] at hcomp
  simp only at hcomp
  split at hcomp
  · simp at hcomp
  · next r0 outsS ins hsh =>
    split at hcomp
    · simp at hcomp
    · next r1 hck =>
      split at hcomp
      · simp at hcomp
      · next ms' hloop =>
        simp only [Except.ok.injEq, Prod.mk.injEq] at hcomp
        obtain ⟨rfl, rfl, rfl⟩ := hcomp
        obtain rfl := checkShape_ok hck
        obtain ⟨order1, t, ho1, ht, hrun⟩ := nsShapes_iff.1 hsh
        rw [ho] at ho1
        cases ho1
        obtain ⟨order2, ms, LS, placed, outPlaced, outsS0, hS⟩ := (nsRun_iff h).1 hrun
        have hSe := hS.exec
        rw [ho] at hSe
        cases hSe
        have hres := order_reserved h hS.ord
        have heq := hS.ord.eq
        rw [heq] at hloop
        have hri : reserved "input".toList = true := by decide
        rw [List.cons_append, nsCompileLoop.eq_def] at hloop
        simp only [hri, if_true] at hloop
        obtain ⟨-, c3⟩ := nsCompileLoop_keys hres hS.ord.diverge hloop
        obtain ⟨R, q1, q2, q3, q4, q5, q6⟩ := shapes_dataflow h hf hS
        refine ⟨ms, R, _, _, heq, hS.ord.nodup, hS.ord.mem, q1, fun m hm => q2 m ((hS.ord.mem m).1 hm), q3, q4, q5, fun i m hm => ?_⟩
        obtain ⟨b, b', s', g1, g2, g3, g4⟩ := c3 i m hm
        obtain ⟨b₁, inp, e1, e2, e3, e4⟩ := q6 m ((hS.ord.mem m).1 (List.mem_of_getElem? hm))
        rw [g1] at e1
        cases e1
        rw [g2] at e2
        cases e2
        exact ⟨b, b', s', g1, g4, e3, e4, g3⟩

/-- Modules that record the key they were compiled with; keys are the ways in which they were split off. -/
def keySig : Sig (List Bool) Unit Unit (List Bool) Nat where
  split k := (k ++ [false], k ++ [true])
  splitN k n := List.replicate n k
  compile _ k _ := .ok k
  outShape _ s := .ok s
  call _ _ x _ _ _ := .ok (x, ())

example : seqCompile keySig (.list [.leaf [], .leaf [], .leaf []]) [] (.leaf [2]) = .ok ([[true], [false, true], [false, false, true]], .leaf [2]) := by decide +kernel

/-- The diamond, whose modules record their keys. -/
def diaKeys : Tree (List Bool) := .dict [("A".toList, .leaf []), ("B".toList, .list [.leaf []]), ("C".toList, .leaf [])]

example : (nsCompile keySig '.' uFresh diaKeys diaConn [] (.leaf [2])).map (fun p => (p.1, p.2.1)) = .ok
    (.dict [("A".toList, .leaf [true]), ("B".toList, .list [.leaf [false, true]]), ("C".toList, .leaf [false, false, true])],
      ["input".toList, "A".toList, "B.0".toList, "C".toList, "output".toList]) := by decide +kernel

example : stepKey keySig.split [] 2 = [false, false, true] := rfl

end Verif.Props
