import Verif.Model.Stale
import Verif.Props.Prebuilt

/-!
# C89: using a linear layer between compilations
-/

namespace Verif.Props
open Reshape ReshapeSpec Tree ForwardSpec NArr NdSpec Elementwise Prebuilt

variable {K : Type}

/-- The same structure: lists, tuples and keys, whatever is at the leaves. -/
def SameStructure {α β : Type} (s : Tree α) (t : Tree β) : Prop := map (fun _ => ()) s.norm = map (fun _ => ()) t.norm

theorem flattenTarget_struct {s t : Tree (List Nat)} {a b : List Nat} (hs : jaxLeaves s = [a]) (ht : jaxLeaves t = [b]) (h : SameStructure s t) :
    flattenTarget (map some s) = flattenTarget (map some t) := by
  have key : ∀ (u : Tree (List Nat)) (c : List Nat), jaxLeaves u = [c] → flattenTarget (map some u) = map (fun _ => some [-1]) (map (fun _ => ()) u.norm) := by
    intro u c hu
    unfold flattenTarget
    split
    · rename_i hi
      cases u with
      | leaf s => rfl
      | none => cases hi
      | list ts => cases ts with
        | nil => cases hu
        | cons t ts => cases hi
      | tuple ts => cases ts with
        | nil => cases hu
        | cons t ts => cases hi
      | dict ts => cases ts with
        | nil => cases hu
        | cons t ts => cases hi
    · rw [Tree.norm_map, Tree.map_map, Tree.map_map]
  rw [key s a hs, key t b ht, h]

/-- The subscripts do not depend on the sizes. -/
theorem matmul_call_shapes [CommSemiring K] (p : Einsum.Params K) {D D' : Nat} {s₁ s₂ : Tree (List Nat)} (h₁ : jaxLeaves s₁ = [[D]]) (h₂ : jaxLeaves s₂ = [[D']]) (d : Tree (NArr K)) :
    Matmul.call (p, "ab,b".toList) s₁ d = Matmul.call (p, "ab,b".toList) s₂ d := by
  unfold Matmul.call Einsum.call
  simp only [lin_concretise D s₁ h₁, lin_concretise D' s₂ h₂]

/-- Layers for the hyperparameters `h` that were compiled for data of the structure `st`. -/
structure Compiled (h : LinHyper K) (st : Tree (List Nat)) (ly : Layers K) : Prop where
  plan : ∃ s₁ D, ly.plan = some ("ab,b".toList, s₁, flattenTarget (map some st)) ∧ jaxLeaves s₁ = [[D]]
  bias : ly.hasBias = h.bias
  act : ly.act = h.act

theorem mixed_eq [CommSemiring K] {h : LinHyper K} {st : Tree (List Nat)} {code now : Layers K} (hc : Compiled h st code) (hn : Compiled h st now) (data : Tree (NArr K)) :
    Stale.mixed code now data = linCall now data := by
  obtain ⟨⟨s₁, D, hp, hl⟩, hb, ha⟩ := hc
  obtain ⟨⟨s₂, D', hp', hl'⟩, hb', ha'⟩ := hn
  have : Stale.count code = Stale.count now := by simp [Stale.count, hb, hb', ha, ha']
  unfold Stale.mixed
  rw [if_neg (by simp [this])]
  unfold linCall
  rw [hp, hp']
  simp only [hb, hb', ha, ha']
  cases Reshape.callable (some (flattenTarget (map some st))) data with
  | error e => rfl
  | ok d => simp only [matmul_call_shapes now.params hl hl' d]

/-- What is given to the operations: shapes with a single array in the structure `st`, and parameters of the shapes of the present ones. -/
def StaleOk (st : Tree (List Nat)) (u : Stale.Used K) : Stale.Op K → Prop
  | .compile _ _ s => KeysOk s ∧ (treeFlattenShape s).length = 1 ∧ (∃ a, jaxLeaves s = [a]) ∧ SameStructure s st
  | .call _ => True
  | .setParams W b => (∃ W', u.mdl.modules.params = .arr W' ∧ W.shape = W'.shape) ∧ (match b, u.mdl.modules.b with
      | some b, some (.arr b') => b.shape = b'.shape
      | Option.none, Option.none => True
      | _, _ => False)
  | .setHyper _ => False

/-- All operations of a history are given such arguments. -/
def AllStaleOk [CommSemiring K] (st : Tree (List Nat)) : Stale.Used K → List (Stale.Op K) → Prop
  | _, [] => True
  | u, o :: os => StaleOk st u o ∧ AllStaleOk st (Stale.step u o) os

/-- The parameters fit the shape of the samples. -/
structure LinFit (h : LinHyper K) (n : Nat) (st : Tree (List Nat)) (m : Mdl (LinHyper K) (Layers K) (Tree (List Nat))) : Prop where
  comp : Compiled h st m.modules
  out : m.modules.out = n
  fit : ∃ s a W, m.inShape = some s ∧ jaxLeaves s = [a] ∧ m.modules.params = .arr W ∧ W.shape = [n, ReshapeSpec.count a]
  b : if h.bias then ∃ b, m.modules.b = some (.arr b) ∧ b.shape = [n] else m.modules.b = Option.none

/-- What holds of a linear layer whose hyperparameters stay. -/
structure StaleInv (h : LinHyper K) (n : Nat) (st : Tree (List Nat)) (u : Stale.Used K) : Prop where
  hyper : u.mdl.hyper = h
  now : (u.mdl.inShape = Option.none ∧ u.mdl.modules.params = .none ∧ u.mdl.modules.plan = Option.none ∧ u.kept = Option.none) ∨ LinFit h n st u.mdl
  kept : ∀ c, u.kept = some c → Compiled h st c
  live : u.live = true → u.kept.isSome

theorem linFit_compile {h : LinHyper K} {n : Nat} {st : Tree (List Nat)} (draw : Nat → List Nat → K) (drawB : List Nat → List Nat → K) {s : Tree (List Nat)} {a c : List Nat}
    (hk : KeysOk s) (h1 : (treeFlattenShape s).length = 1) (ha : jaxLeaves s = [a]) (hc : jaxLeaves st = [c]) (hst : SameStructure s st) (hn : h.out = some n) (m : Mdl (LinHyper K) (Layers K) (Tree (List Nat)))
    (hm : m.hyper = h) (hf : m.inShape = Option.none ∨ LinFit h n st m) :
    (Prebuilt.compile (linOps draw drawB) m s).2 = .ok () ∧ (Prebuilt.compile (linOps draw drawB) m s).1.hyper = h ∧ LinFit h n st (Prebuilt.compile (linOps draw drawB) m s).1 := by
  obtain ⟨s₁, hl, -, -, hsub⟩ := lin_sub draw drawB hk ha
  have hcheck : linCheck m.hyper s = .ok () := by
    unfold linCheck
    rw [hm, hn]
    simp [h1]
  have ht := flattenTarget_struct ha hc hst
  unfold Prebuilt.compile
  simp only [linOps, hcheck]
  by_cases hi : m.inShape = some s
  · have hF : LinFit h n st m := hf.resolve_left (by rw [hi]; simp)
    obtain ⟨hcomp, hout, ⟨s', a', W, hs', ha', hW, hWs⟩, hb⟩ := hF
    rw [hi] at hs'
    cases hs'
    have ea : a = a' := by rw [ha] at ha'; cases ha'; rfl
    subst ea
    rw [if_pos hi, hsub m.modules (.inr ⟨W, hW, by rw [hout]; exact hWs⟩) (by
      cases hbb : h.bias with
      | true =>
        rw [hbb] at hb
        obtain ⟨b, hb, hbs⟩ := hb
        exact .inr ⟨b, hb, by rw [hout]; exact hbs⟩
      | false => rw [hbb] at hb; exact .inl hb)]
    refine ⟨rfl, hm, ⟨⟨s₁, ReshapeSpec.count a, by simp only [ht], hl⟩, hcomp.bias, hcomp.act⟩, hout, ⟨s, a, W, rfl, ha, by simp [hW, Einsum.Params.arrays], hWs⟩, ?_⟩
    simp only [hcomp.bias]
    cases hbb : h.bias with
    | true =>
      rw [hbb] at hb
      obtain ⟨b, hb, hbs⟩ := hb
      exact ⟨b, by simp [hb], hbs⟩
    | false => rw [hbb] at hb; simpa using hb
  · rw [if_neg hi, hsub _ (.inl rfl) (.inl rfl)]
    refine ⟨rfl, hm, ⟨⟨s₁, ReshapeSpec.count a, by simp only [ht], hl⟩, by simp [linBuild, hm], by simp [linBuild, hm]⟩, by simp [linBuild, hm, hn], ⟨s, a, _, rfl, ha, rfl, by simp [linBuild, hm, hn, Einsum.Params.arrays]⟩, ?_⟩
    cases hbb : h.bias with
    | true => exact ⟨⟨[n], drawB [n]⟩, by simp [linBuild, hm, hn, hbb], rfl⟩
    | false => simp [linBuild, hm, hbb]

theorem stale_step [CommSemiring K] {h : LinHyper K} {n : Nat} {st : Tree (List Nat)} {c : List Nat} (hn : h.out = some n) (hc : jaxLeaves st = [c]) (u : Stale.Used K) (o : Stale.Op K) (ho : StaleOk st u o)
    (hi : StaleInv h n st u) : StaleInv h n st (Stale.step u o) := by
  obtain ⟨hyper, now, kept, live⟩ := hi
  cases o with
  | compile draw drawB s =>
    obtain ⟨hk, h1, ⟨a, ha⟩, hst⟩ := ho
    obtain ⟨-, h3, h4⟩ := linFit_compile draw drawB hk h1 ha hc hst hn u.mdl hyper (now.imp (fun x => x.1) id)
    have hcheck : linCheck u.mdl.hyper s = .ok () := by
      unfold linCheck
      rw [hyper, hn]
      simp [h1]
    simp only [Stale.step, Stale.compile]
    by_cases he : u.mdl.inShape = some s
    · rw [if_neg (by simp [he])]
      exact ⟨h3, .inr h4, kept, live⟩
    · rw [if_pos ⟨hcheck, he⟩]
      refine ⟨h3, .inr h4, fun c' hc' => ?_, fun h => by cases h⟩
      cases hl : u.live with
      | false => rw [hl] at hc'; exact kept c' (by simpa using hc')
      | true =>
        rw [hl] at hc'
        simp only [if_true, Option.some.injEq] at hc'
        subst hc'
        rcases now with ⟨-, -, -, hnone⟩ | hF
        · have := live hl
          rw [hnone] at this; cases this
        · exact hF.comp
  | call data =>
    simp only [Stale.step, Stale.call]
    split
    · exact ⟨hyper, now, kept, live⟩
    · rename_i hacc
      split
      · exact ⟨hyper, now, kept, live⟩
      · rename_i hkn
        have hF : LinFit h n st u.mdl := by
          refine now.resolve_left fun x => ?_
          simp [Stale.accepts, x.2.2.1] at hacc
        exact ⟨hyper, .inr hF, fun c' hc' => by cases hc'; exact hF.comp, fun _ => rfl⟩
  | setParams W b =>
    obtain ⟨⟨W', hW', hWs⟩, hb⟩ := ho
    rcases now with ⟨-, hp, -, -⟩ | hF
    · rw [hp] at hW'; cases hW'
    · refine ⟨hyper, .inr ?_, kept, live⟩
      obtain ⟨hcomp, hout, ⟨s, a, W₀, h1, h2, h3, h4⟩, hbb⟩ := hF
      refine ⟨⟨hcomp.plan, hcomp.bias, hcomp.act⟩, hout, ⟨s, a, W, h1, h2, rfl, ?_⟩, ?_⟩
      · rw [h3] at hW'; cases hW'
        rw [hWs, h4]
      · cases hbias : h.bias with
        | true =>
          rw [hbias] at hbb
          obtain ⟨b₀, h5, h6⟩ := hbb
          rw [h5] at hb
          cases b with
          | none => exact hb.elim
          | some b => exact ⟨b, rfl, by rw [show b.shape = b₀.shape from hb, h6]⟩
        | false =>
          rw [hbias] at hbb
          simp only [Bool.false_eq_true, if_false] at hbb
          rw [hbb] at hb
          cases b with
          | none => rfl
          | some b => exact hb.elim
  | setHyper h' => exact ho.elim

/-- **C89 (calls between compilations).** Whatever sequence of compilations, calls and changes of parameters a linear layer has seen, as long as its hyperparameters and the structure of the data stayed: a call returns what the
present modules compute with the present parameters, although the function that the model keeps may be that of modules it no longer has. -/
theorem C89_call [CommSemiring K] (h : LinHyper K) (n : Nat) (hn : h.out = some n) (st : Tree (List Nat)) (c : List Nat) (hc : jaxLeaves st = [c]) (ops : List (Stale.Op K))
    (ho : AllStaleOk st (Stale.new h) ops) (data : Tree (NArr K)) :
    let u := ops.foldl Stale.step (Stale.new h)
    (Stale.call u data).2 = (Stale.accepts u.mdl data).bind fun _ => linCall u.mdl.modules data := by
  have key : ∀ (ops : List (Stale.Op K)) (u : Stale.Used K), AllStaleOk st u ops → StaleInv h n st u → StaleInv h n st (ops.foldl Stale.step u) := by
    intro ops
    induction ops with
    | nil => exact fun u _ hi => hi
    | cons o os ih => exact fun u ho hi => ih _ ho.2 (stale_step hn hc u o ho.1 hi)
  have hi := key ops (Stale.new h) ho ⟨rfl, .inl ⟨rfl, rfl, rfl, rfl⟩, (fun _ h => by cases h), (fun h => by cases h)⟩
  intro u
  change StaleInv h n st u at hi
  obtain ⟨hyper, now, kept, live⟩ := hi
  unfold Stale.call
  cases hacc : Stale.accepts u.mdl data with
  | error e => rfl
  | ok _ =>
    have hF : LinFit h n st u.mdl := by
      refine now.resolve_left fun x => ?_
      simp [Stale.accepts, x.2.2.1] at hacc
    simp only [Except.bind]
    cases hk : u.kept with
    | none => exact mixed_eq hF.comp hF.comp data
    | some c' =>
      simp only
      unfold Stale.Used.code
      cases u.live with
      | true => exact mixed_eq hF.comp hF.comp data
      | false =>
        simp only [hk, Option.getD_some, Bool.false_eq_true, if_false]
        exact mixed_eq (kept c' hk) hF.comp data

/-- A layer with two outputs, compiled for three numbers, called, trained, compiled for two numbers. -/
def staleDemo : LinHyper ℤ := ⟨some 2, true, some fun x => ⟨x.shape, fun i => max (x.val i) 0⟩⟩

/-- A batch of one sample. -/
def staleData (d : Nat) : Tree (NArr ℤ) := .leaf ⟨[1, d], fun i => i.getD 1 0 + 1⟩

/-- Such a history. -/
def staleOps : List (Stale.Op ℤ) :=
  [.compile (fun _ i => i.getD 0 0 - i.getD 1 0) (fun _ _ => 1) (.leaf [3]), .call (staleData 3), .setParams ⟨[2, 3], fun _ => 5⟩ (some ⟨[2], fun _ => 7⟩),
    .compile (fun _ i => i.getD 0 0 + i.getD 1 0) (fun _ _ => 2) (.leaf [2]), .call (staleData 2)]

theorem staleOps_ok : AllStaleOk (.leaf [4]) (Stale.new staleDemo) staleOps := by
  have e : ∀ (u : Stale.Used ℤ) d, StaleOk (.leaf [4]) u (.call d) := fun _ _ => trivial
  refine ⟨⟨trivial, rfl, ⟨_, rfl⟩, rfl⟩, trivial, ⟨⟨⟨[2, 3], fun i => i.getD 0 0 - i.getD 1 0⟩, ?_, rfl⟩, ?_⟩, ⟨trivial, rfl, ⟨_, rfl⟩, rfl⟩, trivial, trivial⟩
  · rfl
  · rfl

example : (Stale.call (staleOps.foldl Stale.step (Stale.new staleDemo)) (staleData 2)).2 =
    (Stale.accepts (staleOps.foldl Stale.step (Stale.new staleDemo)).mdl (staleData 2)).bind fun _ => linCall (staleOps.foldl Stale.step (Stale.new staleDemo)).mdl.modules (staleData 2) :=
  C89_call staleDemo 2 rfl (.leaf [4]) [4] rfl staleOps staleOps_ok (staleData 2)

/-- The call is accepted, and the functions are those of the old modules. -/
example : Stale.accepts (staleOps.foldl Stale.step (Stale.new staleDemo)).mdl (staleData 2) = .ok () ∧ (staleOps.foldl Stale.step (Stale.new staleDemo)).live = false := by
  constructor
  · decide +kernel
  · rfl

/-- The invariant after a history. -/
theorem stale_hist [CommSemiring K] {h : LinHyper K} {n : Nat} (hn : h.out = some n) {st : Tree (List Nat)} {c : List Nat} (hc : jaxLeaves st = [c]) : ∀ (ops : List (Stale.Op K)) (u : Stale.Used K),
    AllStaleOk st u ops → StaleInv h n st u → StaleInv h n st (ops.foldl Stale.step u)
  | [], _, _, hi => hi
  | o :: os, u, ho, hi => stale_hist hn hc os _ ho.2 (stale_step hn hc u o ho.1 hi)

theorem stale_new (h : LinHyper K) (n : Nat) (st : Tree (List Nat)) : StaleInv h n st (Stale.new h) :=
  ⟨rfl, .inl ⟨rfl, rfl, rfl, rfl⟩, (fun _ h => by cases h), (fun h => by cases h)⟩

/-- The shape that a history compiled for last. -/
def lastShape (ops : List (Stale.Op K)) : Option (Tree (List Nat)) :=
  ops.foldl (fun s o => match o with
    | .compile _ _ s' => some s'
    | _ => s) Option.none

theorem compile_shape {h : LinHyper K} {n : Nat} {st : Tree (List Nat)} (draw : Nat → List Nat → K) (drawB : List Nat → List Nat → K) {s : Tree (List Nat)} {a c : List Nat}
    (hk : KeysOk s) (h1 : (treeFlattenShape s).length = 1) (ha : jaxLeaves s = [a]) (hc : jaxLeaves st = [c]) (hst : SameStructure s st) (hn : h.out = some n) (m : Mdl (LinHyper K) (Layers K) (Tree (List Nat)))
    (hm : m.hyper = h) (hf : m.inShape = Option.none ∨ LinFit h n st m) :
    (Prebuilt.compile (linOps draw drawB) m s).1.inShape = some s ∧ (Prebuilt.compile (linOps draw drawB) m s).1.outShape.isSome = true := by
  have hok := (linFit_compile draw drawB hk h1 ha hc hst hn m hm hf).1
  have hcheck : linCheck m.hyper s = .ok () := by
    unfold linCheck
    rw [hm, hn]
    simp [h1]
  unfold Prebuilt.compile at hok ⊢
  simp only [linOps, hcheck] at hok ⊢
  split at hok
  · cases hok
  · exact ⟨rfl, rfl⟩

theorem stale_shape [CommSemiring K] {h : LinHyper K} {n : Nat} (hn : h.out = some n) {st : Tree (List Nat)} {c : List Nat} (hc : jaxLeaves st = [c]) : ∀ (ops : List (Stale.Op K)) (u : Stale.Used K) (sh : Option (Tree (List Nat))),
    AllStaleOk st u ops → StaleInv h n st u → u.mdl.inShape = sh → (sh.isSome = true → u.mdl.outShape.isSome = true) →
    let sh' := ops.foldl (fun s o => match o with
      | .compile _ _ s' => some s'
      | _ => s) sh
    (ops.foldl Stale.step u).mdl.inShape = sh' ∧ (sh'.isSome = true → (ops.foldl Stale.step u).mdl.outShape.isSome = true)
  | [], _, _, _, _, h1, h2 => ⟨h1, h2⟩
  | o :: os, u, sh, ho, hi, h1, h2 => by
    have hi' := stale_step hn hc u o ho.1 hi
    refine stale_shape hn hc os _ _ ho.2 hi' ?_ ?_
    · cases o with
      | compile draw drawB s =>
        obtain ⟨hk, hl, ⟨a, ha⟩, hst⟩ := ho.1
        have := compile_shape draw drawB hk hl ha hc hst hn u.mdl hi.hyper (hi.now.imp (fun x => x.1) id)
        simp only [Stale.step, Stale.compile]
        split <;> exact this.1
      | call data =>
        simp only [Stale.step, Stale.call]
        split
        · exact h1
        · split <;> exact h1
      | setParams W b => exact h1
      | setHyper h' => exact ho.1.elim
    · cases o with
      | compile draw drawB s =>
        obtain ⟨hk, hl, ⟨a, ha⟩, hst⟩ := ho.1
        have := compile_shape draw drawB hk hl ha hc hst hn u.mdl hi.hyper (hi.now.imp (fun x => x.1) id)
        simp only [Stale.step, Stale.compile]
        intro _
        split <;> exact this.2
      | call data =>
        simp only [Stale.step, Stale.call]
        split
        · exact h2
        · split <;> exact h2
      | setParams W b => exact h2
      | setHyper h' => exact ho.1.elim

/-- **C89 (which data a call takes).** After such a history, a call computes exactly if the arrays have the containers and the sample shapes that the model was compiled for last; with other data it raises a `ValueError`, and without
any compilation a `RuntimeError`. A refused call changes nothing. -/
theorem C89_takes [CommSemiring K] (h : LinHyper K) (n : Nat) (hn : h.out = some n) (st : Tree (List Nat)) (c : List Nat) (hc : jaxLeaves st = [c]) (ops : List (Stale.Op K))
    (ho : AllStaleOk st (Stale.new h) ops) (data : Tree (NArr K)) :
    let u := ops.foldl Stale.step (Stale.new h)
    (lastShape ops = Option.none → Stale.call u data = (u, .error .runtimeError)) ∧
    ∀ s, lastShape ops = some s →
      (map (fun x => x.shape.tail) data.norm = s.norm → (Stale.call u data).2 = linCall u.mdl.modules data) ∧
      (map (fun x => x.shape.tail) data.norm ≠ s.norm → Stale.call u data = (u, .error .valueError)) := by
  intro u
  have hcall := C89_call h n hn st c hc ops ho data
  change (Stale.call u data).2 = (Stale.accepts u.mdl data).bind _ at hcall
  have hi : StaleInv h n st u := stale_hist hn hc ops _ ho (stale_new h n st)
  obtain ⟨h1, h2⟩ := stale_shape hn hc ops _ Option.none ho (stale_new h n st) rfl (fun h => by cases h)
  change u.mdl.inShape = lastShape ops at h1
  change (lastShape ops).isSome = true → u.mdl.outShape.isSome = true at h2
  refine ⟨fun hs => ?_, fun s hs => ?_⟩
  · rw [hs] at h1
    have : Stale.accepts u.mdl data = .error .runtimeError := by
      simp [Stale.accepts, h1]
    simp only [Stale.call, this]
  · rw [hs] at h1 h2
    obtain ⟨o, ho'⟩ := Option.isSome_iff_exists.1 (h2 rfl)
    have hF : LinFit h n st u.mdl := hi.now.resolve_left fun x => by rw [h1] at x; cases x.1
    obtain ⟨s₁, D, hp, -⟩ := hF.comp.plan
    have hacc : Stale.accepts u.mdl data = if map (fun x => x.shape.tail) data.norm = s.norm then .ok () else .error .valueError := by
      simp only [Stale.accepts, hp, h1, ho']
    refine ⟨fun he => ?_, fun he => ?_⟩
    · rw [hcall, hacc, if_pos he]; rfl
    · rw [if_neg he] at hacc
      simp only [Stale.call, hacc]

/-- The history above ends with a model for two numbers: it takes two numbers and refuses three. -/
example : (Stale.call (staleOps.foldl Stale.step (Stale.new staleDemo)) (staleData 2)).2 = linCall (staleOps.foldl Stale.step (Stale.new staleDemo)).mdl.modules (staleData 2) ∧
    (Stale.call (staleOps.foldl Stale.step (Stale.new staleDemo)) (staleData 3)).2 = .error .valueError :=
  ⟨((C89_takes staleDemo 2 rfl (.leaf [4]) [4] rfl staleOps staleOps_ok (staleData 2)).2 _ rfl).1 (by decide +kernel),
   congrArg Prod.snd (((C89_takes staleDemo 2 rfl (.leaf [4]) [4] rfl staleOps staleOps_ok (staleData 3)).2 _ rfl).2 (by decide +kernel))⟩

/-- A model that was called, after setting hyperparameters and compiling for a shape that is new: it runs the functions of the old layers with the parameters of the new ones. -/
theorem stale_switch [CommSemiring K] {h h' : LinHyper K} {n n' : Nat} (hn : h.out = some n) (hn' : h'.out = some n') {st s' : Tree (List Nat)} {c a : List Nat} (hc : jaxLeaves st = [c])
    (ops : List (Stale.Op K)) (ho : AllStaleOk st (Stale.new h) ops) (hcalled : (ops.foldl Stale.step (Stale.new h)).kept.isSome = true) (draw : Nat → List Nat → K) (drawB : List Nat → List Nat → K)
    (hk : KeysOk s') (h1 : (treeFlattenShape s').length = 1) (ha : jaxLeaves s' = [a]) (hnew : (ops.foldl Stale.step (Stale.new h)).mdl.inShape ≠ some s') :
    let u := (ops ++ [Stale.Op.setHyper h', Stale.Op.compile draw drawB s']).foldl Stale.step (Stale.new h)
    ∃ code, Compiled h st code ∧ LinFit h' n' s' u.mdl ∧ u.mdl.inShape = some s' ∧
      ∀ data, (Stale.call u data).2 = (Stale.accepts u.mdl data).bind fun _ => Stale.mixed code u.mdl.modules data := by
  have hi := stale_hist hn hc ops _ ho (stale_new h n st)
  intro u
  have hu : u = Stale.step (Stale.step (ops.foldl Stale.step (Stale.new h)) (.setHyper h')) (.compile draw drawB s') := by
    simp only [u, List.foldl_append, List.foldl_cons, List.foldl_nil]
  generalize ops.foldl Stale.step (Stale.new h) = v at hi hcalled hnew hu
  obtain ⟨c₀, hc₀⟩ := Option.isSome_iff_exists.1 hcalled
  have hF : LinFit h n st v.mdl := hi.now.resolve_left fun x => by rw [x.2.2.2] at hc₀; cases hc₀
  obtain ⟨s₁, hl, -, -, hsub⟩ := lin_sub draw drawB hk ha
  have hcheck : linCheck h' s' = .ok () := by
    unfold linCheck
    rw [hn']
    simp [h1]
  have hcomp : Prebuilt.compile (linOps draw drawB) { v.mdl with hyper := h' } s' = Prebuilt.compile (linOps draw drawB) ⟨h', v.mdl.modules, Option.none, v.mdl.outShape⟩ s' := by
    unfold Prebuilt.compile
    simp only [linOps, hcheck, if_neg hnew]
    rw [if_neg (by simp)]
  obtain ⟨-, -, hfit⟩ := linFit_compile (h := h') (st := s') draw drawB hk h1 ha ha rfl hn' ⟨h', v.mdl.modules, Option.none, v.mdl.outShape⟩ rfl (.inl rfl)
  have hin : (Prebuilt.compile (linOps draw drawB) ⟨h', v.mdl.modules, Option.none, v.mdl.outShape⟩ s').1.inShape = some s' := by
    unfold Prebuilt.compile
    simp only [linOps, hcheck]
    split <;> rfl
  have hu' : u = ⟨(Prebuilt.compile (linOps draw drawB) ⟨h', v.mdl.modules, Option.none, v.mdl.outShape⟩ s').1, if v.live then some v.mdl.modules else v.kept, false⟩ := by
    rw [hu]
    simp only [Stale.step, Stale.compile, hcomp]
    rw [if_pos ⟨hcheck, hnew⟩]; rfl
  refine ⟨if v.live then v.mdl.modules else c₀, ?_, by rw [hu']; exact hfit, by rw [hu']; exact hin, fun data => ?_⟩
  · split
    · exact hF.comp
    · exact hi.kept c₀ hc₀
  · have hkept : u.kept = some (if v.live then v.mdl.modules else c₀) := by
      rw [hu']
      simp only [hc₀]
      split <;> rfl
    have hlive : u.live = false := by rw [hu']
    unfold Stale.call
    cases Stale.accepts u.mdl data with
    | error e => rfl
    | ok _ =>
      simp only [hkept, Except.bind, Stale.Used.code, hlive, Option.getD_some, Bool.false_eq_true, if_false]

/-- **C89 (refuted).** If the activation of a linear layer that was called is changed and the layer is compiled for a shape that is new to it, calls return the old activation of what the new modules compute; a layer that was not
called before returns the new activation. -/
theorem C89_activation_refuted [CommSemiring K] (h : LinHyper K) (n : Nat) (hn : h.out = some n) (f g : NArr K → NArr K) (hf : h.act = some f) (st s' : Tree (List Nat)) (c a : List Nat) (hc : jaxLeaves st = [c])
    (ops : List (Stale.Op K)) (ho : AllStaleOk st (Stale.new h) ops) (hcalled : (ops.foldl Stale.step (Stale.new h)).kept.isSome = true) (draw : Nat → List Nat → K) (drawB : List Nat → List Nat → K)
    (hk : KeysOk s') (h1 : (treeFlattenShape s').length = 1) (ha : jaxLeaves s' = [a]) (hst : SameStructure s' st) (hnew : (ops.foldl Stale.step (Stale.new h)).mdl.inShape ≠ some s') (data : Tree (NArr K)) :
    let u := (ops ++ [Stale.Op.setHyper { h with act := some g }, Stale.Op.compile draw drawB s']).foldl Stale.step (Stale.new h)
    Stale.accepts u.mdl data = .ok () →
      ∃ r : Except PyErr (Tree (NArr K)), (Stale.call u data).2 = r.map (Elementwise.activation f) ∧ linCall u.mdl.modules data = r.map (Elementwise.activation g) := by
  intro u hacc
  obtain ⟨code, hcode, hfit, -, hcall⟩ := stale_switch (h := h) (h' := { h with act := some g }) hn hn hc ops ho hcalled draw drawB hk h1 ha hnew
  have ht := flattenTarget_struct ha hc hst
  refine ⟨linCall { u.mdl.modules with act := Option.none } data, ?_, ?_⟩
  · rw [hcall data, hacc]
    have hx := mixed_eq (h := h) (st := st) (code := code) (now := { u.mdl.modules with act := some f }) hcode
      ⟨by obtain ⟨x, y, h1, h2⟩ := hfit.comp.plan; exact ⟨x, y, by rw [← ht]; exact h1, h2⟩, hfit.comp.bias, hf.symm⟩ data
    have hy : Stale.mixed code u.mdl.modules data = Stale.mixed code { u.mdl.modules with act := some f } data := by
      have : u.mdl.modules.act = some g := hfit.comp.act
      have hcnt : Stale.count u.mdl.modules = Stale.count { u.mdl.modules with act := some f } := by simp [Stale.count, this]
      unfold Stale.mixed
      rw [hcnt]
    change Stale.mixed code u.mdl.modules data = _
    rw [hy, hx]
    unfold linCall
    simp only
    cases u.mdl.modules.plan with
    | none => rfl
    | some p =>
      obtain ⟨x, y, z⟩ := p
      simp only
      cases Reshape.callable (some z) data with
      | error e => rfl
      | ok d =>
        simp only
        cases Matmul.call (u.mdl.modules.params, x) y d with
        | error e => rfl
        | ok q =>
          simp only
          cases biasStage u.mdl.modules.hasBias u.mdl.modules.b (.leaf q) <;> rfl
  · have : u.mdl.modules.act = some g := hfit.comp.act
    unfold linCall
    simp only [this]
    cases u.mdl.modules.plan with
    | none => rfl
    | some p =>
      obtain ⟨x, y, z⟩ := p
      simp only
      cases Reshape.callable (some z) data with
      | error e => rfl
      | ok d =>
        simp only
        cases Matmul.call (u.mdl.modules.params, x) y d with
        | error e => rfl
        | ok q =>
          simp only
          cases biasStage u.mdl.modules.hasBias u.mdl.modules.b (.leaf q) <;> rfl

/-- **C89 (refuted).** If the bias of a linear layer that was called is switched on or off and the layer is compiled for a shape that is new to it, compiling succeeds and every call that is accepted raises. -/
theorem C89_bias_refuted [CommSemiring K] (h : LinHyper K) (n : Nat) (hn : h.out = some n) (st s' : Tree (List Nat)) (c a : List Nat) (hc : jaxLeaves st = [c])
    (ops : List (Stale.Op K)) (ho : AllStaleOk st (Stale.new h) ops) (hcalled : (ops.foldl Stale.step (Stale.new h)).kept.isSome = true) (draw : Nat → List Nat → K) (drawB : List Nat → List Nat → K)
    (hk : KeysOk s') (h1 : (treeFlattenShape s').length = 1) (ha : jaxLeaves s' = [a]) (hnew : (ops.foldl Stale.step (Stale.new h)).mdl.inShape ≠ some s') (data : Tree (NArr K)) :
    let u := (ops ++ [Stale.Op.setHyper { h with bias := !h.bias }, Stale.Op.compile draw drawB s']).foldl Stale.step (Stale.new h)
    Stale.accepts u.mdl data = .ok () → (Stale.call u data).2 = .error .valueError := by
  intro u hacc
  obtain ⟨code, hcode, hfit, -, hcall⟩ := stale_switch (h := h) (h' := { h with bias := !h.bias }) hn hn hc ops ho hcalled draw drawB hk h1 ha hnew
  rw [hcall data, hacc]
  change Stale.mixed code u.mdl.modules data = _
  have e1 : u.mdl.modules.act = h.act := hfit.comp.act
  have e2 : u.mdl.modules.hasBias = !h.bias := hfit.comp.bias
  unfold Stale.mixed
  rw [if_pos]
  simp only [Stale.count, hcode.bias, hcode.act, e1, e2]
  cases h.bias <;> simp

/-- **C89 (refuted).** More generally: whatever hyperparameters are set, if the number of layers is then another one, compiling for a shape that is new succeeds and every call that is accepted raises. A layer with
bias and activation has two layers more than one with neither. -/
theorem C89_layers_refuted [CommSemiring K] (h h' : LinHyper K) (n n' : Nat) (hn : h.out = some n) (hn' : h'.out = some n') (hne : h.bias.toNat + h.act.isSome.toNat ≠ h'.bias.toNat + h'.act.isSome.toNat)
    (st s' : Tree (List Nat)) (c a : List Nat) (hc : jaxLeaves st = [c])
    (ops : List (Stale.Op K)) (ho : AllStaleOk st (Stale.new h) ops) (hcalled : (ops.foldl Stale.step (Stale.new h)).kept.isSome = true) (draw : Nat → List Nat → K) (drawB : List Nat → List Nat → K)
    (hk : KeysOk s') (h1 : (treeFlattenShape s').length = 1) (ha : jaxLeaves s' = [a]) (hnew : (ops.foldl Stale.step (Stale.new h)).mdl.inShape ≠ some s') (data : Tree (NArr K)) :
    let u := (ops ++ [Stale.Op.setHyper h', Stale.Op.compile draw drawB s']).foldl Stale.step (Stale.new h)
    u.mdl.inShape = some s' ∧ u.mdl.modules.out = n' ∧ (Stale.accepts u.mdl data = .ok () → (Stale.call u data).2 = .error .valueError) := by
  intro u
  obtain ⟨code, hcode, hfit, hin, hcall⟩ := stale_switch (h := h) (h' := h') hn hn' hc ops ho hcalled draw drawB hk h1 ha hnew
  refine ⟨hin, hfit.out, fun hacc => ?_⟩
  rw [hcall data, hacc]
  change Stale.mixed code u.mdl.modules data = _
  have e1 : u.mdl.modules.act = h'.act := hfit.comp.act
  have e2 : u.mdl.modules.hasBias = h'.bias := hfit.comp.bias
  unfold Stale.mixed
  rw [if_pos]
  simp only [Stale.count, hcode.bias, hcode.act, e1, e2]
  omega

/-- **C89 (refuted).** A linear layer that was called on arrays and is then compiled for dictionaries with an array raises at every call that is accepted. -/
theorem C89_structure_refuted [CommSemiring K] (h : LinHyper K) (n : Nat) (hn : h.out = some n) (c a : List Nat) (k : Str)
    (ops : List (Stale.Op K)) (ho : AllStaleOk (.leaf c) (Stale.new h) ops) (hcalled : (ops.foldl Stale.step (Stale.new h)).kept.isSome = true) (draw : Nat → List Nat → K) (drawB : List Nat → List Nat → K)
    (hnew : (ops.foldl Stale.step (Stale.new h)).mdl.inShape ≠ some (.dict [(k, .leaf a)])) (x : NArr K) :
    let u := (ops ++ [Stale.Op.setHyper h, Stale.Op.compile draw drawB (.dict [(k, .leaf a)])]).foldl Stale.step (Stale.new h)
    Stale.accepts u.mdl (.dict [(k, .leaf x)]) = .ok () → ∃ e, (Stale.call u (.dict [(k, .leaf x)])).2 = .error e := by
  intro u hacc
  obtain ⟨code, hcode, hfit, -, hcall⟩ := stale_switch (h := h) (h' := h) (st := .leaf c) (s' := .dict [(k, .leaf a)]) (a := a) hn hn rfl ops ho hcalled draw drawB (by simp [KeysOk, KeysOkD]) rfl rfl hnew
  rw [hcall _, hacc]
  change ∃ e, Stale.mixed code u.mdl.modules _ = _
  unfold Stale.mixed
  split
  · exact ⟨_, rfl⟩
  · obtain ⟨s₁, D, hp, -⟩ := hcode.plan
    refine ⟨.valueError, ?_⟩
    unfold linCall
    simp only [hp]
    rfl

/-- The history before the change. -/
def staleOps₀ : List (Stale.Op ℤ) := [.compile (fun _ i => i.getD 0 0 - i.getD 1 0) (fun _ _ => 1) (.leaf [3]), .call (staleData 3)]

theorem staleOps₀_ok : AllStaleOk (.leaf [4]) (Stale.new staleDemo) staleOps₀ := ⟨⟨trivial, rfl, ⟨_, rfl⟩, rfl⟩, trivial, trivial⟩

/-- The rectifier is replaced by a doubling; the layer is compiled for two numbers. -/
def staleChanged : Stale.Used ℤ := (staleOps₀ ++ [Stale.Op.setHyper (K := ℤ) { staleDemo with act := some fun x => ⟨x.shape, fun i => 2 * x.val i⟩ },
  Stale.Op.compile (K := ℤ) (fun _ i => i.getD 0 0 + i.getD 1 0) (fun _ _ => 2) (.leaf [2])]).foldl Stale.step (Stale.new staleDemo)

theorem staleCalled : (staleOps₀.foldl Stale.step (Stale.new staleDemo)).kept.isSome = true := by
  have h : Stale.accepts (Stale.step (Stale.new staleDemo) (.compile (fun _ i => i.getD 0 0 - i.getD 1 0) (fun _ _ => 1) (.leaf [3]))).mdl (staleData 3) = .ok () := by decide +kernel
  change (Stale.call (Stale.step (Stale.new staleDemo) (.compile (fun _ i => i.getD 0 0 - i.getD 1 0) (fun _ _ => 1) (.leaf [3]))) (staleData 3)).1.kept.isSome = true
  unfold Stale.call
  rw [h]
  rfl

example : ∃ r : Except PyErr (Tree (NArr ℤ)), (Stale.call staleChanged (staleData 2)).2 = r.map (Elementwise.activation fun x => ⟨x.shape, fun i => max (x.val i) 0⟩) ∧
    linCall staleChanged.mdl.modules (staleData 2) = r.map (Elementwise.activation fun x => ⟨x.shape, fun i => 2 * x.val i⟩) :=
  C89_activation_refuted staleDemo 2 rfl _ _ rfl (.leaf [4]) (.leaf [2]) [4] [2] rfl staleOps₀ staleOps₀_ok staleCalled _ _ trivial rfl rfl rfl (by decide +kernel) (staleData 2) (by decide +kernel)

/-- The numbers: the old layer's rectifier is used. -/
example : ((Stale.call staleChanged (staleData 2)).2.map fun t => (jaxLeaves t).map NArr.entries) = .ok [[4, 7]] ∧
    ((linCall staleChanged.mdl.modules (staleData 2)).map fun t => (jaxLeaves t).map NArr.entries) = .ok [[8, 14]] := by
  constructor <;> decide +kernel

example : (Stale.call ((staleOps₀ ++ [Stale.Op.setHyper (K := ℤ) { staleDemo with bias := !staleDemo.bias }, Stale.Op.compile (K := ℤ) (fun _ _ => 0) (fun _ _ => 2) (.leaf [2])]).foldl Stale.step (Stale.new staleDemo)) (staleData 2)).2 =
    .error .valueError :=
  C89_bias_refuted staleDemo 2 rfl (.leaf [4]) (.leaf [2]) [4] [2] rfl staleOps₀ staleOps₀_ok staleCalled _ _ trivial rfl rfl (by decide +kernel) (staleData 2) (by decide +kernel)

/-- Bias and activation both removed. -/
example : (Stale.call ((staleOps₀ ++ [Stale.Op.setHyper (K := ℤ) ⟨some 5, false, Option.none⟩, Stale.Op.compile (K := ℤ) (fun _ _ => 0) (fun _ _ => 2) (.leaf [2])]).foldl Stale.step (Stale.new staleDemo)) (staleData 2)).2 =
    .error .valueError :=
  (C89_layers_refuted staleDemo ⟨some 5, false, Option.none⟩ 2 5 rfl rfl (by decide) (.leaf [4]) (.leaf [2]) [4] [2] rfl staleOps₀ staleOps₀_ok staleCalled _ _ trivial rfl rfl (by decide +kernel) (staleData 2)).2.2 (by decide +kernel)

example : ∃ e, (Stale.call ((staleOps₀ ++ [Stale.Op.setHyper (K := ℤ) staleDemo, Stale.Op.compile (K := ℤ) (fun _ _ => 0) (fun _ _ => 2) (.dict [("x".toList, .leaf [2])])]).foldl Stale.step (Stale.new staleDemo))
    (.dict [("x".toList, .leaf ⟨[1, 2], fun _ => 1⟩)])).2 = .error e :=
  C89_structure_refuted staleDemo 2 rfl [4] [2] _ staleOps₀ staleOps₀_ok staleCalled _ _ (by decide +kernel) _ (by decide +kernel)

end Verif.Props
