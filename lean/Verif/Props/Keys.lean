import Verif.Lemmas.Keys
import Verif.Lemmas.TreeDec
import Verif.Props.CompileKeys

/-!
# Random numbers are not used twice
-/

namespace Verif.Props

open KeysSpec NestedSpec Keys Nested Forward

variable {M P S A : Type}

/-! ### Compiling -/

/-- **C98**, compiling: a model hands every module a key of its own, however models are nested and whichever module is in the
same place. If the modules use their key properly, then all keys used in the model are independent of each other, and the new
ones come from the key of the model. -/
theorem C98_compile (fresh : Str → Nat → Nat → Str) (sig : Sig M P S Key A) (drawn : M → List Key) (hs : sig.split = Keys.split)
    (h : OwnKeys sig.compile drawn) : ∀ n, OwnKeys (sigAt fresh sig n).compile (drawnAt drawn n)
  | 0 => by
    have e : drawnAt drawn 0 = drawn := by funext m; exact List.flatMap_singleton ..
    rw [e]; exact h
  | n + 1 => by
    have hsn : (sigAt fresh sig n).split = Keys.split := by cases n <;> exact hs
    have := sum_own h (model_own fresh (C98_compile fresh sig drawn hs h n) hsn)
    have e : drawnAt drawn (n + 1) = Sum.elim drawn fun nm => drawnTree (drawnAt drawn n) nm.modules := by
      funext m
      cases m with
      | inl m => exact List.flatMap_singleton ..
      | inr nm => exact List.flatMap_assoc
    rw [e]; exact this

/-- **C98**, the modules of the library use each key once: the arrays of a module, and the real and the imaginary part of an
array, are drawn with keys that are independent of each other and come from the key with which the module is compiled. -/
theorem C98_library : OwnKeys Keys.compile Mod.drawn := by
  intro m k s m' hc hf hk
  have same : ∀ {x : Mod}, (.ok m : Except PyErr Mod) = .ok x → Fresh x.drawn ∧ ∀ q ∈ x.drawn, q ∈ m.drawn ∨ Below k q := fun e => by
    simp only [Except.ok.injEq] at e
    subst e; exact ⟨hf, fun q hq => .inl hq⟩
  have new : ∀ c : Cls, (match Keys.initial c k s with | .error e => .error e | .ok ps => .ok { m with params := some ps }) = Except.ok m' →
      Fresh m'.drawn ∧ ∀ q ∈ m'.drawn, q ∈ m.drawn ∨ Below k q := fun c e => by
    split at e
    · simp at e
    · next ps hps =>
      simp only [Except.ok.injEq] at e
      subst e
      obtain ⟨a, b⟩ := initial_own hps
      exact ⟨a, fun q hq => .inr (b q hq)⟩
  unfold Keys.compile at hc
  split at hc
  · split at hc
    · simp at hc
    · exact same hc
  · split at hc
    · simp at hc
    · split at hc
      · simp at hc
      · exact same hc
      · simp at hc
    · exact new _ hc

/-- **C98**, a whole model of the library: if nothing has been drawn yet, then after compiling no two arrays anywhere in the
model, nor the two parts of an array, share a key or have keys of which one was made from the other. -/
theorem C98_model (fresh : Str → Nat → Nat → Str) (sig : Sig Mod P S Key A) (hc : sig.compile = Keys.compile) (hs : sig.split = Keys.split)
    (n : Nat) (m m' : ModAt Mod n) (k : Key) (s : Tree Shape) (h0 : drawnAt Mod.drawn n m = [])
    (h : (sigAt fresh sig n).compile m k s = .ok m') :
    (drawnAt Mod.drawn n m').Pairwise Independent ∧ ∀ q ∈ drawnAt Mod.drawn n m', Below k q := by
  have := C98_compile fresh sig Mod.drawn hs (by rw [hc]; exact C98_library) n m k s m' h (by rw [h0]; exact fresh_nil) (by rw [h0]; simp)
  refine ⟨this.1, fun q hq => ?_⟩
  rcases this.2 q hq with e | e
  · rw [h0] at e; simp at e
  · exact e

/-- The library with modules that keep the shape of their input. -/
def libSig : Sig Mod Unit (List Key) Key Nat where
  compile := Keys.compile
  outShape _ s := .ok s
  call _ _ x _ _ k := .ok (x, [k])
  split := Keys.split
  splitN := Keys.splitN

/-- A trainable module of the given class without parameters. -/
def rawMod (c : Cls) : Mod := ⟨c, true, Option.none, fun _ _ => Option.none⟩

/-- A sequence with a bias, a graph with a low-rank matrix and a slope, and another bias. -/
def keysExample : ModAt Mod 2 := .inr ⟨.seq, .list [.leaf (.inl (rawMod (.bias true false))),
  .leaf (.inr ⟨.nonseq '.' [("input".toList, ["A".toList]), ("A".toList, ["B".toList]), ("B".toList, ["output".toList])],
    .dict [("A".toList, .leaf (rawMod (.lowRank true 2 1))), ("B".toList, .leaf (rawMod (.prelu true true)))]⟩),
  .leaf (.inl (rawMod (.bias false false)))]⟩

example : drawnAt Mod.drawn 2 keysExample = [] ∧
    ((sigAt uFresh libSig 2).compile keysExample (.seed 3) (.leaf [4])).toOption.map (drawnAt Mod.drawn 2) =
    some (let k := Key.seed 3
      let g := Key.child (.child k 0) 1
      [.child k 1, .child (.child g 1) 0, .child (.child g 1) 1, .child (.child g 1) 2, .child (.child g 0) 1,
        .child (.child (.child (.child k 0) 0) 1) 0, .child (.child (.child (.child k 0) 0) 1) 1]) := by
  decide +kernel

example : Independent (Key.child (.seed 3) 0) (.child (.seed 3) 1) ∧ ¬ Independent (Key.seed 3) (.child (.child (.seed 3) 0) 1) :=
  ⟨child_independent (by decide), fun h => h.1 (.child 1 (.child 0 .refl))⟩

/-! ### Calling -/

/-- **C98**, calling: sequential models of any nesting hand every module a key of its own. -/
theorem C98_calls (fresh : Str → Nat → Nat → Str) (sig : Sig M P S Key A) (used : S → List Key) (hs : sig.splitN = Keys.splitN)
    (h : OwnCalls sig.call used) : ∀ (n : Nat) (m : ModAt M n) (p : ValAt P n) (x : Tree A) (t : Bool) (s : ValAt S n) (k : Key) (y : Tree A)
      (s' : ValAt S n), NestedSpec.AllSeq n m → (sigAt fresh sig n).call m p x t s k = .ok (y, s') →
      ((vals n s').flatMap used).Pairwise Independent ∧ ∀ q ∈ (vals n s').flatMap used, Below k q
  | 0, m, p, x, t, s, k, y, s', _, hc => by
    have e : (vals 0 s').flatMap used = used s' := List.flatMap_singleton ..
    rw [e]; exact h m p x t s k y s' hc
  | n + 1, m, p, x, t, s, k, y, s', ha, hc => by
    have hsn : (sigAt fresh sig n).splitN = Keys.splitN := by cases n <;> exact hs
    have e : ∀ s' : ValAt S (n + 1), (vals (n + 1) s').flatMap used = Sum.elim used (fun t : Tree (ValAt S n) => t.jaxLeaves.flatMap fun v => (vals n v).flatMap used) s' := by
      intro s'
      cases s' with
      | inl s' => exact List.flatMap_singleton ..
      | inr t => exact List.flatMap_assoc
    rw [e]
    refine sum_calls (a := sig) (b := modelSig fresh (sigAt fresh sig n)) h (fun nm hm p1 s1 y1 s2 hc1 => ?_) hc
    subst hm
    obtain ⟨hk, hall⟩ := ha
    have hc' : seqCall (sigAt fresh sig n) nm.modules p1 x t s1 k = .ok (y1, s2) := by
      rw [← hc1]; cases nm; cases hk; rfl
    exact seqCall_own hsn (fun m hm p x s k y s' hc => C98_calls fresh sig used hs h n m p x t s k y s' (hall m hm) hc) hc'

example : AllSeq 2 (.inr ⟨.seq, .list [.leaf (.inl (rawMod .other)), .leaf (.inr ⟨.seq, .list [.leaf (rawMod .other), .leaf (rawMod .other)]⟩)]⟩ : ModAt Mod 2) ∧
    OwnCalls libSig.call id := by
  refine ⟨⟨rfl, fun m hm => ?_⟩, fun m p x t s k y s' hc => ?_⟩
  · have : m ∈ [(.inl (rawMod .other) : ModAt Mod 1), .inr ⟨.seq, .list [.leaf (rawMod .other), .leaf (rawMod .other)]⟩] := hm
    rcases List.mem_cons.1 this with rfl | e
    · trivial
    · rw [List.mem_singleton.1 e]; exact ⟨rfl, fun _ _ => trivial⟩
  · simp only [libSig, Except.ok.injEq, Prod.mk.injEq] at hc
    obtain ⟨rfl, rfl⟩ := hc
    exact ⟨fresh_singleton k, fun q hq => by
      have : q = k := by simpa using hq
      subst this; exact .refl⟩

/-- **C98**, calling a graph: the modules of a `NonSequentialModel` all get the key of the model; the result is as if every module
had this key built in and ignored what it is given. -/
theorem C98_graph_key {K : Type} (sig : Sig M P S K A) (sep : Char) (fresh : Str → Nat → Nat → Str) (modules : Tree M) (conn : List (Str × List Str)) (p : Tree P)
    (x : Tree A) (t : Bool) (s : Tree S) (k k' : K) :
    nsCall sig sep fresh modules conn p x t s k = nsCall { sig with call := fun m p x t s _ => sig.call m p x t s k } sep fresh modules conn p x t s k' := rfl

/-- **C98 fails for the calls of graphs**: the modules of a `NonSequentialModel` draw with the same key. -/
theorem C98_graph_calls_refuted : ¬ ∀ (modules : Tree Mod) (conn : List (Str × List Str)) (p : Tree Unit) (x y : Tree Nat) (s s' : Tree (List Key)) (k : Key),
    nsCall libSig '.' uFresh modules conn p x true s k = .ok (y, s') → (s'.jaxLeaves.flatMap id).Pairwise Independent := by
  intro h
  have := h (.dict [("A".toList, .leaf (rawMod .other)), ("B".toList, .leaf (rawMod .other))])
    [("input".toList, ["A".toList]), ("A".toList, ["B".toList]), ("B".toList, ["output".toList])]
    (.dict [("A".toList, .leaf ()), ("B".toList, .leaf ())]) (.leaf 1) (.leaf 1) (.dict [("A".toList, .leaf []), ("B".toList, .leaf [])])
    (.dict [("A".toList, .leaf [.seed 0]), ("B".toList, .leaf [.seed 0])]) (.seed 0) (by decide +kernel)
  have e : (Tree.dict [("A".toList, .leaf [Key.seed 0]), ("B".toList, .leaf [.seed 0])]).jaxLeaves.flatMap id = [.seed 0, .seed 0] := by decide +kernel
  rw [e] at this
  exact (List.pairwise_pair.1 this).1 .refl

/-! ### Training -/

variable {α F : Type}

/-- **C98**, training: all keys that the steps of a training run hand to the model are independent of each other and come from the
given key. `used` tells from the state which keys the model has used so far; each call of the model uses keys that come from the key it
is given. -/
theorem C98_training (c : Train.Cfg α P S Key F) (used : S → List Key) (hs : c.split = Keys.split)
    (hg : ∀ e b s k ps, ∃ l, used (c.grad e b s k ps).2 = used s ++ l ∧ l.Pairwise Independent ∧ ∀ x ∈ l, Below k x)
    (batchRng rng : Key) (adam : List (Train.OptState P)) (state : S) (t : Train.TState P S Key F) (h0 : used state = [])
    (h : Train.run c batchRng adam state rng = .ok t) :
    (used t.inner.mstate).Pairwise Independent ∧ ∀ x ∈ used t.inner.mstate, Below rng x := by
  obtain ⟨s, l, hi, hh⟩ := Train.run_inv h
  obtain ⟨_, e, _⟩ := Train.initial_inv hi
  have := history_keys hs hg (rng := rng) hh (by
    rw [e, hs]
    refine ⟨?_, ?_, below_child _ 0⟩
    · show Fresh (used state); rw [h0]; exact fresh_nil
    · intro x hx
      replace hx : x ∈ used state := hx
      rw [h0] at hx; simp at hx)
  exact ⟨this.1, fun x hx => (this.2.1 x hx).2⟩

/-- **C98**, shuffling: in epoch number `e`, the training data is shuffled with the key of step `2e` and the validation data with that of
step `2e+1`; the epoch depends on no other key of the generator, and the keys of all steps are independent of each other. -/
theorem C98_shuffle (c : Train.Cfg α P S Key F) (hs : c.split = Keys.split) (hcb : ∀ k e ps, (c.callback k e ps).1 = k) (batchRng rng : Key)
    (adam : List (Train.OptState P)) (state : S) (s0 s : Train.TState P S Key F) (n : Nat)
    (h0 : Train.initial c batchRng adam state rng = .ok s0) (h : Train.loop c n s0 = .ok s) :
    (∀ (perm : Key → Nat → List Nat) (splitN : Key → Nat → List Key),
      perm (usedKey batchRng (2 * s.epoch)) = c.perm (usedKey batchRng (2 * s.epoch)) →
      perm (usedKey batchRng (2 * s.epoch + 1)) = c.perm (usedKey batchRng (2 * s.epoch + 1)) →
      Train.epochTrain { c with perm := perm, splitN := splitN } s = Train.epochTrain c s) ∧
    ∀ i j, i ≠ j → Independent (usedKey batchRng i) (usedKey batchRng j) := by
  refine ⟨fun perm splitN h1 h2 => ?_, fun i j hij => usedKey_independent hij⟩
  obtain ⟨he, _, _, _, hb, _⟩ := Train.initial_inv h0
  have hk := loop_kept hs hcb h (b := batchRng) (by rw [he, hb]; rfl)
  have k1 : (c.split s.batchRng).2 = usedKey batchRng (2 * s.epoch) := by rw [hs, hk]; rfl
  have k2 : (c.split (c.split s.batchRng).1).2 = usedKey batchRng (2 * s.epoch + 1) := by rw [hs, hk]; rfl
  have sh : ∀ (d : Train.Data α) (k : Key), perm k = c.perm k → d.shuffle perm splitN k = d.shuffle c.perm c.splitN k := by
    intro d k e
    have pl : (Batch.permuteLeaf perm k : List α → List α) = Batch.permuteLeaf c.perm k := by
      funext x; simp only [Batch.permuteLeaf, e]
    simp only [Train.Data.shuffle, Batch.permuteLeaves, pl]
    rfl
  have st : ∀ epoch, Train.trainStep { c with perm := perm, splitN := splitN } epoch = Train.trainStep c epoch := fun _ => rfl
  unfold Train.epochTrain
  simp only [k1, k2]
  rw [sh _ _ h1, st]
  have vl : ∀ i, Train.batchedValLoss { c with perm := perm, splitN := splitN } i (usedKey batchRng (2 * s.epoch + 1)) s.epoch =
      Train.batchedValLoss c i (usedKey batchRng (2 * s.epoch + 1)) s.epoch := fun i => by
    unfold Train.batchedValLoss
    simp only
    rw [sh _ _ h2]
  simp only [vl]

/-- A run of two epochs with one batch each; the state records the keys of the steps, the losses record the keys of the
validation, and the model counts as never improved. -/
def keyRun : Train.Cfg Nat Nat (List Key) Key (List Key) where
  perm _ n := List.range n
  splitN := Keys.splitN
  split := Keys.split
  grad _ _ s k _ := ([1], s ++ [k])
  valLoss _ _ _ k _ := [k]
  update d a := { a with params := a.params + d }
  callback k _ ps := (k, ps)
  verbose := false
  interrupted _ := false
  flags := [true]
  train := ⟨[[1, 2]], Option.none, Option.none⟩
  val := ⟨[[3]], Option.none, Option.none⟩
  batchSize := 2
  valBatchSize := 1
  epochs := 2
  target := []
  patience := 9
  minDelta := []
  lt a _ := a.isEmpty
  le _ _ := false
  sub a _ := a
  add a b := a ++ b
  divNat a _ := a
  zero := []

example : keyRun.split = Keys.split ∧ (∀ e b s k ps, ∃ l, (keyRun.grad e b s k ps).2 = s ++ l ∧ l.Pairwise Independent ∧ ∀ x ∈ l, Below k x) ∧
    (∀ k e ps, (keyRun.callback k e ps).1 = k) :=
  ⟨rfl, fun _ _ _ k _ => ⟨[k], rfl, fresh_singleton k, fun x hx => by
    have : x = k := by simpa using hx
    subst this; exact .refl⟩, fun _ _ _ => rfl⟩

example : (Train.run keyRun (.seed 1) [⟨0, 0, 0, 0⟩] [] (.seed 2)).toOption.map (fun t => (t.epoch, t.inner.mstate, t.best.loss, t.batchRng)) =
    some (2, [.child (.child (.seed 2) 0) 1, .child (.child (.child (.seed 2) 0) 0) 1], [.child (.seed 2) 0], keptKey (.seed 1) 4) := by
  decide +kernel

/-- **C98 fails for validation**: validation hands the model the key that is kept for the following steps. The keys of these steps are
made from it, so what the model draws during validation is related to what it draws afterwards. -/
theorem C98_validation_refuted : ¬ ∀ (c : Train.Cfg Nat Nat (List Key) Key (List Key)) (batchRng rng : Key) (adam : List (Train.OptState Nat))
    (t : Train.TState Nat (List Key) Key (List Key)), c.split = Keys.split → (∀ e b s k ps, (c.grad e b s k ps).2 = s ++ [k]) →
    (∀ e b s k ps, c.valLoss e b s k ps = [k]) → (∀ a b, c.add a b = a ++ b) → (∀ a n, c.divNat a n = a) → c.zero = [] →
    Train.run c batchRng adam [] rng = .ok t → ∀ k ∈ t.best.loss, ∀ x ∈ t.inner.mstate, Independent k x := by
  intro h
  have e : (Train.run keyRun (.seed 1) [⟨0, 0, 0, 0⟩] [] (.seed 2)).toOption.map (fun t => (t.inner.mstate, t.best.loss)) =
      some ([.child (.child (.seed 2) 0) 1, .child (.child (.child (.seed 2) 0) 0) 1], [.child (.seed 2) 0]) := by decide +kernel
  cases hr : Train.run keyRun (.seed 1) [⟨0, 0, 0, 0⟩] [] (.seed 2) with
  | error _ => rw [hr] at e; simp [Except.toOption] at e
  | ok t =>
    rw [hr] at e
    simp only [Except.toOption, Option.map_some, Option.some.injEq, Prod.mk.injEq] at e
    have := h keyRun (.seed 1) (.seed 2) _ t rfl (fun _ _ _ _ _ => rfl) (fun _ _ _ _ _ => rfl) (fun _ _ => rfl) (fun _ _ => rfl) rfl hr
      (.child (.seed 2) 0) (by rw [e.2]; simp) (.child (.child (.seed 2) 0) 1) (by rw [e.1]; simp)
    exact this.1 (below_child _ 1)

end Verif.Props
