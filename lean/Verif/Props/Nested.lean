import Verif.Lemmas.Nested
import Verif.Lemmas.TreeDec

/-!
# C94: a model can be used as a module of another model
-/

namespace Verif.Props
open Tree Forward Samplewise BatchArr DataflowSpec ForwardSpec Nested NestedSpec

variable {M P S K A V : Type}

theorem jaxLeaves_leaves {X : Type} (l : List X) : jaxLeaves (.list (l.map .leaf)) = l := by
  simp only [jaxLeaves, Tree.norm, flat]
  induction l with
  | nil => rfl
  | cons a l ih => simp only [List.map_cons, normL, flatL, Tree.norm, flat, ih]; rfl

theorem sameStruct_leaves {X Y : Type} : ∀ (l : List X) (l' : List Y), l.length = l'.length → sameStruct (Tree.norm (.list (l.map .leaf))) (Tree.norm (.list (l'.map .leaf))) = true := by
  intro l l' h
  simp only [Tree.norm, sameStruct]
  induction l generalizing l' with
  | nil => cases l' with
    | nil => rfl
    | cons _ _ => simp at h
  | cons a l ih => cases l' with
    | nil => simp at h
    | cons b l' =>
      simp only [List.map_cons, normL, sameStructL, Tree.norm, sameStruct, Bool.true_and]
      exact ih l' (by simpa using h)

theorem unflatten_leaves {X Y : Type} (l : List X) (l' : List Y) (h : l'.length = l.length) : unflatten (.list (l.map .leaf)) l' = .ok (.list (l'.map .leaf)) := by
  have e := unflat_flat (Tree.norm (.list (l.map .leaf))) (Tree.norm (.list (l'.map .leaf))) [] (sameStruct_leaves _ _ h.symm)
  rw [List.append_nil, show flat (Tree.norm (.list (l'.map .leaf))) = l' from jaxLeaves_leaves l'] at e
  unfold unflatten
  rw [e]
  have : Tree.norm (.list (l'.map Tree.leaf)) = .list (l'.map .leaf) := by
    simp only [Tree.norm, Tree.list.injEq]
    clear e h
    induction l' with
    | nil => rfl
    | cons a l ih => simp only [List.map_cons, normL, Tree.norm, ih]
  simp only [this]

/-- **C94 (grouping).** If no module uses its random key, grouping the modules of a sequential model into sequential models, to any depth, changes nothing: the nested model computes what the
sequential model of all the modules one after another computes, its new state consists of the states of that model, and raises the same exception. The new state fits the model again. -/
theorem C94_grouping (sig : Sig M P S K A) (fresh : Str → Nat → Nat → Str) (hi : ∀ m p x t s k k', sig.call m p x t s k = sig.call m p x t s k')
    (hk : ∀ k n, (sig.splitN k n).length = n) (n : Nat) (m : ModAt M n) (p : ValAt P n) (s : ValAt S n) (h : NestedSpec.Fits n m p s) (x : Tree A) (training : Bool) (k k' : K) :
    Agree (fun r r' => r.1 = r'.1 ∧ r'.2 = .list ((vals n r.2).map .leaf) ∧ NestedSpec.Fits n m p r.2) ((sigAt fresh sig n).call m p x training s k)
      (seqCall sig (.list ((mods n m).map .leaf)) (.list ((vals n p).map .leaf)) x training (.list ((vals n s).map .leaf)) k') := by
  have hl := fits_length n h
  unfold seqCall
  rw [if_neg (by simp [sameStruct_leaves _ _ hl.1.symm, sameStruct_leaves _ _ hl.2.symm])]
  simp only [jaxLeaves_leaves]
  rcases agree_cases (call_flat (training := training) fresh hi hk n m p s h x k (sig.splitN k' (mods n m).length) (hk _ _)) with ⟨e, e1, e2⟩ | ⟨⟨y, t⟩, ⟨y', l⟩, e1, e2, hy, ht, hf⟩
  · rw [e1, e2]; rfl
  · simp only at hy ht hf
    subst hy ht
    rw [e1, e2]
    simp only [unflatten_leaves _ _ (fits_length n hf).2]
    exact ⟨rfl, rfl, hf⟩

/-- Modules that add their parameter and count their calls. -/
def countSig : Sig Unit Int Nat Unit Int where
  call _ p d _ s _ := .ok (Tree.map (· * 2 + p) d, s + 1)
  outShape _ s := .ok s
  compile m _ _ := .ok m
  split k := (k, k)
  splitN k n := List.replicate n k

/-- `[a, {"z": [b], "c": d}]` with models as the inner containers. -/
def groupMod : ModAt Unit 3 := .inr ⟨.seq, .list [.leaf (.inl ()), .leaf (.inr ⟨.seq, .dict [("z".toList, .leaf (.inr ⟨.seq, .leaf ()⟩)), ("c".toList, .leaf (.inl ()))]⟩)]⟩
/-- Its parameters. -/
def groupPar : ValAt Int 3 := .inr (.list [.leaf (.inl 1), .leaf (.inr (.dict [("z".toList, .leaf (.inr (.leaf (30 : Int)))), ("c".toList, .leaf (.inl 200))]))])
/-- Its state. -/
def groupSt : ValAt Nat 3 := .inr (.list [.leaf (.inl 0), .leaf (.inr (.dict [("z".toList, .leaf (.inr (.leaf (7 : Nat)))), ("c".toList, .leaf (.inl 5))]))])

/-- The hypotheses hold, the order is that of the keys, and both models compute the same. -/
example : NestedSpec.Fits 3 groupMod groupPar groupSt ∧ vals 3 groupPar = [1, 200, 30] ∧
    ((sigAt uFresh countSig 3).call groupMod groupPar (.leaf 10) true groupSt ()).map (fun r => (r.1, vals 3 r.2)) = .ok (.leaf 514, [1, 6, 8]) ∧
    seqCall countSig (.list [.leaf (), .leaf (), .leaf ()]) (.list [.leaf 1, .leaf 200, .leaf 30]) (.leaf 10) true (.list [.leaf 0, .leaf 5, .leaf 7]) () =
      .ok (.leaf 514, .list [.leaf 1, .leaf 6, .leaf 8]) := by
  refine ⟨⟨rfl, by simp [KeysOk, KeysOkL], rfl, rfl, ?_⟩, by decide +kernel, by decide +kernel, by decide +kernel⟩
  intro i m p s h1 h2 h3
  match i with
  | 0 => cases h1; cases h2; cases h3; trivial
  | 1 =>
    cases h1; cases h2; cases h3
    refine ⟨rfl, by simp [KeysOk, KeysOkD], rfl, rfl, ?_⟩
    intro i m p s h1 h2 h3
    match i with
    | 0 => cases h1; cases h2; cases h3; trivial
    | 1 =>
      cases h1; cases h2; cases h3
      exact ⟨rfl, trivial, rfl, rfl, fun i m p s _ _ _ => trivial⟩
    | i + 2 => cases h1
  | i + 2 => cases h1

/-! ### Shapes -/

theorem seqShapeLoop_append (sig : Sig M P S K A) : ∀ (a b : List M) (s : Tree Shape), seqShapeLoop sig (a ++ b) s = match seqShapeLoop sig a s with
      | .error e => .error e
      | .ok r => seqShapeLoop sig b r
  | [], b, s => rfl
  | m :: a, b, s => by
    simp only [List.cons_append, seqShapeLoop]
    cases sig.outShape m s with
    | error e => rfl
    | ok r => exact seqShapeLoop_append sig a b r

theorem shape_flat (sig : Sig M P S K A) (fresh : Str → Nat → Nat → Str) : ∀ (n : Nat) (m : ModAt M n), AllSeq n m → ∀ s r, (sigAt fresh sig n).outShape m s = .ok r →
    seqShapeLoop sig (mods n m) s = .ok r := by
  intro n
  induction n with
  | zero =>
    intro m _ s r h
    change sig.outShape m s = .ok r at h
    simp [mods, seqShapeLoop, h]
  | succ n ih =>
    intro m hm s r h
    cases m with
    | inl m =>
      change sig.outShape m s = .ok r at h
      simp [mods, seqShapeLoop, h]
    | inr nm =>
      change (modelSig fresh (sigAt fresh sig n)).outShape nm s = .ok r at h
      simp only [modelSig, hm.1, seqOutputShape] at h
      have key : ∀ (l : List (ModAt M n)) (s r : Tree Shape), (∀ m ∈ l, AllSeq n m) → seqShapeLoop (sigAt fresh sig n) l s = .ok r → seqShapeLoop sig (l.flatMap (mods n)) s = .ok r := by
        intro l
        induction l with
        | nil => exact fun s r _ h => h
        | cons b l ihl =>
          intro s r hl h
          rw [seqShapeLoop] at h
          split at h
          · cases h
          · next s' hb =>
            rw [List.flatMap_cons, seqShapeLoop_append, ih b (hl b (by simp)) s s' hb]
            exact ihl s' r (fun m hm => hl m (by simp [hm])) h
      split at h
      · cases h
      · next r' hr' =>
        have : r' = r := by
          unfold checkShape at h
          split at h
          · cases h
          · split at h
            · cases h
            · cases h; rfl
        subst this
        exact key _ _ _ hm.2 hr'

/-- **C94 (shapes).** The shape a nested sequential model announces is the one that the sequential model of all its modules announces. -/
theorem C94_shape (sig : Sig M P S K A) (fresh : Str → Nat → Nat → Str) (n : Nat) (nm : NModel (ModAt M n)) (h : AllSeq (n + 1) (.inr nm)) (s r : Tree Shape)
    (hr : (sigAt fresh sig (n + 1)).outShape (.inr nm) s = .ok r) : seqOutputShape sig (.list ((mods (n + 1) (Sum.inr nm : ModAt M (n + 1))).map .leaf)) s = .ok r := by
  have h1 := shape_flat sig fresh (n + 1) (.inr nm) h s r hr
  unfold seqOutputShape
  rw [jaxLeaves_leaves, h1]
  change (modelSig fresh (sigAt fresh sig n)).outShape nm s = .ok r at hr
  simp only [modelSig, h.1, seqOutputShape] at hr
  split at hr
  · cases hr
  · next r' hr' =>
    have : r' = r := by
      unfold checkShape at hr
      split at hr
      · cases hr
      · split at hr
        · cases hr
        · cases hr; rfl
    subst this
    exact hr

example : AllSeq 3 groupMod ∧ (sigAt uFresh countSig 3).outShape groupMod (.leaf [4]) = .ok (.leaf [4]) := by
  refine ⟨⟨rfl, ?_⟩, by decide +kernel⟩
  intro m hm
  rcases List.mem_cons.1 (show m ∈ [_, _] from hm) with rfl | hm
  · trivial
  · obtain rfl := List.mem_singleton.1 hm
    refine ⟨rfl, ?_⟩
    intro m hm
    rcases List.mem_cons.1 (show m ∈ [_, _] from hm) with rfl | hm
    · trivial
    · obtain rfl := List.mem_singleton.1 hm
      exact ⟨rfl, fun _ _ => trivial⟩

/-- **C94 (shapes), the converse, refuted.** Grouping can make a model unusable: a model whose result for each sample is a number cannot be a module of another model, although its modules could stand there. -/
theorem C94_scalar_refuted (sig : Sig M P S K A) (fresh : Str → Nat → Nat → Str) (a b : M) (s r : Tree Shape) (ha : sig.outShape a s = .ok (.leaf [])) (hb : sig.outShape b (.leaf []) = .ok r)
    (hr : ∃ l, shapeLen r = .ok (l + 1)) :
    seqOutputShape sig (.list [.leaf a, .leaf b]) s = .ok r ∧
    (sigAt fresh sig 2).outShape (.inr ⟨.seq, .list [.leaf (.inr ⟨.seq, .list [.leaf a]⟩), .leaf (.inl b)]⟩) s = .error .valueError := by
  obtain ⟨l, hl⟩ := hr
  constructor
  · unfold seqOutputShape
    rw [show ([.leaf a, .leaf b] : List (Tree M)) = [a, b].map .leaf from rfl, jaxLeaves_leaves]
    simp [seqShapeLoop, ha, hb, checkShape, hl]
  · show seqOutputShape (sigAt fresh sig 1) (.list [.leaf (.inr ⟨.seq, .list [.leaf a]⟩), .leaf (.inl b)]) s = _
    have e : seqOutputShape sig (.list [.leaf a]) s = .error .valueError := by
      unfold seqOutputShape
      rw [show ([.leaf a] : List (Tree M)) = [a].map .leaf from rfl, jaxLeaves_leaves]
      simp [seqShapeLoop, ha, checkShape, shapeLen]
    have e' : (sigAt fresh sig 1).outShape (.inr ⟨.seq, .list [.leaf a]⟩) s = .error .valueError := e
    unfold seqOutputShape
    rw [show ([.leaf (.inr ⟨.seq, .list [.leaf a]⟩), .leaf (.inl b)] : List (Tree (ModAt M 1))) = [.inr ⟨.seq, .list [.leaf a]⟩, .inl b].map .leaf from rfl, jaxLeaves_leaves]
    simp only [seqShapeLoop, e']

/-- Modules that sum over the features, or make two features of the result. -/
def sumSigB : Sig Bool Unit Unit Unit Unit where
  call _ _ d _ s _ := .ok (d, s)
  outShape m _ := .ok (.leaf (if m then [] else [2]))
  compile m _ _ := .ok m
  split k := (k, k)
  splitN k n := List.replicate n k

example : seqOutputShape sumSigB (.list [.leaf true, .leaf false]) (.leaf [3]) = .ok (.leaf [2]) ∧
    (sigAt uFresh sumSigB 2).outShape (.inr ⟨.seq, .list [.leaf (.inr ⟨.seq, .list [.leaf true]⟩), .leaf (.inl false)]⟩) (.leaf [3]) = .error .valueError :=
  C94_scalar_refuted sumSigB uFresh true false (.leaf [3]) (.leaf [2]) rfl rfl ⟨0, rfl⟩

/-! ### Samples and states -/

/-- **C94 (samples).** If the modules compute sample by sample, so do models of them, models of those models, and so on to any depth, in any mixture of sequential models and models with
connections. -/
theorem C94_samplewise (sig : Sig M P S K (NArr V)) (fresh : Str → Nat → Nat → Str) (training : Bool) (h : ∀ m p s k, StatefulOn (fun _ => True) fun d => sig.call m p d training s k) :
    ∀ (n : Nat) (m : ModAt M n), WellNamed n m → ∀ p s k, StatefulOn (fun _ => True) fun d => (sigAt fresh sig n).call m p d training s k := by
  intro n
  induction n with
  | zero => exact fun m _ p s k => h m p s k
  | succ n ih =>
    intro m hm p s k
    have hbad : StatefulOn (fun _ => True) fun _ : Tree (NArr V) => (.error .valueError : Except PyErr (Tree (NArr V) × ValAt S (n + 1))) := fun _ _ _ _ _ _ _ _ => rfl
    cases m with
    | inl m =>
      cases p with
      | inl p => cases s with
        | inl s =>
          intro f a b hs d d' hD hd
          beta_reduce
          rw [call_inl, call_inl]
          rcases agree_cases (h m p s k f a b hs d d' hD hd) with ⟨e, e1, e2⟩ | ⟨⟨y, t⟩, ⟨y', t'⟩, e1, e2, hy, ht⟩
          · beta_reduce at e1 e2
            rw [e1, e2]; rfl
          · beta_reduce at e1 e2
            simp only at ht
            subst ht
            rw [e1, e2]; exact ⟨hy, rfl⟩
        | inr s => exact hbad
      | inr p => cases s <;> exact hbad
    | inr nm =>
      cases p with
      | inl p => cases s <;> exact hbad
      | inr p => cases s with
        | inl s => exact hbad
        | inr s =>
          have key : StatefulOn (fun _ => True) fun d => (modelSig fresh (sigAt fresh sig n)).call nm p d training s k := by
            cases hkind : nm.kind with
            | seq =>
              simp only [modelSig, hkind]
              exact C93_sequential _ _ _ _ _ _ fun i m p s k hm' _ => ih m (hm.2 m (mem_flat_norm.1 (List.mem_of_getElem? hm'))) p s k
            | nonseq sep conn =>
              simp only [modelSig, hkind]
              exact C93_nonsequential _ sep fresh _ conn (hm.1 sep conn hkind) _ _ _ _ fun q m p s hm' _ => ih m (hm.2 m (get_leaf_mem hm')) p s k
          intro f a b hs d d' hD hd
          beta_reduce
          rw [call_inr, call_inr]
          rcases agree_cases (key f a b hs d d' hD hd) with ⟨e, e1, e2⟩ | ⟨⟨y, t⟩, ⟨y', t'⟩, e1, e2, hy, ht⟩
          · beta_reduce at e1 e2
            rw [e1, e2]; rfl
          · beta_reduce at e1 e2
            simp only at ht
            subst ht
            rw [e1, e2]; exact ⟨hy, rfl⟩

/-- **C94 (states).** Modules that leave their states alone make models that leave their states alone, to any depth. -/
theorem C94_state (sig : Sig M P S K A) (fresh : Str → Nat → Nat → Str) (training : Bool) (hk : ∀ k n, (sig.splitN k n).length = n)
    (h : ∀ m p x s k y s', sig.call m p x training s k = .ok (y, s') → s' = s) :
    ∀ (n : Nat) (s : ValAt S n), Ordered n s → ∀ m p x k y s', (sigAt fresh sig n).call m p x training s k = .ok (y, s') → s' = s := by
  intro n
  induction n with
  | zero => exact fun s _ m p x k y s' e => h m p x s k y s' e
  | succ n ih =>
    intro s hs m p x k y s' e
    cases m with
    | inl m =>
      cases p with
      | inl p => cases s with
        | inl s =>
          rw [call_inl] at e
          split at e
          · cases e
          · next y' t hc => cases e; rw [h _ _ _ _ _ _ _ hc]
        | inr s => cases e
      | inr p => cases s <;> cases e
    | inr nm =>
      cases p with
      | inl p => cases s <;> cases e
      | inr p => cases s with
        | inl s => cases e
        | inr s =>
          rw [call_inr] at e
          split at e
          · cases e
          · next y' t hc =>
            cases e
            congr 1
            have ih' : ∀ s' ∈ flat s, ∀ m p x k y t, (sigAt fresh sig n).call m p x training s' k = .ok (y, t) → t = s' := fun s' hs' => ih s' (hs.2 s' hs')
            cases hkind : nm.kind with
            | seq =>
              simp only [modelSig, hkind] at hc
              exact seqCall_state' (by rw [splitN_at]; exact hk) ih' hs.1 hc
            | nonseq sep conn =>
              simp only [modelSig, hkind] at hc
              exact nsCall_state' ih' hc

/-- **C94 (library).** Models built from elementwise activations, `Reshape`, `Flatten`, `Constant`, `AffineTensor`, `TreeKey` and `TreeFlatten` and from such models, to any depth, sequential or
with any connections, with any parameters, predict every sample on its own, and the same with every limit of the batch size and in both modes. -/
theorem C94_library [Semiring V] [Inhabited V] (layer : M → Layer V) (fresh : Str → Nat → Nat → Str) (n : Nat) (m : ModAt M n) (hm : WellNamed n m) (p : ValAt (Tree (NArr V)) n)
    (training : Bool) (s : ValAt S n) (rng : K) :
    StatefulOn (fun _ => True) (fun d => (sigAt fresh (layerSig layer) n).call m p d training s rng) ∧
    ∀ (avoid : Bool) (max : Option Nat) (c : Nat) (d : Tree (NArr V)), Ordered n s → Batchable avoid max c d ((sigAt fresh (layerSig layer) n).call m p d.norm training s rng) →
      Agree (fun r r' => Related (Picked id c c) r.1 r'.1 ∧ r.2 = r'.2) (jit (fun x s => (sigAt fresh (layerSig layer) n).call m p x training s rng) d s)
        (autobatch avoid (fun x s => (sigAt fresh (layerSig layer) n).call m p x training s rng) max d s) := by
  have h1 := C94_samplewise (K := K) (S := S) (layerSig layer) fresh training (fun m p s k => layer_stateful layer m p training s k) n m hm p s rng
  refine ⟨h1, fun avoid max c d hs h => ?_⟩
  exact C15_arrays avoid _ (fun _ => True) s d c max h1
    (fun r hr => C94_state (layerSig layer) fresh training (fun k n => List.length_replicate) (fun m p x s k y s' => layer_state layer m p x training s k y s') n s hs m p _ rng r.1 r.2 hr)
    trivial h.samples h.limit h.uniform h.nonempty h.keys h.keysOut h.scalar h.empty

/-- The diamond of C93 followed by a flattening, in a sequential model. -/
def nestDia : ModAt Int 2 := .inr ⟨.seq, .list [.leaf (.inr ⟨.nonseq '.' diaConn, diaModules⟩), .leaf (.inl 4)]⟩
/-- Its parameters. -/
def nestDiaPar : ValAt (Tree (NArr Int)) 2 := .inr (.list [.leaf (.inr diaTensors), .leaf (.inl .none)])
/-- Its state. -/
def nestDiaSt : ValAt Unit 2 := .inr (.list [.leaf (.inr diaUnit), .leaf (.inl ())])

/-- The hypotheses hold, and the nested model predicts. -/
example : WellNamed 2 nestDia ∧ Ordered 2 nestDiaSt ∧
    ((sigAt uFresh (layerSig (K := Unit) diaLayer) 2).call nestDia nestDiaPar (.leaf threeSamples) true nestDiaSt ()).map (fun r => Tree.map (fun x => (x.shape, x.entries)) r.1) =
      .ok (.list [.leaf ([3, 1], [2, 32, 62]), .leaf ([3, 2], [15, 15, 15, 15, 20, 21])]) := by
  refine ⟨⟨(fun _ _ h => by cases h), ?_⟩, ⟨rfl, ?_⟩, by decide +kernel⟩
  · intro m hm
    rcases List.mem_cons.1 (show m ∈ [_, _] from hm) with rfl | hm
    · refine ⟨?_, fun _ _ => trivial⟩
      intro sep conn h
      cases h
      exact diaNames
    · obtain rfl := List.mem_singleton.1 hm
      trivial
  · intro s hs
    rcases List.mem_cons.1 (show s ∈ [_, _] from hs) with rfl | hs
    · exact ⟨rfl, fun _ _ => trivial⟩
    · obtain rfl := List.mem_singleton.1 hs
      trivial

end Verif.Props
