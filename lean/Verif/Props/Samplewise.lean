import Verif.Props.NonSeq
import Verif.Props.SamplewiseModules

/-!
# C93: every sample is predicted on its own
-/

namespace Verif.Props
open Tree Forward Samplewise DataflowSpec

variable {M P S K V : Type}

/-! ### Models made of modules -/

/-- **C93**, sequential models: if every module computes sample by sample with its parameters, so does the model. -/
theorem C93_sequential (sig : Sig M P S K (NArr V)) (modules : Tree M) (params : Tree P) (training : Bool) (state : Tree S) (rng : K)
    (h : ∀ (i : Nat) m p s k, modules.jaxLeaves[i]? = some m → params.jaxLeaves[i]? = some p → StatefulOn (fun _ => True) fun d => sig.call m p d training s k) :
    StatefulOn (fun _ => True) fun d => seqCall sig modules params d training state rng := by
  intro f n m hs d d' _ hd
  exact seqCall_related (R := Picked f n m) (chained_true fun st hst x x' hx => by
    obtain ⟨i, h1, h2⟩ := stages_mem hst
    exact h i _ _ _ _ h1 h2 f n m hs x x' trivial hx) trivial hd

/-- **C93**, non-sequential models: if every module computes sample by sample with its parameters, so does the model, whatever its connections. -/
theorem C93_nonsequential (sig : Sig M P S K (NArr V)) (sep : Char) (fresh : Str → Nat → Nat → Str) (modules : Tree M) (conn : List (Str × List Str))
    (hn : Names sep modules conn) (params : Tree P) (training : Bool) (state : Tree S) (rng : K)
    (h : ∀ q m p s, Tree.get modules q = .ok (.leaf m) → Tree.get params q = .ok (.leaf p) → StatefulOn (fun _ => True) fun d => sig.call m p d training s rng) :
    StatefulOn (fun _ => True) fun d => nsCall sig sep fresh modules conn params d training state rng := by
  intro f n m hs d d' _ hd
  exact nsCall_related (R := Picked f n m) hn (fun q b p s hb hp x x' hx => h q b p s hb hp f n m hs x x' trivial hx) hd

/-- **C93**, compiled sequential models: if every module computes sample by sample on data of a shape it was compiled for, the compiled model computes sample by sample on data of the
shape it was compiled for. -/
theorem C93_sequential_compiled (sig : Sig M P S K (NArr V)) (hdec : Declares sig fun x => x.shape.tail) (modules modules' : Tree M) (key : K) (s r : Tree Shape)
    (hc : seqCompile sig modules key s = .ok (modules'.jaxLeaves, r)) (params : Tree P) (training : Bool) (state : Tree S) (rng : K)
    (h : ∀ (i : Nat) b k s m p t k', sig.compile b k s = .ok m → modules'.jaxLeaves[i]? = some m → params.jaxLeaves[i]? = some p →
      StatefulOn (OfShape s) fun d => sig.call m p d training t k') :
    StatefulOn (OfShape s) fun d => seqCall sig modules' params d training state rng := by
  intro f n m hs d d' hD hd
  unfold seqCompile at hc
  split at hc
  · simp at hc
  · next ms r' hl =>
    split at hc
    · simp at hc
    · simp only [Except.ok.injEq, Prod.mk.injEq] at hc
      obtain ⟨rfl, -⟩ := hc
      obtain ⟨ms', e, hch⟩ := compile_chained hdec (training := training) (R := Picked f n m) hl
      rw [List.nil_append] at e
      rw [← e] at hch
      refine seqCall_related (R := Picked f n m) (hch _ _ _ fun st hst b k s hb x x' hx hr => ?_) hD hd
      obtain ⟨i, h1, h2⟩ := stages_mem hst
      exact h i b k s _ _ _ _ hb h1 h2 f n m hs x x' hx hr

/-- **C93**, compiled non-sequential models: the same. If the model computes a result for the data, it computes the same selection of it for a selection of the samples. -/
theorem C93_nonsequential_compiled (sig : Sig M P S K (NArr V)) (hdec : Declares sig fun x => x.shape.tail)
    (hkeep : ∀ m k s m', sig.compile m k s = .ok m' → sig.outShape m' s = sig.outShape m s) (sep : Char) (fresh : Str → Nat → Nat → Str) (modules modules' : Tree M)
    (conn : List (Str × List Str)) (hn : Names sep modules conn) (key : K) (order : List Str) (s r : Tree Shape)
    (hc : nsCompile sig sep fresh modules conn key s = .ok (modules', order, r)) (params : Tree P) (training : Bool) (state st' : Tree S) (rng : K)
    (h : ∀ q b k s m p t, sig.compile b k s = .ok m → Tree.get modules' q = .ok (.leaf m) → Tree.get params q = .ok (.leaf p) →
      StatefulOn (OfShape s) fun d => sig.call m p d training t rng)
    (f : Nat → Nat) (n m : Nat) (hs : Selection f n m) (d d' out : Tree (NArr V)) (hD : OfShape s d) (hd : Related (Picked f n m) d d')
    (hcall : nsCall sig sep fresh modules' conn params d training state rng = .ok (out, st')) :
    ∃ out', nsCall sig sep fresh modules' conn params d' training state rng = .ok (out', st') ∧ Related (Picked f n m) out out' := by
  subst hD
  exact nsCall_compiled (R := Picked f n m) hdec hkeep hn hc hcall (fun b k s b' q p t hb h1 h2 x x' hx hr => h q b k s b' p t hb h1 h2 f n m hs x x' hx hr) hd

/-! ### Models made of modules of the library -/

open Reshape Elementwise

/-- Modules whose calls need nothing from the compilation. -/
inductive Layer (V : Type) where
  | activation (g : V → V)
  | reshape (t : Option Target)
  | constant
  | tensor (bias : Bool)
  | key (keypaths : Option (Tree (List Str)))
  | flatten

/-- What such a module computes from its parameters and the data. -/
def Layer.run [Semiring V] : Layer V → Tree (NArr V) → Tree (NArr V) → Except PyErr (Tree (NArr V))
  | .activation g, _, d => .ok (Elementwise.activation (NArr.uop g) d)
  | .reshape t, _, d => callable t d
  | .constant, p, d => constantCall p d
  | .tensor bias, .leaf Ms, d => AffineTensor.call bias Ms d
  | .tensor _, _, _ => .error .typeError
  | .key ks, _, d => treeKey (fun _ => false) ks d
  | .flatten, _, d => .ok (treeFlatten d)

/-- A model whose module `m` is the layer `layer m`; the shapes and the compilation play no role. -/
def layerSig [Semiring V] (layer : M → Layer V) : Sig M (Tree (NArr V)) S K (NArr V) where
  call m p d _ s _ := match (layer m).run p d with
    | .error e => .error e
    | .ok r => .ok (r, s)
  outShape _ s := .ok s
  compile m _ _ := .ok m
  split k := (k, k)
  splitN k n := List.replicate n k

theorem layer_stateful [Semiring V] (layer : M → Layer V) (m : M) (p : Tree (NArr V)) (training : Bool) (s : S) (k : K) :
    StatefulOn (fun _ => True) fun d => (layerSig layer).call m p d training s k := by
  intro f n l hs d d' _ h
  have key : Samplewise ((layer m).run p) := by
    cases layer m with
    | activation g => exact C93_activation g
    | reshape t => exact C93_reshape t
    | constant => exact C93_constant p
    | tensor bias =>
      cases p with
      | leaf Ms => exact C93_tensor bias Ms
      | _ => exact fun _ _ _ _ _ _ _ _ => rfl
    | key ks => exact C93_treekey ks
    | flatten => exact C93_treeflatten
  show Agree _ (match (layer m).run p d with | .error e => .error e | .ok r => .ok (r, s)) (match (layer m).run p d' with | .error e => .error e | .ok r => .ok (r, s))
  rcases agree_cases (key f n l hs d d' trivial h) with ⟨e, e1, e2⟩ | ⟨x, y, e1, e2, hq⟩
  · rw [e1, e2]; rfl
  · rw [e1, e2]; exact ⟨hq, rfl⟩

/-- **C93**: in every model built from elementwise activations, `Reshape`, `Flatten`, `Constant`, `AffineTensor`, `TreeKey` and `TreeFlatten`, sequential or with any connections, and with
any parameters, each sample is predicted on its own. No hypothesis about the modules is left. -/
theorem C93_library [Semiring V] (layer : M → Layer V) (modules : Tree M) (params : Tree (Tree (NArr V))) (training : Bool) (state : Tree S) (rng : K) :
    StatefulOn (fun _ => True) (fun d => seqCall (layerSig layer) modules params d training state rng) ∧
    ∀ (sep : Char) (fresh : Str → Nat → Nat → Str) (conn : List (Str × List Str)), Names sep modules conn →
      StatefulOn (fun _ => True) fun d => nsCall (layerSig layer) sep fresh modules conn params d training state rng :=
  ⟨C93_sequential _ _ _ _ _ _ fun _ _ _ _ _ _ _ => layer_stateful layer _ _ _ _ _,
   fun sep fresh conn hn => C93_nonsequential _ sep fresh modules conn hn params training state rng fun _ _ _ _ _ _ => layer_stateful layer _ _ _ _ _⟩

/-- The layers of the diamond: `A` a tensor, `B.0` a rectifier, `C` a flattening of both results. -/
def diaLayer : Int → Layer Int := fun m => if m = 2 then .tensor false else if m = 3 then .activation (max 15) else .flatten
/-- Their parameters. -/
def diaTensors : Tree (Tree (NArr Int)) :=
  .dict [("A".toList, .leaf (.leaf ⟨[2, 1], fun i => i.getD 0 0 + 1⟩)), ("B".toList, .list [.leaf .none]), ("C".toList, .leaf .none)]
/-- No states. -/
def diaUnit : Tree Unit := .dict [("A".toList, .leaf ()), ("B".toList, .list [.leaf ()]), ("C".toList, .leaf ())]

/-- The shapes and entries of a result. -/
def shown (r : Except PyErr (Tree (NArr Int) × Tree Unit)) : Except PyErr (Tree (List Nat × List Int)) := r.map fun r => Tree.map (fun x => (x.shape, x.entries)) r.1

/-- The diamond on three samples and on the last two of them in reverse order. -/
example : Names '.' diaModules diaConn ∧
    shown (nsCall (K := Unit) (layerSig diaLayer) '.' uFresh diaModules diaConn diaTensors (.leaf threeSamples) true diaUnit ()) =
      .ok (.list [.leaf ([3, 1], [2, 32, 62]), .leaf ([3, 2], [15, 15, 15, 15, 20, 21])]) ∧
    shown (nsCall (K := Unit) (layerSig diaLayer) '.' uFresh diaModules diaConn diaTensors (.leaf twoSamples) true diaUnit ()) =
      .ok (.list [.leaf ([2, 1], [62, 32]), .leaf ([2, 2], [20, 21, 15, 15])]) := ⟨diaNames, by decide +kernel, by decide +kernel⟩

/-- A chain of two layers. -/
example : shown (seqCall (K := Unit) (layerSig diaLayer) (.list [.leaf 3, .leaf 2]) (.list [.leaf .none, .leaf (.leaf ⟨[2, 1], fun i => i.getD 0 0 + 1⟩)]) (.leaf twoSamples) true
    (.list [.leaf (), .leaf ()]) ()) = .ok (.leaf ([2, 1], [62, 45])) := by decide +kernel

/-- Modules that check at compile time: `m` accepts samples of `m` features and adds its parameter. -/
def addSig : Sig Nat Int Unit Unit (NArr Int) where
  call _ p d _ s _ := .ok (Elementwise.activation (NArr.uop (· + p)) d, s)
  outShape _ s := .ok s.norm
  compile m _ s := if s = .leaf [m] then .ok m else .error .valueError
  split k := (k, k)
  splitN k n := List.replicate n k

/-- The hypotheses of the compiled cases: the modules declare the shapes they compute, the models compile for two features, and the modules compute sample by sample. -/
example : (Declares addSig fun x => x.shape.tail) ∧ (∃ r, seqCompile addSig (.list [.leaf 2, .leaf 2]) () (.leaf [2]) = .ok ((Tree.list [.leaf 2, .leaf 2]).jaxLeaves, r)) ∧
    (∀ m k s m', addSig.compile m k s = .ok m' → addSig.outShape m' s = addSig.outShape m s) ∧
    ∀ (s : Tree Shape) (m : Nat) (p : Int) (t : Unit) (k : Unit), StatefulOn (OfShape s) fun d => addSig.call m p d true t k := by
  refine ⟨fun m p x t s k y s' h => ?_, ⟨_, rfl⟩, fun m k s m' h => rfl, fun s m p t k f n l hs d d' hD h => ?_⟩
  · cases h
    simp only [addSig, Elementwise.activation, Tree.norm_map, Tree.map_map]
    rfl
  · exact ⟨C93_activation (· + p) f n l hs d d' trivial h, rfl⟩

/-- A model with connections that compiles for samples of five features. -/
def twoModules : Tree Nat := .dict [("A".toList, .leaf 5), ("B".toList, .leaf 5)]
/-- One module after the other. -/
def twoConn : List (Str × List Str) := [("input".toList, ["A".toList]), ("A".toList, ["B".toList]), ("B".toList, ["output".toList])]

example : nsCompile addSig '.' uFresh twoModules twoConn () (.leaf [5]) = .ok (twoModules, ["input".toList, "A".toList, "B".toList, "output".toList], .leaf [5]) := by decide +kernel

end Verif.Props
