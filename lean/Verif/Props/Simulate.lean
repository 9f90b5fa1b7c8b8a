import Verif.Lemmas.Simulate
import Verif.Props.Nested

/-!
# C119: a module may be replaced by one that does the same
-/

namespace Verif.Props
open Nested Forward ForwardSpec Tree Samplewise SimSpec NestedSpec

variable {M M' P P' S S' K A A' : Type}

/-- **C119 (calls).** If corresponding modules turn corresponding data and states into corresponding data and states, or raise the same exception, so do models that are built alike from
corresponding modules, models of such models, and so on to any depth. The two models may be of different modules, with other parameters, states and data. -/
theorem C119_call (sig : Sig M P S K A) (sig' : Sig M' P' S' K A') (hk : sig'.splitN = sig.splitN) (fresh : Str → Nat → Nat → Str) (training : Bool) (J : M → P → M' → P' → Prop)
    (Q : S → S' → Prop) (R : A → A' → Prop)
    (hJ : ∀ m p m' p', J m p m' p' → ∀ s s' x x' k, Q s s' → Related R x x' →
      Agree (fun r r' => Related R r.1 r'.1 ∧ Q r.2 r'.2) (sig.call m p x training s k) (sig'.call m' p' x' training s' k)) :
    ∀ n m p m' p', WellNamed n m → Corresponds J n m p m' p' → ∀ s s' x x' k, CorrespondsV Q n s s' → Related R x x' →
      Agree (fun r r' => Related R r.1 r'.1 ∧ CorrespondsV Q n r.2 r'.2) ((sigAt fresh sig n).call m p x training s k) ((sigAt fresh sig' n).call m' p' x' training s' k) := by
  intro n
  induction n with
  | zero => exact fun m p m' p' _ h => hJ m p m' p' h
  | succ n ih =>
    intro m p m' p' hw h s s' x x' k hs hx
    rcases m with m | m <;> rcases p with p | p <;> rcases m' with m' | m' <;> rcases p' with p' | p' <;> first | exact h.elim | skip
    · rcases s with s | s <;> rcases s' with s' | s' <;> first | exact hs.elim | skip
      · rw [call_inl, call_inl]
        rcases agree_cases (hJ m p m' p' h s s' x x' k hs hx) with ⟨e, h1, h2⟩ | ⟨⟨a, sa⟩, ⟨b, sb⟩, h1, h2, h3, h4⟩
        · rw [h1, h2]; rfl
        · rw [h1, h2]
          exact ⟨h3, h4⟩
      · rfl
    · rcases s with s | s <;> rcases s' with s' | s' <;> first | exact hs.elim | skip
      · rfl
      · obtain ⟨hkind, hm, hp, hpos⟩ := h
        rw [call_inr, call_inr]
        have key : Agree (Both R (Related (CorrespondsV Q n))) ((modelSig fresh (sigAt fresh sig n)).call m p x training s k)
            ((modelSig fresh (sigAt fresh sig' n)).call m' p' x' training s' k) := by
          simp only [modelSig, hkind]
          cases hkd : m.kind with
          | seq =>
            rw [hkd] at hpos
            refine seqCall_sim (by rw [splitN_at, splitN_at]; exact hk) hm hp (fun i a b a' b' h1 h2 h3 h4 => ?_) hs hx k
            exact ih a b a' b' (hw.2 a (mem_flat_norm.1 (List.mem_of_getElem? h1))) (hpos i a b a' b' h1 h2 h3 h4)
          | nonseq sep conn =>
            rw [hkd] at hpos
            refine nsCall_sim (hw.1 sep conn hkd) hm hp (fun q a b a' b' h1 h2 h3 h4 s s' x x' => ?_) hs hx
            exact ih a b a' b' (hw.2 a (NestedSpec.get_leaf_mem h1)) (hpos q a b a' b' h1 h2 h3 h4) s s' x x' k
        rcases agree_cases key with ⟨e, h1, h2⟩ | ⟨⟨a, sa⟩, ⟨b, sb⟩, h1, h2, h3, h4⟩
        · rw [h1, h2]; rfl
        · rw [h1, h2]
          exact ⟨h3, h4⟩

theorem correspondsV_eq : ∀ {n : Nat} {s s' : ValAt S n}, CorrespondsV (fun a b => a = b) n s s' ↔ s = s'
  | 0, _, _ => Iff.rfl
  | n + 1, .inl a, .inl b => ⟨fun h => congrArg Sum.inl h, fun h => Sum.inl.inj h⟩
  | n + 1, .inr a, .inr b => by
    have e : CorrespondsV (fun (a b : S) => a = b) n = fun a b => a = b := by
      funext a b
      exact propext correspondsV_eq
    show Related (CorrespondsV _ n) a b ↔ _
    rw [e, related_eq]
    exact ⟨fun h => congrArg Sum.inr h, fun h => Sum.inr.inj h⟩
  | n + 1, .inl a, .inr b => ⟨fun h => h.elim, fun h => by cases h⟩
  | n + 1, .inr a, .inl b => ⟨fun h => h.elim, fun h => by cases h⟩

/-- **C119 (replacement).** Modules anywhere in a model, however deep, may be replaced by others, with other parameters, that compute the same: the model then computes the same, from the same
states, with the same exceptions. -/
theorem C119_replace (sig : Sig M P S K A) (fresh : Str → Nat → Nat → Str) (training : Bool) (n : Nat) (m m' : ModAt M n) (p p' : ValAt P n) (hw : WellNamed n m)
    (h : Corresponds (fun a b a' b' => ∀ x s k, sig.call a' b' x training s k = sig.call a b x training s k) n m p m' p') (x : Tree A) (s : ValAt S n) (k : K) :
    (sigAt fresh sig n).call m' p' x training s k = (sigAt fresh sig n).call m p x training s k := by
  have := C119_call sig sig rfl fresh training _ (fun a b => a = b) (fun a b => a = b) (fun a b a' b' e s s' x x' k hs hx => by
    subst hs
    rw [related_eq] at hx
    subst hx
    rw [e]
    cases sig.call a b x training s k with
    | error e => rfl
    | ok r => exact ⟨related_eq.2 rfl, rfl⟩) n m p m' p' hw h s s x x k (correspondsV_eq.2 rfl) (related_eq.2 rfl)
  rcases agree_cases this with ⟨e, h1, h2⟩ | ⟨⟨a, sa⟩, ⟨b, sb⟩, h1, h2, h3, h4⟩
  · rw [h1, h2]
  · simp only [related_eq] at h3
    simp only [correspondsV_eq] at h4
    rw [h1, h2, h3, h4]

/-- **C119 (shapes).** If corresponding modules announce the same shapes, so do models built alike from them, to any depth. -/
theorem C119_shape (sig : Sig M P S K A) (sig' : Sig M' P' S' K A') (fresh : Str → Nat → Nat → Str) (R : M → M' → Prop) (hR : ∀ m m', R m m' → ∀ s, sig'.outShape m' s = sig.outShape m s) :
    ∀ n m m', WellNamed n m → CorrespondsM R n m m' → ∀ s, (sigAt fresh sig' n).outShape m' s = (sigAt fresh sig n).outShape m s := by
  intro n
  induction n with
  | zero => exact fun m m' _ h => hR m m' h
  | succ n ih =>
    intro m m' hw h s
    rcases m with m | m <;> rcases m' with m' | m' <;> first | exact h.elim | skip
    · exact hR m m' h s
    · obtain ⟨hkind, hm⟩ := h
      show (modelSig fresh (sigAt fresh sig' n)).outShape m' s = (modelSig fresh (sigAt fresh sig n)).outShape m s
      have hm' : Related (fun a a' => ∀ s, (sigAt fresh sig' n).outShape a' s = (sigAt fresh sig n).outShape a s) m.modules m'.modules :=
        related_mono (fun a b hab => ih a b hab.1 hab.2) (related_and hm hw.2)
      simp only [modelSig, hkind]
      cases hkd : m.kind with
      | seq =>
        simp only
        unfold seqOutputShape
        rw [seqShapeLoop_sim (leaves_related hm')]
      | nonseq sep conn =>
        simp only
        unfold nsOutputShape
        rw [nsShapes_sim (hw.1 sep conn hkd) hm']

theorem sigAt_split (fresh : Str → Nat → Nat → Str) (sig : Sig M P S K A) : ∀ n, (sigAt fresh sig n).split = sig.split
  | 0 => rfl
  | _ + 1 => rfl

/-- **C119 (compilation).** If corresponding modules announce the same shapes and are compiled to corresponding modules, or refuse with the same exception, models built alike from them are compiled
to models built alike from corresponding modules, to any depth. -/
theorem C119_compile (sig : Sig M P S K A) (sig' : Sig M' P' S' K A') (hk : sig'.split = sig.split) (fresh : Str → Nat → Nat → Str) (R : M → M' → Prop)
    (hR : ∀ m m', R m m' → ∀ s, sig'.outShape m' s = sig.outShape m s) (hC : ∀ m m', R m m' → ∀ k s, Agree R (sig.compile m k s) (sig'.compile m' k s)) :
    ∀ n m m', WellNamed n m → CorrespondsM R n m m' → ∀ k s,
      Agree (fun r r' => WellNamed n r ∧ CorrespondsM R n r r') ((sigAt fresh sig n).compile m k s) ((sigAt fresh sig' n).compile m' k s) := by
  intro n
  induction n with
  | zero => exact fun m m' _ h k s => agree_mono (fun a b hab => ⟨trivial, hab⟩) (hC m m' h k s)
  | succ n ih =>
    intro m m' hw h k s
    rcases m with m | m <;> rcases m' with m' | m' <;> first | exact h.elim | skip
    · simp only [sigAt, sumSig]
      rcases agree_cases (hC m m' h k s) with ⟨e, h1, h2⟩ | ⟨a, b, h1, h2, h3⟩
      · simp only [h1, h2]; rfl
      · simp only [h1, h2]
        exact ⟨trivial, h3⟩
    · obtain ⟨hkind, hm⟩ := h
      have hm' := related_and hm hw.2
      have hsh : ∀ a a', WellNamed n a ∧ CorrespondsM R n a a' → ∀ s, (sigAt fresh sig' n).outShape a' s = (sigAt fresh sig n).outShape a s :=
        fun a a' haa => C119_shape sig sig' fresh R hR n a a' haa.1 haa.2
      have hsp : (sigAt fresh sig' n).split = (sigAt fresh sig n).split := by rw [sigAt_split, sigAt_split, hk]
      have key : Agree (fun r r' => WellNamed (n + 1) (.inr r : ModAt M (n + 1)) ∧ r'.kind = r.kind ∧ Related (CorrespondsM R n) r.modules r'.modules)
          ((modelSig fresh (sigAt fresh sig n)).compile m k s) ((modelSig fresh (sigAt fresh sig' n)).compile m' k s) := by
        simp only [modelSig, hkind]
        cases hkd : m.kind with
        | seq =>
          simp only
          unfold seqCompile
          have := seqCompileLoop_sim (k := k) (s := s) hsp hsh (List.Forall₂.imp (fun a b hab => ih a b hab.1 hab.2) (leaves_related hm')) (.nil : List.Forall₂ _ [] [])
          rcases agree_cases this with ⟨e, h1, h2⟩ | ⟨⟨ms, r⟩, ⟨ms', r'⟩, h1, h2, h3, h4⟩
          · simp only [h1, h2]; rfl
          · simp only at h3 h4
            subst h4
            simp only [h1, h2]
            cases checkShape r with
            | error e => rfl
            | ok r =>
              simp only
              rcases agree_cases (unflatten_pairs (alike_of hm) h3) with ⟨e, g1, g2⟩ | ⟨t, t', g1, g2, g3⟩
              · simp only [g1, g2]; rfl
              · simp only [g1, g2]
                exact ⟨⟨fun sep conn e => (by cases e), flat_of_related g3⟩, rfl, related_mono (fun a b hab => hab.2) g3⟩
        | nonseq sep conn =>
          simp only
          have hn := hw.1 sep conn hkd
          have hshapes := nsShapes_sim (fresh := fresh) hn (related_mono hsh hm') s
          unfold nsCompile
          have ho : execOrder sep m'.modules conn = execOrder sep m.modules conn := by
            obtain ⟨z, e1, e2⟩ := hm
            rw [e1, e2, execOrder_map, execOrder_map]
          rw [ho, hshapes]
          cases execOrder sep m.modules conn with
          | error e => rfl
          | ok order =>
            simp only
            cases nsShapes (sigAt fresh sig n) sep fresh m.modules conn s with
            | error e => rfl
            | ok r =>
              obtain ⟨r, _, ins⟩ := r
              simp only
              cases checkShape r with
              | error e => rfl
              | ok r =>
                simp only
                rcases agree_cases (nsCompileLoop_sim (sep := sep) (ins := ins) (k := k) hsp (fun a a' haa => ih a a' haa.1 haa.2) order hm') with ⟨e, g1, g2⟩ | ⟨t, t', g1, g2, g3⟩
                · simp only [g1, g2]; rfl
                · simp only [g1, g2]
                  refine ⟨⟨fun sep' conn' e => ?_, flat_of_related g3⟩, rfl, related_mono (fun a b hab => hab.2) g3⟩
                  cases e
                  exact names_skel (nsCompileLoop_skel order g1).symm hn
      simp only [sigAt, sumSig]
      rcases agree_cases key with ⟨e, h1, h2⟩ | ⟨a, b, h1, h2, h3⟩
      · simp only [h1, h2]; rfl
      · simp only [h1, h2]
        exact h3

/-! ### Cases -/

/-- The parameters of the nested model of C94 in centimetres instead of metres. -/
def groupCm : ValAt Int 3 := .inr (.list [.leaf (.inl 100), .leaf (.inr (.dict [("z".toList, .leaf (.inr (.leaf (3000 : Int)))), ("c".toList, .leaf (.inl 20000))]))])

theorem group_cm : Corresponds (fun _ p _ p' => p' = 100 * p) 3 groupMod groupPar groupMod groupCm := by
  refine ⟨rfl, ⟨.list [.leaf ⟨(.inl (), .inl ()), trivial⟩, .leaf ⟨(_, _), trivial⟩], rfl, rfl⟩, ⟨.list [.leaf ⟨(.inl 1, .inl 100), trivial⟩, .leaf ⟨(_, _), trivial⟩], rfl, rfl⟩, ?_⟩
  intro i a b a' b' h1 h2 h3 h4
  match i with
  | 0 => cases h1; cases h2; cases h3; cases h4; exact (by decide : (100 : Int) = 100 * 1)
  | 1 =>
    cases h1; cases h2; cases h3; cases h4
    refine ⟨rfl, ⟨.dict [("z".toList, .leaf ⟨(_, _), trivial⟩), ("c".toList, .leaf ⟨(.inl (), .inl ()), trivial⟩)], rfl, rfl⟩,
      ⟨.dict [("z".toList, .leaf ⟨(_, _), trivial⟩), ("c".toList, .leaf ⟨(.inl 200, .inl 20000), trivial⟩)], rfl, rfl⟩, ?_⟩
    intro i a b a' b' h1 h2 h3 h4
    match i with
    | 0 => cases h1; cases h2; cases h3; cases h4; exact (by decide : (20000 : Int) = 100 * 200)
    | 1 =>
      cases h1; cases h2; cases h3; cases h4
      refine ⟨rfl, ⟨.leaf ⟨((), ()), trivial⟩, rfl, rfl⟩, ⟨.leaf ⟨((30 : Int), (3000 : Int)), trivial⟩, rfl, rfl⟩, ?_⟩
      intro i a b a' b' h1 h2 h3 h4
      match i with
      | 0 => cases h1; cases h2; cases h3; cases h4; exact (by decide : (3000 : Int) = 100 * 30)
      | i + 1 => cases h1
    | i + 2 => cases h1
  | i + 2 => cases h1

theorem group_named : WellNamed 3 groupMod := by
  refine ⟨(fun _ _ h => by cases h), fun m hm => ?_⟩
  rcases List.mem_cons.1 (show m ∈ [_, _] from hm) with rfl | hm
  · trivial
  · obtain rfl := List.mem_singleton.1 hm
    refine ⟨(fun _ _ h => by cases h), fun m hm => ?_⟩
    rcases List.mem_cons.1 (show m ∈ [_, _] from hm) with rfl | hm
    · exact ⟨(fun _ _ h => by cases h), fun _ _ => trivial⟩
    · obtain rfl := List.mem_singleton.1 hm
      trivial

/-- With lengths in centimetres the nested model of C94 computes in centimetres what it computed in metres. -/
example (x : Tree Int) : Agree (fun r r' => Related (fun a b : Int => b = 100 * a) r.1 r'.1 ∧ CorrespondsV (fun a b => a = b) 3 r.2 r'.2)
      ((sigAt uFresh countSig 3).call groupMod groupPar x true groupSt ()) ((sigAt uFresh countSig 3).call groupMod groupCm (map (100 * ·) x) true groupSt ()) ∧
    ((sigAt uFresh countSig 3).call groupMod groupCm (.leaf 1000) true groupSt ()).map (fun r => r.1) = .ok (.leaf 51400) := by
  refine ⟨C119_call countSig countSig rfl uFresh true (fun _ p _ p' => p' = 100 * p) (fun a b => a = b) _ ?_ 3 _ _ _ _ group_named group_cm _ _ _ _ _ (correspondsV_eq.2 rfl)
    (related_self x fun _ _ => rfl), by decide +kernel⟩
  intro m p m' p' h s s' x x' k hs hx
  subst hs
  exact ⟨map_related (fun a b e => by rw [e, h]; ring) hx, rfl⟩

/-- The nested diamond with another flattening at its end, with parameters that are not used. -/
def nestDia' : ModAt Int 2 := .inr ⟨.seq, .list [.leaf (.inr ⟨.nonseq '.' diaConn, diaModules⟩), .leaf (.inl 5)]⟩
/-- Its parameters. -/
def nestDiaPar' : ValAt (Tree (NArr Int)) 2 := .inr (.list [.leaf (.inr diaTensors), .leaf (.inl (.leaf ⟨[1], fun _ => 7⟩))])

/-- The hypotheses of the replacement hold. -/
example : Corresponds (fun a b a' b' => ∀ (x : Tree (NArr Int)) (s : Unit) (k : Unit), (layerSig diaLayer).call a' b' x true s k = (layerSig diaLayer).call a b x true s k) 2
      nestDia nestDiaPar nestDia' nestDiaPar' ∧
    ((sigAt uFresh (layerSig (K := Unit) diaLayer) 2).call nestDia' nestDiaPar' (.leaf threeSamples) true nestDiaSt ()).map (fun r => Tree.map (fun x => (x.shape, x.entries)) r.1) =
      .ok (.list [.leaf ([3, 1], [2, 32, 62]), .leaf ([3, 2], [15, 15, 15, 15, 20, 21])]) := by
  refine ⟨⟨rfl, ⟨.list [.leaf ⟨(_, _), trivial⟩, .leaf ⟨(.inl 4, .inl 5), trivial⟩], rfl, rfl⟩,
    ⟨.list [.leaf ⟨(_, _), trivial⟩, .leaf ⟨(.inl _, .inl _), trivial⟩], rfl, rfl⟩, ?_⟩, by decide +kernel⟩
  intro i a b a' b' h1 h2 h3 h4
  match i with
  | 0 =>
    cases h1; cases h2; cases h3; cases h4
    refine ⟨rfl, alike_of (related_eq.2 rfl), alike_of (related_eq.2 rfl), ?_⟩
    intro q a b a' b' h1 h2 h3 h4
    rw [h1] at h3
    rw [h2] at h4
    cases h3
    cases h4
    exact fun _ _ _ => rfl
  | 1 => cases h1; cases h2; cases h3; cases h4; exact fun _ _ _ => rfl
  | i + 2 => cases h1

/-- Modules that announce their width and are one wider after compilation; the width is kept as `enc` writes it. -/
def wideSig {M : Type} (enc : Nat → M) (dec : M → Nat) : Sig M Unit Unit Unit Unit where
  call _ _ x _ s _ := .ok (x, s)
  outShape m _ := .ok (.leaf [dec m])
  compile m _ s := if s = .leaf [0] then .error .valueError else .ok (enc (dec m + 1))
  split k := (k, k)
  splitN k n := List.replicate n k

/-- The hypotheses of the theorems on shapes and compilation hold, and their conclusions for a nested model. -/
example (s : Tree Shape) : let m : ModAt Nat 2 := .inr ⟨.seq, .list [.leaf (.inl 2), .leaf (.inr ⟨.seq, .leaf (3 : Nat)⟩)]⟩
    let m' : ModAt Int 2 := .inr ⟨.seq, .list [.leaf (.inl 2), .leaf (.inr ⟨.seq, .leaf (3 : Int)⟩)]⟩
    (sigAt uFresh (wideSig Int.ofNat Int.toNat) 2).outShape m' s = (sigAt uFresh (wideSig id id) 2).outShape m s ∧
    Agree (fun r r' => WellNamed 2 r ∧ CorrespondsM (fun (a : Nat) (b : Int) => b = a) 2 r r') ((sigAt uFresh (wideSig id id) 2).compile m () s)
      ((sigAt uFresh (wideSig Int.ofNat Int.toNat) 2).compile m' () s) ∧
    (sigAt uFresh (wideSig id id) 2).compile m () (.leaf [1]) = .ok (.inr ⟨.seq, .list [.leaf (.inl 3), .leaf (.inr ⟨.seq, .leaf (4 : Nat)⟩)]⟩) := by
  intro m m'
  have hw : WellNamed 2 m := by
    refine ⟨(fun _ _ h => by cases h), fun m hm => ?_⟩
    rcases List.mem_cons.1 (show m ∈ [_, _] from hm) with rfl | hm
    · trivial
    · obtain rfl := List.mem_singleton.1 hm
      exact ⟨(fun _ _ h => by cases h), fun _ _ => trivial⟩
  have hc : CorrespondsM (fun (a : Nat) (b : Int) => b = a) 2 m m' :=
    ⟨rfl, ⟨.list [.leaf ⟨(.inl 2, .inl 2), rfl⟩, .leaf ⟨(.inr ⟨.seq, .leaf (3 : Nat)⟩, .inr ⟨.seq, .leaf (3 : Int)⟩), rfl, ⟨.leaf ⟨((3 : Nat), (3 : Int)), rfl⟩, rfl, rfl⟩⟩], rfl, rfl⟩⟩
  have hR : ∀ (a : Nat) (b : Int), b = a → ∀ s, (wideSig Int.ofNat Int.toNat).outShape b s = (wideSig (id : Nat → Nat) id).outShape a s := by
    rintro a _ rfl s
    rfl
  refine ⟨C119_shape _ _ uFresh _ hR 2 m m' hw hc s, C119_compile (wideSig id id) (wideSig Int.ofNat Int.toNat) rfl uFresh _ hR ?_ 2 m m' hw hc () s, rfl⟩
  rintro a _ rfl k s
  simp only [wideSig]
  split
  · rfl
  · exact (by simp : (Int.ofNat ((a : Int).toNat + 1) : Int) = ((a + 1 : Nat) : Int))

end Verif.Props
