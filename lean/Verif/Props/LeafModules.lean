import Verif.Model.LeafModules
import Verif.Props.Elementwise
import Verif.Props.ModelTrain

/-!
# C87: parametric rectifiers and constants as modules
-/

namespace Verif.Props
open Reshape ReshapeSpec Tree ForwardSpec NArr NdSpec Elementwise LeafModules

variable {V W : Type}

/-- The data consists of batches of samples of the shapes `s`: the same structure, and at every place a batch axis in front of the shape. -/
def Batches (s : Tree (List Nat)) (data : Tree (NArr W)) : Prop :=
  map (fun _ => ()) data.norm = map (fun _ => ()) s.norm ∧ ∀ p x sh, At data p x → At s p sh → ∃ b, x.shape = b :: sh

/-- The slopes of a rectifier that was compiled for `s`: one number, or an array of the right shape at every place. -/
def SlopesFit (single : Bool) (s : Tree (List Nat)) (p : Tree (NArr V)) : Prop :=
  if single then ∃ a, firstItem p = .ok a ∧ a.shape = [1] else map (·.shape) p.norm = s.norm

theorem check_fit {single : Bool} {s : Tree (List Nat)} {p : Tree (NArr V)} (h : PReLU.check single s p = .ok ()) : SlopesFit single s p := by
  unfold PReLU.check at h
  unfold SlopesFit
  cases single with
  | true =>
    simp only [if_true] at h ⊢
    split at h
    · cases h
    · split at h
      · cases h
      · split at h
        · cases h
        · rename_i a ha
          split at h
          · rename_i hs
            exact ⟨a, ha, hs⟩
          · cases h
  | false =>
    simp only [Bool.false_eq_true, if_false] at h ⊢
    split at h
    · cases h
    · rename_i h1
      split at h
      · rename_i h2
        have h1 : sameStruct p.norm s.norm = true := by
          cases hh : sameStruct p.norm s.norm with
          | true => rfl
          | false => rw [hh] at h1; exact absurd rfl h1
        refine tree_ext ?_ ?_
        · rw [map_map]
          exact (sameStruct_iff _ _).1 h1
        · rw [flat_map]
          exact h2
      · cases h

theorem fit_check_tree {s : Tree (List Nat)} {p : Tree (NArr V)} (h : map (·.shape) p.norm = s.norm) : PReLU.check false s p = .ok () := by
  unfold PReLU.check
  have h1 : sameStruct p.norm s.norm = true := (sameStruct_iff _ _).2 (by rw [← h, map_map])
  have h2 : (jaxLeaves p).map (·.shape) = jaxLeaves s := by
    show (flat p.norm).map _ = flat s.norm
    rw [← h, flat_map]
  simp [h1, h2]

/-- What holds of a rectifier that a user can reach: the shape is known only together with slopes, and then the slopes fit. -/
def SlopesInv (m : PReLU V) : Prop := (m.a = Option.none → m.inShape = Option.none) ∧ ∀ p s, m.a = some p → m.inShape = some s → KeysOk p ∧ SlopesFit m.single s p

/-- No dictionary of the arguments repeats a key. -/
def PReluKeys : PReLU.Op V → Prop
  | .compile _ s => KeysOk s
  | .setParams p => KeysOk p

theorem compile_slopes (draw : List Nat → List Nat → V) (m : PReLU V) (s : Tree (List Nat)) (hk : KeysOk s) (h : SlopesInv m) : SlopesInv (m.compile draw s).1 := by
  have fresh : ∀ single : Bool, KeysOk (if single then .tuple [.leaf ⟨[1], draw [1]⟩] else map (fun sh => (⟨sh, draw sh⟩ : NArr V)) s.norm) ∧
      SlopesFit single s (if single then .tuple [.leaf ⟨[1], draw [1]⟩] else map (fun sh => (⟨sh, draw sh⟩ : NArr V)) s.norm) := by
    intro single
    unfold SlopesFit
    cases single with
    | true => exact ⟨⟨trivial, trivial⟩, _, rfl, rfl⟩
    | false =>
      simp only [Bool.false_eq_true, if_false]
      refine ⟨(keysOk_map _ _).2 (keysOk_norm' hk), ?_⟩
      rw [Tree.norm_map, norm_norm hk, map_map]
      exact Tree.map_id _
  unfold PReLU.compile
  split
  · exact h
  · refine ⟨fun hn => (nomatch hn), fun p t hp ht => ?_⟩
    cases hp
    cases ht
    exact fresh m.single

theorem set_slopes (m : PReLU V) (p : Tree (NArr V)) (hk : KeysOk p) (h : SlopesInv m) : SlopesInv (m.setParams p).1 := by
  unfold PReLU.setParams
  split
  · rename_i q s hq hs
    split
    · rename_i u hc
      refine ⟨fun hn => (nomatch hn), fun p' s' hp' hs' => ?_⟩
      cases hp'
      have : some s = some s' := hs.symm.trans hs'
      cases this
      exact ⟨hk, check_fit hc⟩
    · exact h
  · rename_i hno
    refine ⟨fun hn => (nomatch hn), fun p' s' hp' hs' => ?_⟩
    cases hp'
    cases ha : m.a with
    | none => have : some s' = Option.none := hs'.symm.trans (h.1 ha); cases this
    | some q => exact absurd hs' (hno q s' ha)

theorem run_slopes (ops : List (PReLU.Op V)) (m : PReLU V) (hk : ∀ o ∈ ops, PReluKeys o) (h : SlopesInv m) : SlopesInv (m.run ops) := by
  induction ops generalizing m with
  | nil => exact h
  | cons o ops ih =>
    refine ih (m.step o) (fun o' ho' => hk o' (List.mem_cons_of_mem _ ho')) ?_
    have ho := hk o List.mem_cons_self
    cases o with
    | compile draw s => exact compile_slopes draw m s ho h
    | setParams p => exact set_slopes m p ho h

theorem run_single (ops : List (PReLU.Op V)) (m : PReLU V) : (m.run ops).single = m.single := by
  induction ops generalizing m with
  | nil => rfl
  | cons o ops ih =>
    refine (ih (m.step o)).trans ?_
    cases o with
    | compile draw s =>
      show (m.compile draw s).1.single = _
      unfold PReLU.compile
      split <;> rfl
    | setParams p =>
      show (m.setParams p).1.single = _
      unfold PReLU.setParams
      split
      · split <;> rfl
      · rfl

/-- **C87 (a compiled rectifier works).** Whatever sequence of `compile` and `set_params` led to it, refused or not: a rectifier that is ready can be called on all batches of samples of the shape that it
was compiled for; the result has the structure and the shapes of the data, and a negative entry is multiplied by the slope of its feature (or by the only one). -/
theorem C87_prelu_works [Zero V] [Mul V] [LE V] [DecidableLE V] (single : Bool) (ops : List (PReLU.Op V)) (hk : ∀ o ∈ ops, PReluKeys o) (p : Tree (NArr V)) (s : Tree (List Nat))
    (hp : ((PReLU.new single).run ops).a = some p) (hs : ((PReLU.new single).run ops).inShape = some s) (data : Tree (NArr V)) (hd : Batches s data) :
    ∃ out, ((PReLU.new single).run ops).call data = .ok out ∧ map (fun _ => ()) out = map (fun _ => ()) data.norm ∧
      ∀ q x, At data q x → ∃ y a, At out q y ∧ y.shape = x.shape ∧
        (if single then firstItem p = .ok a ∧ a.shape = [1] else At p q a ∧ At s q a.shape) ∧
        ∀ k i, InB x.shape (k :: i) → (0 ≤ x.val (k :: i) → y.val (k :: i) = x.val (k :: i)) ∧
          (¬ 0 ≤ x.val (k :: i) → y.val (k :: i) = a.val (featureOf a.shape i) * x.val (k :: i)) := by
  have hinv := (run_slopes ops (PReLU.new single) hk ⟨fun _ => rfl, fun _ _ h => nomatch h⟩).2 p s hp hs
  have hsg : ((PReLU.new single).run ops).single = single := run_single ops (PReLU.new (V := V) single)
  rw [hsg] at hinv
  have struct_at : ∀ {α β : Type} {t : Tree α} {u : Tree β}, map (fun _ => ()) t.norm = map (fun _ => ()) u.norm → ∀ {q a}, At t q a → ∃ b, At u q b := by
    intro α β t u h q a ha
    have : At (map (fun _ => ()) t.norm) q () := at_map.2 ⟨a, at_norm.2 ha, rfl⟩
    rw [h] at this
    obtain ⟨b, hb, -⟩ := at_map.1 this
    exact ⟨b, at_norm.1 hb⟩
  unfold PReLU.call
  rw [hp, hsg]
  cases single with
  | true =>
    obtain ⟨-, a, ha, hsh⟩ := hinv
    simp only [if_true, ha]
    have hsq : squeeze a = ⟨[], fun _ => a.val [0]⟩ := by
      unfold squeeze
      rw [hsh]
      rfl
    rw [hsq]
    obtain ⟨out, h1, h2, h3⟩ := C64_prelu_single a data (fun q x hx => by
      obtain ⟨sh, hq⟩ := struct_at hd.1 hx
      obtain ⟨b, hb⟩ := hd.2 q x sh hx hq
      rw [hb]
      exact List.cons_ne_nil _ _)
    refine ⟨out, h1, h2, fun q x hx => ?_⟩
    obtain ⟨y, h4, h5, h6⟩ := h3 q x hx
    refine ⟨y, a, h4, h5, ⟨rfl, hsh⟩, fun k i hi => ?_⟩
    rw [hsh]
    exact h6 k i hi
  | false =>
    obtain ⟨hkp, hfit⟩ := hinv
    simp only [SlopesFit, Bool.false_eq_true, if_false] at hfit ⊢
    have hps : map (fun _ => ()) p.norm = map (fun _ => ()) s.norm := by rw [← hfit, map_map]
    have hat : ∀ {q a}, At p q a → At s q a.shape := fun {q a} ha => by
      have : At (map (fun a : NArr V => a.shape) p.norm) q a.shape := at_map.2 ⟨a, at_norm.2 ha, rfl⟩
      rw [hfit] at this
      exact at_norm.1 this
    obtain ⟨out, h1, h2, h3⟩ := C64_prelu_tree p hkp data (hd.1.trans hps.symm) (fun q x a hx ha => hd.2 q x a.shape hx (hat ha))
    refine ⟨out, h1, h2, fun q x hx => ?_⟩
    obtain ⟨a, ha⟩ := struct_at (hd.1.trans hps.symm) hx
    obtain ⟨y, h4, h5, h6⟩ := h3 q x a hx ha
    exact ⟨y, a, h4, h5, ⟨ha, hat ha⟩, h6⟩

/-- A rectifier with a slope for each of two features, compiled, and slopes that are then set. -/
def demoOps : List (PReLU.Op Int) := [.compile (fun _ _ => 3) (.leaf [2]), .setParams (.leaf ⟨[3], fun _ => 7⟩), .setParams (.leaf ⟨[2], fun i => (i.getD 0 0 : Nat)⟩)]

example : ∃ y : NArr Int, ((PReLU.new false).run demoOps).call (.leaf ⟨[3, 2], fun _ => -5⟩) = .ok (.leaf y) ∧ y.val [0, 0] = 0 ∧ y.val [2, 1] = -5 := ⟨_, rfl, by decide, by decide⟩
example : ∃ p : Tree (NArr Int), ((PReLU.new false).run demoOps).a = some p ∧ ((PReLU.new false).run demoOps).inShape = some (.leaf [2]) ∧
    Batches (.leaf [2]) (.leaf (⟨[3, 2], fun _ => -5⟩ : NArr Int)) := ⟨_, rfl, rfl, rfl, fun p x sh hx hs => by cases hx; cases hs; exact ⟨3, rfl⟩⟩

/-- **C87 (compiling a rectifier).** A rectifier that is not ready is ready after `compile`, for that shape, and declares the shape of the data; compiling it again changes nothing and is refused
exactly if the shape is another one. -/
theorem C87_prelu_compile (draw : List Nat → List Nat → V) (m : PReLU V) (s : Tree (List Nat)) :
    (m.ready = false → (m.compile draw s).2 = Option.none ∧ (m.compile draw s).1.ready = true ∧ (m.compile draw s).1.inShape = some s ∧ (m.compile draw s).1.single = m.single) ∧
    (m.ready = true → (m.compile draw s).1 = m ∧ ((m.compile draw s).2 = Option.none ↔ m.inShape.map norm = some s.norm)) ∧ m.outputShape s = s := by
  obtain ⟨single, a, t⟩ := m
  refine ⟨fun h => ?_, fun h => ?_, rfl⟩
  · cases a <;> cases t <;> simp_all [PReLU.ready, PReLU.compile]
  · cases a <;> cases t <;> simp_all [PReLU.ready, PReLU.compile]

example : ((PReLU.new (V := Int) true).compile (fun _ _ => 3) (.leaf [2])).2 = Option.none := rfl
example : ((PReLU.new false).run demoOps).ready = true ∧ (((PReLU.new false).run demoOps).compile (fun _ _ => 3) (.leaf [4])).2 = some .valueError := by decide +kernel

/-- **C87 (setting slopes).** On a compiled rectifier with a slope per feature `set_params` accepts exactly slopes of the right structure and shapes, and stores them; whatever is refused changes
nothing. A single slope must be the only item and of shape `(1,)`. -/
theorem C87_prelu_set (m : PReLU V) (p : Tree (NArr V)) (s : Tree (List Nat)) (hr : m.ready = true) (hs : m.inShape = some s) :
    ((m.setParams p).2 = Option.none → (m.setParams p).1 = { m with a := some p } ∧ SlopesFit m.single s p) ∧
    ((m.setParams p).2 ≠ Option.none → (m.setParams p).1 = m) ∧
    (m.single = false → SlopesFit false s p → (m.setParams p).2 = Option.none) ∧
    (m.single = true → ∀ a : NArr V, a.shape = [1] → (m.setParams (.tuple [.leaf a])).2 = Option.none) := by
  obtain ⟨single, a, t⟩ := m
  cases hs
  cases a with
  | none => cases hr
  | some q =>
    refine ⟨?_, ?_, ?_, ?_⟩
    · unfold PReLU.setParams
      simp only
      split
      · rename_i u hc
        exact fun _ => ⟨rfl, check_fit hc⟩
      · intro h; cases h
    · unfold PReLU.setParams
      simp only
      split
      · intro h; exact absurd rfl h
      · exact fun _ => rfl
    · intro h1 h2
      cases h1
      unfold PReLU.setParams
      simp only [fit_check_tree h2]
    · intro h1 a ha
      cases h1
      simp [PReLU.setParams, PReLU.check, LeafModules.length, firstItem, ha]

example : (((PReLU.new false).run demoOps).setParams (.leaf ⟨[3], fun _ => 7⟩)).2 = some .valueError := by decide +kernel

/-- **C87 (refuted).** Slopes that were set before the first `compile` are not kept: `compile` replaces them by the same random numbers as without them, whatever they were. -/
theorem C87_prelu_set_before_refuted (draw : List Nat → List Nat → V) (single : Bool) (p : Tree (NArr V)) (s : Tree (List Nat)) :
    ((PReLU.new single).setParams p).2 = Option.none ∧ (((PReLU.new single).setParams p).1.compile draw s).2 = Option.none ∧
    (((PReLU.new single).setParams p).1.compile draw s).1 = ((PReLU.new single).compile draw s).1 := ⟨rfl, rfl, rfl⟩

example : ∃ a : NArr Int, (((PReLU.new true).setParams (.tuple [.leaf ⟨[1], fun _ => 5⟩])).1.compile (fun _ _ => 3) (.leaf [2])).1.a = some (.tuple [.leaf a]) ∧ a.val [0] = 3 := ⟨_, rfl, rfl⟩

/-- What a user does with a `Constant` after making it. -/
inductive ConstOp (V : Type) where
  | compile (draw : Bool → List Nat → List Nat → V)
  | setParams (c : Tree (NArr V))
  | setTrainable (b : Bool)

/-- One operation; exceptions are caught by the user. -/
def constStep (m : Const V) : ConstOp V → Const V
  | .compile draw => (m.compile draw).1
  | .setParams c => m.setParams c
  | .setTrainable b => m.setTrainable b

/-- The parameters that are set have the shapes `s` (and no dictionary repeats a key). -/
def SetsShape (s : Option (Tree (List Nat))) : ConstOp V → Prop
  | .setParams c => KeysOk c ∧ some (map (·.shape) c.norm) = s.map norm
  | _ => True

/-- The constant has the declared shapes. -/
def ConstInv (m : Const V) : Prop := ∀ c, m.value = some c → some (map (·.shape) c.norm) = m.shape.map norm

theorem fresh_shapes {draw : Bool → List Nat → List Nat → V} {s : Tree (List Nat)} {real r : Tree Bool} {c : Tree (NArr V)} (hk : KeysOk s) (h : freshConst draw s real = .ok (c, r)) :
    map (·.shape) c.norm = s.norm := by
  unfold freshConst at h
  simp only at h
  split at h
  · cases h
  · rename_i c' hc
    cases h
    obtain ⟨z, h1, h2, h3, h4⟩ := jaxMap_graph (fun a vs w hw => by
      unfold drawLeaf at hw
      split at hw
      · cases hw; exact ⟨_, rfl⟩
      · cases hw) hc
    have hz : norm z = z := by
      have hs := sorted_norm s hk
      rw [← h2] at hs
      exact norm_of_sorted _ ((sorted_map _ z).1 hs)
    rw [← h2, ← h3, Tree.norm_map, hz, map_map]
    refine map_congr fun x hx => ?_
    have := h4 x hx
    unfold drawLeaf at this
    split at this
    · injection this with this
      injection this with this
      rw [← this]
    · cases this

theorem const_step_shape (m : Const V) (o : ConstOp V) : (constStep m o).shape = m.shape := by
  cases o with
  | compile draw =>
    show (m.compile draw).1.shape = _
    unfold Const.compile
    split
    · rfl
    · split
      · rfl
      · split
        · rfl
        · split
          · split <;> rfl
          · split <;> rfl
  | setParams c => rfl
  | setTrainable b => rfl

theorem const_step_inv (m : Const V) (o : ConstOp V) (hk : ∀ s, m.shape = some s → KeysOk s) (ho : SetsShape m.shape o) (h : ConstInv m) : ConstInv (constStep m o) := by
  cases o with
  | compile draw =>
    show ConstInv (m.compile draw).1
    unfold Const.compile
    split
    · exact h
    · rename_i hv
      split
      · exact h
      · split
        · exact h
        · split
          · split
            · intro c hc
              exact h c hc
            · exact h
            · exact h
          · rename_i s hs
            split
            · exact h
            · rename_i c r hf
              intro c' hc'
              cases hc'
              show _ = m.shape.map norm
              rw [hs, fresh_shapes (hk s hs) hf]
              rfl
  | setParams c =>
    intro c' hc'
    cases hc'
    exact ho.2
  | setTrainable b => exact h

theorem init_const {isReal : NArr V → Bool} {c : Option (Tree (NArr V))} {tr : Bool} {sh : Option (Tree (List Nat))} {real : Option (Tree Bool)} {m : Const V}
    (hc : ∀ t, c = some t → KeysOk t) (hs : ∀ s, sh = some s → KeysOk s) (h : Const.init isReal c tr sh real = .ok m) :
    ConstInv m ∧ (∀ s, m.shape = some s → KeysOk s) ∧ m.value = c ∧ m.trainable = tr := by
  unfold Const.init at h
  split at h
  · split at h
    · cases h
    · cases h
      exact ⟨(fun _ h => nomatch h), fun s' h' => hs s' h', rfl, rfl⟩
    · cases h
      exact ⟨(fun _ h => nomatch h), fun s' h' => hs s' h', rfl, rfl⟩
  · rename_i t
    simp only at h
    have hkt := hc t rfl
    split at h
    · cases h
    · rename_i s hsh
      split at h
      · cases h
      · cases h
        have key : map (·.shape) t.norm = s.norm ∧ KeysOk s := by
          split at hsh
          · rename_i s'
            split at hsh
            · rename_i he
              cases hsh
              exact ⟨he, hs _ rfl⟩
            · cases hsh
          · cases hsh
            refine ⟨?_, (keysOk_map _ _).2 (keysOk_norm' hkt)⟩
            rw [Tree.norm_map, norm_norm hkt]
        refine ⟨fun c' h' => ?_, fun s' h' => ?_, rfl, rfl⟩
        · cases h'
          show some _ = some _
          rw [key.1]
        · cases h'
          exact key.2

theorem const_run_shape (ops : List (ConstOp V)) (m : Const V) : (ops.foldl constStep m).shape = m.shape := by
  induction ops generalizing m with
  | nil => rfl
  | cons o ops ih => exact (ih _).trans (const_step_shape m o)

theorem const_run_inv (ops : List (ConstOp V)) (m : Const V) (hk : ∀ s, m.shape = some s → KeysOk s) (ho : ∀ o ∈ ops, SetsShape m.shape o) (h : ConstInv m) : ConstInv (ops.foldl constStep m) := by
  induction ops generalizing m with
  | nil => exact h
  | cons o ops ih =>
    have e := const_step_shape m o
    exact ih (constStep m o) (by rw [e]; exact hk) (fun o' ho' => by rw [e]; exact ho o' (List.mem_cons_of_mem _ ho')) (const_step_inv m o hk (ho o List.mem_cons_self) h)

/-- **C87 (a constant declares the shape of its output).** However a constant was made, compiled, frozen and trained: if it is ready, it can be called on all data with at least one array, and behind the
batch axis the output has the shape that the module declares; every sample is the constant. -/
theorem C87_const_declared (isReal : NArr V → Bool) (c : Option (Tree (NArr V))) (tr : Bool) (sh : Option (Tree (List Nat))) (real : Option (Tree Bool)) (m : Const V)
    (hc : ∀ t, c = some t → KeysOk t) (hs : ∀ s, sh = some s → KeysOk s) (h : Const.init isReal c tr sh real = .ok m)
    (ops : List (ConstOp V)) (ho : ∀ o ∈ ops, SetsShape m.shape o) (k : Tree (NArr V)) (hv : (ops.foldl constStep m).value = some k)
    (data : Tree (NArr W)) (x : NArr W) (xs : List (NArr W)) (b : Nat) (r : List Nat) (hl : jaxLeaves data = x :: xs) (hx : x.shape = b :: r) :
    ∃ s out, (ops.foldl constStep m).outputShape = some s ∧ (ops.foldl constStep m).call data = .ok out ∧ map (·.shape) out = map (b :: ·) s.norm ∧
      ∀ p a, At k p a → ∃ y, At out p y ∧ ∀ j i, y.val (j :: i) = a.val i := by
  obtain ⟨h1, h2, -, -⟩ := init_const hc hs h
  have hinv := const_run_inv ops m h2 ho h1 k hv
  cases hsh : (ops.foldl constStep m).shape with
  | none => rw [hsh] at hinv; cases hinv
  | some s =>
    rw [hsh] at hinv
    injection hinv with hinv
    obtain ⟨out, e1, e2, e3, e4⟩ := C69_constant k data x xs b r hl hx
    refine ⟨s, out, hsh, ?_, ?_, fun p a ha => ?_⟩
    · unfold Const.call
      rw [hv]
      exact e1
    · unfold constantCall at e1
      rw [hl] at e1
      simp only [hx] at e1
      cases e1
      rw [map_map, ← hinv, map_map]
    · obtain ⟨y, g1, -, g3⟩ := e3 p a ha
      exact ⟨y, g1, g3⟩

/-- A trainable constant of two numbers, compiled, and new numbers. -/
def demoConst : List (ConstOp Int) := [.compile (fun _ _ _ => 3), .setParams (.leaf ⟨[2], fun i => (i.getD 0 0 : Nat)⟩), .setTrainable false, .compile (fun _ _ _ => 4)]

example : ∃ m : Const Int, Const.init (fun _ => true) Option.none true (some (.leaf [2])) Option.none = .ok m ∧ (∀ o ∈ demoConst, SetsShape m.shape o) ∧
    ∃ y, (demoConst.foldl constStep m).call (.leaf (⟨[4], fun _ => 0⟩ : NArr Int)) = .ok (.leaf y) ∧ y.shape = [4, 2] ∧ y.val [3, 1] = 1 := by
  refine ⟨_, rfl, fun o ho => ?_, _, rfl, rfl, by decide⟩
  simp only [demoConst, List.mem_cons, List.not_mem_nil, or_false] at ho
  rcases ho with rfl | rfl | rfl | rfl
  · trivial
  · exact ⟨trivial, rfl⟩
  · trivial
  · trivial

/-- Whether the constant is to be real at a place: `real` is missing (then yes), one boolean for all, or a tree of booleans. -/
def RealAt (real : Option (Tree Bool)) (p : List ForwardSpec.Step) (r : Bool) : Prop :=
  (real = Option.none ∧ r = true) ∨ real = some (.leaf r) ∨ ∃ t, real = some t ∧ At t p r

/-- `real` fits the shape. -/
def RealFits (s : Tree (List Nat)) (real : Option (Tree Bool)) : Prop :=
  ∀ t, real = some t → (∃ b, t = .leaf b) ∨ (KeysOk t ∧ map (fun _ => ()) s.norm = map (fun _ => ()) t.norm)

theorem fresh_total (draw : Bool → List Nat → List Nat → V) (s : Tree (List Nat)) (hs : KeysOk s) (real : Tree Bool) (h : RealFits s (some real)) :
    ∃ c r, freshConst draw s real = .ok (c, r) ∧ KeysOk c ∧ map (fun _ => ()) c = map (fun _ => ()) s.norm ∧
      ∀ p sh, At s p sh → ∃ b, RealAt (some real) p b ∧ At c p ⟨sh, draw b sh⟩ := by
  have main : ∀ real' : Tree Bool, KeysOk real' → map (fun _ => ()) s.norm = map (fun _ => ()) real'.norm → (∀ p sh b, At s p sh → At real' p b → RealAt (some real) p b) →
      ∃ c, Tree.jaxMap (drawLeaf draw) s [real'] = .ok c ∧ KeysOk c ∧ map (fun _ => ()) c = map (fun _ => ()) s.norm ∧
        ∀ p sh, At s p sh → ∃ b, RealAt (some real) p b ∧ At c p ⟨sh, draw b sh⟩ := by
    intro real' hk hst hR
    obtain ⟨c, h1, h2, h3⟩ := jaxMap_two (F := drawLeaf draw) (t := s) (u := real') hk hst (R := fun p sh b (k : NArr V) => k = ⟨sh, draw b sh⟩)
      (fun a vs w hw => by
        unfold drawLeaf at hw
        split at hw
        · cases hw; exact ⟨_, rfl⟩
        · cases hw) (fun p sh b _ _ => ⟨_, rfl, rfl⟩)
    refine ⟨c, h1, keysOk_of_struct h2 (keysOk_norm' hs), h2, fun p sh hp => ?_⟩
    have : At (map (fun _ => ()) s.norm) p () := at_map.2 ⟨sh, at_norm.2 hp, rfl⟩
    rw [hst] at this
    obtain ⟨b, hb, -⟩ := at_map.1 this
    obtain ⟨k, hk1, rfl⟩ := h3 p sh b hp (at_norm.1 hb)
    exact ⟨b, hR p sh b hp (at_norm.1 hb), hk1⟩
  unfold freshConst
  simp only
  rcases h real rfl with ⟨b, rfl⟩ | ⟨hk, hst⟩
  · obtain ⟨c, h1, h2⟩ := main (map (fun _ => b) s.norm) ((keysOk_map _ _).2 (keysOk_norm' hs)) (by rw [Tree.norm_map, norm_norm hs, map_map])
      (fun p sh b' _ hb' => by
        obtain ⟨_, _, rfl⟩ := at_map.1 hb'
        exact .inr (.inl rfl))
    simp only
    rw [h1]
    exact ⟨c, _, rfl, h2⟩
  · cases real with
    | leaf b =>
      obtain ⟨c, h1, h2⟩ := main (map (fun _ => b) s.norm) ((keysOk_map _ _).2 (keysOk_norm' hs)) (by rw [Tree.norm_map, norm_norm hs, map_map])
        (fun p sh b' _ hb' => by
          obtain ⟨_, _, rfl⟩ := at_map.1 hb'
          exact .inr (.inl rfl))
      simp only
      rw [h1]
      exact ⟨c, _, rfl, h2⟩
    | none | list _ | tuple _ | dict _ =>
      obtain ⟨c, h1, h2⟩ := main _ hk hst (fun p sh b' _ hb' => .inr (.inr ⟨_, rfl, hb'⟩))
      simp only
      rw [h1]
      exact ⟨c, _, rfl, h2⟩

/-- **C87 (a random constant).** A trainable constant without value that was made with a shape is ready after `compile`: at every place of the shape it has an array of that shape, real or complex as
was asked for, and nowhere else. -/
theorem C87_const_fresh (isReal : NArr V → Bool) (draw : Bool → List Nat → List Nat → V) (s : Tree (List Nat)) (hs : KeysOk s) (real : Option (Tree Bool)) (hr : RealFits s real) :
    ∃ m, Const.init isReal Option.none true (some s) real = .ok m ∧ (m.compile draw).2 = Option.none ∧ (m.compile draw).1.outputShape = some s ∧
      ∃ c, (m.compile draw).1.value = some c ∧ map (fun _ => ()) c = map (fun _ => ()) s.norm ∧
        ∀ p sh, At s p sh → ∃ b, RealAt real p b ∧ At c p ⟨sh, draw b sh⟩ := by
  refine ⟨_, rfl, ?_⟩
  have hfit : RealFits s (some (real.getD (map (fun _ => true) s.norm))) := by
    intro t ht
    cases ht
    cases real with
    | none => exact .inr ⟨(keysOk_map _ _).2 (keysOk_norm' hs), by rw [Option.getD_none, Tree.norm_map, norm_norm hs, map_map]⟩
    | some t => exact hr t rfl
  obtain ⟨c, r, h1, h2, h3, h4⟩ := fresh_total draw s hs _ hfit
  unfold Const.compile
  simp only [Bool.not_true, Bool.false_eq_true, if_false, h1]
  refine ⟨trivial, rfl, c, rfl, h3, fun p sh hp => ?_⟩
  obtain ⟨b, hb, hc⟩ := h4 p sh hp
  refine ⟨b, ?_, hc⟩
  cases real with
  | some t => exact hb
  | none =>
    left
    refine ⟨rfl, ?_⟩
    rcases hb with ⟨h, -⟩ | h | ⟨t, ht, h⟩
    · cases h
    · simp only [Option.getD_none, Option.some.injEq] at h
      have : At (map (fun _ => true) s.norm) [] b := by rw [h]; exact .leaf _
      obtain ⟨_, _, rfl⟩ := at_map.1 this
      rfl
    · cases ht
      obtain ⟨_, _, rfl⟩ := at_map.1 h
      rfl

example : ∃ m : Const Int, Const.init (fun _ => true) Option.none true (some (.dict [("u".toList, .leaf [2]), ("v".toList, .leaf [])])) (some (.dict [("v".toList, .leaf false), ("u".toList, .leaf true)])) = .ok m ∧
    ∃ a b, (m.compile (fun r _ _ => if r then 1 else 2)).1.value = some (.dict [("u".toList, .leaf a), ("v".toList, .leaf b)]) ∧ a.val [0] = 1 ∧ b.val [] = 2 := ⟨_, rfl, _, _, rfl, rfl, rfl⟩
example : RealFits (.dict [("u".toList, .leaf [2]), ("v".toList, .leaf [])]) (some (.dict [("v".toList, .leaf false), ("u".toList, .leaf true)])) := by
  intro t ht
  cases ht
  exact .inr ⟨⟨by decide, trivial, trivial, trivial⟩, by decide +kernel⟩

/-- **C87 (a given constant is kept).** Compiling keeps a constant that is there. A constant that is frozen and has no value is refused, and so are a trainable one without shape and a real constant of complex
numbers. -/
theorem C87_const_kept (isReal : NArr V → Bool) (draw : Bool → List Nat → List Nat → V) (m : Const V) :
    (m.ready = true → m.compile draw = (m, Option.none)) ∧
    (m.ready = false → m.trainable = false → m.compile draw = (m, some .valueError)) ∧
    (∀ real, Const.init isReal Option.none true Option.none real = .error .valueError) ∧
    (∀ (c : Tree (NArr V)) tr sh p a, KeysOk c → At c p a → isReal a = false → ∃ e, Const.init isReal (some c) tr sh (some (.leaf true)) = .error e) := by
  refine ⟨fun h => ?_, fun h ht => ?_, fun _ => rfl, fun c tr sh p a hk hp ha => ?_⟩
  · unfold Const.compile
    cases hv : m.value with
    | none => simp [Const.ready, hv] at h
    | some c => rfl
  · unfold Const.compile
    cases hv : m.value with
    | some c => simp [Const.ready, hv] at h
    | none => simp [ht]
  · cases hi : Const.init isReal (some c) tr sh (some (.leaf true)) with
    | error e => exact ⟨e, rfl⟩
    | ok m' =>
      exfalso
      unfold Const.init at hi
      simp only at hi
      split at hi
      · cases hi
      · split at hi
        · cases hi
        · rename_i u hcheck
          unfold checkReal at hcheck
          split at hcheck
          · rename_i r hr
            obtain ⟨vs, w, h1, h2, h3, h4⟩ := jaxMap_at hr hp
            match vs, h1 with
            | [v], _ =>
              have hv := h2 0 _ v rfl rfl
              have hat : Sub (map (fun _ => true) c.norm) p (.leaf true) := sub_leaf.2 (at_map.2 ⟨a, at_norm.2 hp, rfl⟩)
              have : v = .leaf true := sub_unique ((keysOk_map _ _).2 (keysOk_norm' hk)) hv hat
              rw [this] at h3
              simp [truthy, ha] at h3
          · cases hcheck

example : ((Const.mk Option.none false Option.none Option.none : Const Int).compile (fun _ _ _ => 1)).2 = some .valueError := rfl

/-- **C87 (refuted).** A constant that is set with `set_hyperparameters`, as the documentation asks for, compiles and works, but declares no output shape. -/
theorem C87_const_hyper_refuted (isReal : NArr V → Bool) (draw : Bool → List Nat → List Nat → V) (c : Tree (NArr V)) :
    ∃ m, Const.init isReal Option.none false Option.none Option.none = .ok m ∧ ((m.setConstant c).compile draw).2 = Option.none ∧
      ((m.setConstant c).compile draw).1.outputShape = Option.none ∧
      ∀ (data : Tree (NArr W)) (x : NArr W) (xs : List (NArr W)) (b : Nat) (r : List Nat), jaxLeaves data = x :: xs → x.shape = b :: r →
        ∃ out, ((m.setConstant c).compile draw).1.call data = .ok out ∧ map (·.shape) out = map (fun a => b :: a.shape) c.norm := by
  refine ⟨_, rfl, rfl, rfl, fun data x xs b r hl hx => ⟨Tree.map (fun k : NArr V => ⟨b :: k.shape, fun i => k.val i.tail⟩) c.norm, ?_, ?_⟩⟩
  · show constantCall c data = _
    unfold constantCall
    rw [hl]
    simp only [hx]
  · rw [map_map]

/-- **C87 (refuted).** `set_params` of a constant takes any shape and leaves the declared shape as it was. -/
theorem C87_const_params_refuted (m : Const V) (c : Tree (NArr V)) (h : m.shape.map norm ≠ some (map (·.shape) c.norm)) :
    (m.setParams c).value = some c ∧ (m.setParams c).outputShape.map norm ≠ some (map (·.shape) c.norm) := ⟨rfl, h⟩

example : (Const.mk (some (.leaf ⟨[2], fun _ => 1⟩)) true (some (.leaf [2])) (some (.leaf true)) : Const Int).shape.map norm ≠ some (map (·.shape) (Tree.leaf (⟨[3], fun _ => 1⟩ : NArr Int)).norm) := by decide +kernel

end Verif.Props
