import Verif.Lemmas.NonSeqShape
import Verif.Lemmas.SamplewiseEin
import Verif.Props.Concat
import Verif.Props.Einsum
import Verif.Props.LeafModules

/-!
# C93: the modules compute sample by sample
-/

namespace Verif.Props
open Reshape Tree ForwardSpec NArr NdSpec Elementwise LeafModules Samplewise

variable {V W : Type}

/-- Three samples of two features, and the last two of them in reverse order. -/
def threeSamples : NArr Int := ⟨[3, 2], fun i => 10 * i.getD 0 0 + i.getD 1 0⟩
/-- The last two samples in reverse order. -/
def twoSamples : NArr Int := rows (2 - ·) 2 threeSamples
theorem reversed : Selection (2 - ·) 3 2 := ⟨by decide, by decide, fun i hi => by omega⟩
theorem picked : Picked (2 - ·) 3 2 threeSamples twoSamples := ⟨[2], rfl, rfl, fun _ _ _ _ => rfl⟩

example : twoSamples.entries = [20, 21, 10, 11] := by decide +kernel

/-- What it means for a batch: taking samples and computing gives the samples of the result. -/
theorem C93_rows {D : Tree (NArr V) → Prop} {call : Tree (NArr V) → Except PyErr (Tree (NArr W))} (h : SamplewiseOn D call) (f : Nat → Nat) (n m : Nat)
    (hs : Selection f n m) (d : Tree (NArr V)) (hD : D d) (hn : ∀ p x, At d p x → ∃ s, x.shape = n :: s) :
    Agree (Related (Picked f n m)) (call d) (call (map (rows f m) d)) := by
  refine h f n m hs d _ hD (related_self d fun x hx => ?_)
  obtain ⟨p, hp⟩ := mem_flat_at.1 hx
  obtain ⟨s, e⟩ := hn p x hp
  exact ⟨s, e, by unfold rows; rw [e]; rfl, fun i _ j _ => rfl⟩

/-! ### Activations, bias, rectifier -/

/-- **C93**, activations that are applied to every entry. -/
theorem C93_activation (g : V → W) : Samplewise fun d => .ok (activation (uop g) d) := by
  intro f n m hs d d' _ h
  exact map_related (Q := Picked f n m) (fun x y hxy => show Picked f n m (uop g x) (uop g y) from uop_leafwise g f n m hs x y trivial hxy) (norm_related h)

example : Agree (Related (Picked (2 - ·) 3 2)) (.ok (activation (uop (max 0)) (.list [.leaf threeSamples]))) (.ok (activation (uop (max 0)) (.list [.leaf twoSamples]))) :=
  C93_activation (max 0) _ _ _ reversed (.list [.leaf threeSamples]) (.list [.leaf twoSamples]) trivial ⟨.list [.leaf ⟨(threeSamples, twoSamples), picked⟩], rfl, rfl⟩

/-- A binary operation with a parameter that fits the samples. -/
theorem param_leaf {U : Type} {g : V → W → U} {f : Nat → Nat} {n m : Nat} (hs : Selection f n m) {x y : NArr V} (h : Picked f n m x y) {b : NArr W}
    (hb : b.shape = x.shape.tail ∨ b.shape = [1] ∨ b.shape = []) : Agree (Picked f n m) (bop g x b) (bop g y b) := by
  refine bop_leafwise g b f n m hs x y ?_ h
  obtain ⟨s, hx, -⟩ := h
  rw [hx] at hb ⊢
  rcases hb with hb | hb | hb
  · rw [hb]; exact .inl (by simp)
  · exact .inr hb
  · rw [hb]; exact .inl (by simp)

theorem addLeaf_related [Add V] {f : Nat → Nat} {n m : Nat} (hs : Selection f n m) {x y : NArr V} (h : Picked f n m x y) {b : NArr V}
    (hb : b.shape = x.shape.tail ∨ b.shape = [1] ∨ b.shape = []) : Agree (Related (Picked f n m)) (addLeaf x b) (addLeaf y b) := by
  unfold addLeaf
  rcases agree_cases (param_leaf (g := (· + ·)) hs h hb) with ⟨e, e1, e2⟩ | ⟨x, y, e1, e2, hq⟩
  · simp only [e1, e2]; rfl
  · simp only [e1, e2]; exact related_leaf hq

theorem preluLeaf_related [Zero V] [Mul V] [LE V] [DecidableLE V] {f : Nat → Nat} {n m : Nat} (hs : Selection f n m) {x y : NArr V} (h : Picked f n m x y)
    {b : NArr V} (hb : b.shape = x.shape.tail ∨ b.shape = [1] ∨ b.shape = []) : Agree (Related (Picked f n m)) (preluLeaf x b) (preluLeaf y b) := by
  unfold preluLeaf
  rcases agree_cases (param_leaf (g := fun x a => if 0 ≤ x then x else a * x) hs h hb) with ⟨e, e1, e2⟩ | ⟨x, y, e1, e2, hq⟩
  · simp only [e1, e2]; rfl
  · simp only [e1, e2]; exact related_leaf hq

/-- **C93**, `Bias` with one array: on data for whose shapes it compiles. -/
theorem C93_bias_array [Add V] (b : NArr V) :
    SamplewiseOn (fun d => biasCheck (.arr b) (map (fun x => x.shape.tail) d) = .ok ()) (biasCall (.arr b)) := by
  intro f n m hs d d' hD h
  unfold biasCall
  refine jaxMap_related_at h fun q x y vs hx hR _ _ => addLeaf_related hs hR ?_
  unfold biasCheck at hD
  simp only at hD
  split at hD
  · exact .inr ‹_›
  · split at hD
    · cases hD
    · rename_i hany
      left
      have hm : some x.shape.tail ∈ treeFlattenShape (map (fun x : NArr V => x.shape.tail) d) := by
        unfold treeFlattenShape
        apply mem_shapeLeaves
        rw [mem_flat_at]
        exact ⟨q, at_norm.2 (at_map.2 ⟨x, hx, rfl⟩)⟩
      by_contra hc
      exact hany (List.any_eq_true.2 ⟨_, hm, by simpa using fun e => hc (Eq.symm e)⟩)

/-- A bias for two features. -/
def twoBias : NArr Int := ⟨[2], fun i => 100 * (i.getD 0 0 + 1)⟩

example : biasCheck (.arr twoBias) (map (fun x => x.shape.tail) (.leaf threeSamples)) = .ok () := by decide +kernel
example : ∃ x y : NArr Int, biasCall (.arr twoBias) (.leaf threeSamples) = .ok (.leaf x) ∧ biasCall (.arr twoBias) (.leaf twoSamples) = .ok (.leaf y) ∧
    x.entries = [100, 201, 110, 211, 120, 221] ∧ y.entries = [120, 221, 110, 211] := ⟨_, _, rfl, rfl, by decide +kernel, by decide +kernel⟩

/-- C93 fails for a `Bias` on data of another shape than it was compiled for: three numbers added to three samples of one feature each differ from sample to sample, so the first
sample alone cannot be processed the same way. Nothing in the call compares the shapes. -/
theorem C93_bias_unchecked_refuted : ¬ Samplewise (biasCall (.arr (⟨[3], fun i => i.getD 0 0⟩ : NArr Int))) := by
  intro h
  have := h (2 - ·) 3 3 ⟨by decide, by decide, fun i _ => by omega⟩ (.leaf ⟨[3], fun _ => 0⟩) (.leaf ⟨[3], fun _ => 0⟩) trivial
    (related_leaf ⟨[], rfl, rfl, fun _ _ _ _ => rfl⟩)
  obtain ⟨b, hb, s, h1, h2, hv⟩ := related_leaf_inv (a := (⟨[3], fun i => (0 : Int) + ((bidx [3] i).getD 0 0 : Nat)⟩ : NArr Int)) this
  cases hb
  cases h1
  have := hv 0 (by decide) [] ⟨rfl, fun q d e hd => by simp at hd⟩
  revert this
  decide

/-- **C93**, `Bias` with a tree of arrays. -/
theorem C93_bias_tree [Add V] (t : Tree (NArr V)) (hk : KeysOk t) :
    SamplewiseOn (fun d => KeysOk d ∧ biasCheck (.tree t) (map (fun x => x.shape.tail) d) = .ok ()) (biasCall (.tree t)) := by
  rintro f n m hs d d' ⟨hkd, hD⟩ h
  unfold biasCall
  refine jaxMap_related_at h fun q x y vs hx hR hl hsub => ?_
  match vs, hl with
  | [v], _ =>
    have hv := hsub 0 t v rfl rfl
    cases v with
    | leaf b =>
      refine addLeaf_related hs hR (.inl ?_)
      have hb : At t q b := sub_leaf.1 hv
      unfold biasCheck at hD
      simp only at hD
      split at hD
      · rename_i r hr
        obtain ⟨us, w, h1, h2, h3, -⟩ := jaxMap_at hr hb
        match us, h1 with
        | [u], _ =>
          have hu := h2 0 _ u rfl rfl
          have := sub_unique ((keysOk_map _ _).2 hkd) hu (sub_leaf.2 (at_map.2 ⟨x, hx, rfl⟩))
          subst this
          simp only at h3
          split at h3
          · assumption
          · cases h3
      · cases hD
    | none => rfl
    | list _ => rfl
    | tuple _ => rfl
    | dict _ => rfl

example : KeysOk (.dict [("u".toList, .leaf twoBias)]) ∧ KeysOk (.dict [("u".toList, .leaf threeSamples)]) ∧
    biasCheck (.tree (.dict [("u".toList, .leaf twoBias)])) (map (fun x => x.shape.tail) (.dict [("u".toList, .leaf threeSamples)])) = .ok () :=
  ⟨by simp [KeysOk, KeysOkD], by simp [KeysOk, KeysOkD], by decide +kernel⟩

/-- **C93**, `PReLU`: with slopes that the module takes for the shapes of the data. -/
theorem C93_prelu [Zero V] [Mul V] [LE V] [DecidableLE V] (m : PReLU V) (p : Tree (NArr V)) (hp : m.a = some p) (hk : KeysOk p) :
    SamplewiseOn (fun d => KeysOk d ∧ PReLU.check m.single (map (fun x => x.shape.tail) d) p = .ok ()) m.call := by
  rintro f n l hs d d' ⟨hkd, hD⟩ h
  have hfit := check_fit hD
  unfold PReLU.call
  rw [hp]
  unfold SlopesFit at hfit
  cases hm : m.single with
  | true =>
    rw [hm] at hfit
    simp only [if_true] at hfit ⊢
    obtain ⟨a, ha, hsh⟩ := hfit
    rw [ha]
    simp only
    refine jaxMap_related_at h fun q x y vs hx hR _ _ => preluLeaf_related hs hR (.inr (.inr ?_))
    show a.shape.filter (· ≠ 1) = []
    rw [hsh]
    rfl
  | false =>
    rw [hm] at hfit
    simp only [Bool.false_eq_true, if_false] at hfit ⊢
    unfold preluCall
    refine jaxMap_related_at h fun q x y vs hx hR hl hsub => ?_
    match vs, hl with
    | [v], _ =>
      have hv := hsub 0 p v rfl rfl
      cases v with
      | leaf b =>
        refine preluLeaf_related hs hR (.inl ?_)
        have hb : At p q b := sub_leaf.1 hv
        have h1 : At (map (·.shape) p.norm) q b.shape := at_map.2 ⟨b, at_norm.2 hb, rfl⟩
        rw [hfit] at h1
        exact at_unique ((keysOk_map _ _).2 hkd) (at_norm.1 h1) (at_map.2 ⟨x, hx, rfl⟩)
      | none => rfl
      | list _ => rfl
      | tuple _ => rfl
      | dict _ => rfl

example : PReLU.check false (map (fun x => x.shape.tail) (.leaf threeSamples)) (.leaf twoBias) = .ok () := by decide +kernel
example : PReLU.check true (map (fun x => x.shape.tail) (.leaf threeSamples)) (.tuple [.leaf (⟨[1], fun _ => 3⟩ : NArr Int)]) = .ok () := by decide +kernel

/-! ### Reshaping, constants, leaves -/

/-- **C93**, `Reshape` and `Flatten`. -/
theorem C93_reshape (t : Option Target) : Samplewise (callable (V := V) t) := by
  intro f n m hs d d' _ h
  unfold callable
  cases t with
  | none => exact h
  | some t =>
    refine jaxMap_related (fun x y us hR => ?_) h [t]
    match us with
    | [] => rfl
    | _ :: _ :: _ => rfl
    | [u] =>
      simp only
      rcases agree_cases (reshapeArray_leafwise u f n m hs x y trivial hR) with ⟨e, e1, e2⟩ | ⟨x, y, e1, e2, hq⟩
      · simp only at e1 e2
        rw [e1, e2]; rfl
      · simp only at e1 e2
        rw [e1, e2]; exact related_leaf hq

example : ∃ x y : NArr Int, callable (some (.leaf (some [-1, 1]))) (.leaf threeSamples) = .ok (.leaf x) ∧ callable (some (.leaf (some [-1, 1]))) (.leaf twoSamples) = .ok (.leaf y) ∧
    x.shape = [3, 2, 1] ∧ y.shape = [2, 2, 1] ∧ y.entries = [20, 21, 10, 11] := ⟨_, _, rfl, rfl, by decide +kernel, by decide +kernel, by decide +kernel⟩

/-- **C93**, `Constant`. -/
theorem C93_constant (c : Tree (NArr W)) : Samplewise (constantCall (V := V) c) := by
  intro f n m hs d d' _ h
  have hl := leaves_related h
  unfold constantCall
  cases hd : jaxLeaves d with
  | nil =>
    rw [hd, List.forall₂_nil_left_iff] at hl
    rw [hl]
    rfl
  | cons x xs =>
    rw [hd] at hl
    cases hd' : jaxLeaves d' with
    | nil => rw [hd'] at hl; cases hl
    | cons y ys =>
      rw [hd'] at hl
      cases hl with
      | cons hxy _ =>
        obtain ⟨s, hx, hy, -⟩ := hxy
        simp only [hx, hy]
        exact map_related_self (fun k => ⟨k.shape, rfl, rfl, fun i _ j _ => rfl⟩) _

example : ∃ y : NArr Int, constantCall (.leaf twoBias) (.leaf twoSamples) = .ok (.leaf y) ∧ y.entries = [100, 200, 100, 200] := ⟨_, rfl, by decide +kernel⟩

/-- **C93**, `TreeFlatten`. -/
theorem C93_treeflatten : Samplewise fun d : Tree (NArr V) => .ok (treeFlatten d) := by
  intro f n m hs d d' _ h
  exact leaf_forall₂ (leaves_related h)

example : ∃ y : NArr Int, treeFlatten (.dict [("u".toList, .leaf twoSamples)]) = .list [.leaf y] ∧ y.entries = [20, 21, 10, 11] := ⟨_, rfl, by decide +kernel⟩

/-- **C93**, `TreeKey`. -/
theorem C93_treekey (keypaths : Option (Tree (List Str))) : Samplewise (treeKey (β := NArr V) (fun _ => false) keypaths) := by
  intro f n m hs d d' _ h
  unfold treeKey
  cases keypaths with
  | none => exact h
  | some ks =>
    refine mapM_related (R := Eq) ?_ ⟨Tree.map (fun a => ⟨(a, a), rfl⟩) ks.norm, ?_, ?_⟩
    · rintro p _ rfl
      obtain ⟨z, rfl, rfl⟩ := h
      rw [Forward.getPath_map, Forward.getPath_map]
      cases getPath (fun _ => false) true z p with
      | error e => rfl
      | ok r => exact ⟨r.1, rfl, rfl⟩
    · rw [Tree.map_map]; exact (Tree.map_id _).symm
    · rw [Tree.map_map]; exact (Tree.map_id _).symm

example : ∃ y : NArr Int, treeKey (fun _ => false) (some (.leaf ["u".toList])) (.dict [("u".toList, .leaf twoSamples)]) = .ok (.leaf y) ∧ y.entries = [20, 21, 10, 11] :=
  ⟨_, rfl, by decide +kernel⟩

/-! ### Concatenation -/

/-- The axis is not the axis of the samples of `x`: no axis given (the last of the flattened samples), an axis of the samples counted from the front, or one counted from the back. -/
def AxisOfSample (axis : Option Int) (x : NArr V) : Prop :=
  match axis with
  | Option.none => True
  | some a => 0 ≤ a ∨ (a < -1 ∧ a + 1 + x.shape.length ≠ 0)

/-- **C93**, `ConcatenateLeaves` along an axis of the samples. -/
theorem C93_concatenate [Inhabited V] (axis : Option Int) (paths : Option (List (List Str))) :
    SamplewiseOn (fun d : Tree (NArr V) => ∀ p x, At d p x → AxisOfSample axis x) fun d => (concatLeaves axis paths d).map .leaf := by
  intro f n m hs d d' hD h
  have key : Agree (Picked f n m) (concatLeaves axis paths d) (concatLeaves axis paths d') := by
    unfold concatLeaves
    rcases agree_cases (selectLeaves_related paths h) with ⟨e, e1, e2⟩ | ⟨xs, ys, e1, e2, hq⟩
    · rw [e1, e2]; rfl
    · rw [e1, e2]
      cases axis with
      | none =>
        simp only
        rcases agree_cases (Samplewise.mapM_forall₂ (F := flat2) (G := flat2) (fun x y hxy => flat2_leafwise f n m hs x y trivial hxy) hq) with ⟨e, e3, e4⟩ | ⟨as, bs, e3, e4, hr⟩
        · rw [e3, e4]; rfl
        · rw [e3, e4]
          refine concat_related hr (-1) fun x hx => ?_
          have hlen : x.shape.length = 2 := by
            obtain ⟨a, -, h1⟩ := mem_mapM_ok e3 x hx
            unfold flat2 npReshape at h1
            split at h1
            · cases h1
            · split at h1
              · cases h1
              · next r hr =>
                cases h1
                exact (resolve_spec hr).1.length_eq.symm
          rw [if_pos (by decide), hlen]
          decide
      | some a =>
        simp only
        refine concat_related hq (a + 1) fun x hx => ?_
        have hat : ∃ p, At d p x := by
          unfold selectLeaves at e1
          cases paths with
          | none =>
            cases e1
            obtain ⟨p, hp⟩ := mem_flat_at.1 hx
            exact ⟨p, at_norm.1 hp⟩
          | some ps =>
            obtain ⟨q, -, hq⟩ := mem_mapM_ok e1 x hx
            cases hg : Tree.get d q with
            | error e => rw [hg] at hq; cases hq
            | ok r =>
              rw [hg] at hq
              cases r with
              | leaf b => cases hq; exact get_leaf_at hg (.leaf _)
              | _ => cases hq
        obtain ⟨p, hp⟩ := hat
        rcases hD p x hp with h0 | ⟨h1, h2⟩
        · rw [if_neg (by omega)]; omega
        · rw [if_pos (by omega)]; exact h2
  rcases agree_cases key with ⟨e, e1, e2⟩ | ⟨x, y, e1, e2, hq⟩
  · simp only [e1, e2]; rfl
  · simp only [e1, e2]; exact related_leaf hq

example : AxisOfSample (some 0) threeSamples ∧ AxisOfSample (some (-2)) threeSamples := ⟨.inl (by decide), .inr ⟨by decide, by decide⟩⟩
example : ∃ y : NArr Int, concatLeaves (some 0) Option.none (.list [.leaf twoSamples, .leaf twoSamples]) = .ok y ∧ y.entries = [20, 21, 20, 21, 10, 11, 10, 11] :=
  ⟨_, rfl, by decide +kernel⟩

/-- C93 fails for `ConcatenateLeaves(axis=-1)`: the samples are put one behind the other. -/
theorem C93_concatenate_refuted : ¬ Samplewise fun d : Tree (NArr Int) => (concatLeaves (some (-1)) Option.none d).map .leaf := by
  intro h
  have := h id 2 2 ⟨by decide, by decide, fun i hi => hi⟩ (.list [.leaf ⟨[2], fun _ => 0⟩, .leaf ⟨[2], fun _ => 0⟩]) (.list [.leaf ⟨[2], fun _ => 0⟩, .leaf ⟨[2], fun _ => 0⟩]) trivial
    ⟨.list [.leaf ⟨(_, _), ⟨[], rfl, rfl, fun _ _ _ _ => rfl⟩⟩, .leaf ⟨(_, _), ⟨[], rfl, rfl, fun _ _ _ _ => rfl⟩⟩], rfl, rfl⟩
  obtain ⟨b, hb, s, h1, h2, hv⟩ := related_leaf_inv (a := (⟨[4], fun i => (catVal 0 [⟨[2], fun _ => (0 : Int)⟩, ⟨[2], fun _ => 0⟩] i).getD default⟩ : NArr Int)) this
  cases h1

/-- C93 fails for the whole-array activations: the largest entry of a batch depends on all its samples. -/
theorem C93_amax_refuted : ¬ Samplewise fun d : Tree (NArr Int) => .ok (activation amax d) := by
  intro h
  have := h id 2 2 ⟨by decide, by decide, fun i hi => hi⟩ (.leaf ⟨[2], fun i => i.getD 0 0⟩) (.leaf ⟨[2], fun i => i.getD 0 0⟩) trivial
    (related_leaf ⟨[], rfl, rfl, fun _ _ _ _ => rfl⟩)
  obtain ⟨b, hb, s, h1, -⟩ := related_leaf_inv this
  cases h1

example : (amax (⟨[2], fun i => i.getD 0 0⟩ : NArr Int)).val [] = 1 ∧ (amax (rows id 1 (⟨[2], fun i => i.getD 0 0⟩ : NArr Int))).val [] = 0 := by decide +kernel

/-! ### Contractions -/

/-- **C93**, `AffineTensor`. -/
theorem C93_tensor [Semiring V] (bias : Bool) (Ms : NArr V) : Samplewise (AffineTensor.call bias Ms) := by
  intro f n m hs d d' _ h
  exact mapLeaves_related (tensor_leafwise bias Ms) hs (fun _ _ _ => trivial) h

example : ∃ y : NArr Int, AffineTensor.call true (⟨[3, 1], fun i => i.getD 0 0⟩ : NArr Int) (.leaf twoSamples) = .ok (.leaf y) ∧ y.entries = [62, 32] :=
  ⟨_, rfl, by decide +kernel⟩

/-- **C93**, `Einsum` (and `MatMul`, which is one): compiled for the shapes of the data. -/
theorem C93_einsum [CommSemiring V] {spec : Tree Str} {shapes : Tree (List Nat)} {ls is : List Str} {out : Str} (hc : Concretises spec shapes ls is out) (hne : is ≠ [])
    {g : Char → Nat} (hsh : jaxLeaves shapes = is.map fun s => s.map g) {p : Einsum.Params V} (hp : p.arrays.map NArr.shape = ls.map fun s => s.map g)
    (hempty : p.absent = false → ls ≠ []) (hout : out.Nodup) (hsub : ∀ c ∈ out, c ∈ (ls ++ is).flatten) :
    SamplewiseOn (fun d => (jaxLeaves d).map (fun x => x.shape.tail) = jaxLeaves shapes) fun d => (Einsum.call spec p shapes d).map .leaf := by
  intro f n m hs d d' hD h
  have hl := leaves_related h
  have shp : ∀ {xs ys : List (NArr V)}, List.Forall₂ (Picked f n m) xs ys → xs.map NArr.shape = (xs.map fun x => x.shape.tail).map (n :: ·) ∧
      ys.map NArr.shape = (xs.map fun x => x.shape.tail).map (m :: ·) := by
    intro xs ys h
    induction h with
    | nil => exact ⟨rfl, rfl⟩
    | cons hxy _ ih =>
      obtain ⟨s, hx, hy, -⟩ := hxy
      simp only [List.map_cons, hx, hy, List.tail_cons, ih.1, ih.2, and_self]
  obtain ⟨h1, h2⟩ := shp hl
  rw [hD] at h1 h2
  obtain ⟨x, e1, hx, hxv⟩ := C62_call hc hne hsh hp hempty hout hsub h1
  obtain ⟨y, e2, hy, hyv⟩ := C62_call hc hne hsh hp hempty hout hsub h2
  simp only [e1, e2]
  refine related_leaf ⟨_, hx, hy, fun i hi j hj => ?_⟩
  have hlen : j.length = out.length := by have := hj.1; simpa using this
  rw [hyv i j hlen, hxv (f i) j hlen]
  refine entry_congr (List.rel_append (List.forall₂_same.2 fun _ _ => ⟨rfl, fun _ _ => rfl⟩) ?_) hj
  rw [← hD] at hsh
  clear hD h1 h2 e1 e2 hx hy hxv hyv h hc hne hsub
  generalize jaxLeaves d = xs, jaxLeaves d' = ys at hl hsh
  induction hl generalizing is with
  | nil => simp
  | cons hxy _ ih =>
    cases is with
    | nil => simp
    | cons s is =>
      obtain ⟨s', hx, hy, hv⟩ := hxy
      simp only [List.map_cons, List.cons.injEq] at hsh
      simp only [List.map_cons, List.zip_cons_cons]
      refine .cons ⟨rfl, fun q hq => hv i hi q ?_⟩ (ih hsh.2)
      rw [← hsh.1, hx] at hq
      exact hq

/-- The matrix `x` times the vector `y`, for two matrices and two vectors and the same in reverse order. -/
example (x y : NArr Int) (hx : x.shape = [2, 2, 3]) (hy : y.shape = [2, 3]) : ∃ u v : NArr Int,
    Einsum.call (.dict [("y".toList, .leaf "b".toList), ("x".toList, .leaf "ab".toList)]) .none (.dict [("y".toList, .leaf [3]), ("x".toList, .leaf [2, 3])])
      (.dict [("y".toList, .leaf y), ("x".toList, .leaf x)]) = .ok u ∧
    Einsum.call (.dict [("y".toList, .leaf "b".toList), ("x".toList, .leaf "ab".toList)]) .none (.dict [("y".toList, .leaf [3]), ("x".toList, .leaf [2, 3])])
      (.dict [("y".toList, .leaf (rows (1 - ·) 2 y)), ("x".toList, .leaf (rows (1 - ·) 2 x))]) = .ok v ∧ Picked (1 - ·) 2 2 u v := by
  have e : ∀ a b : NArr Int, jaxLeaves (.dict [("y".toList, .leaf a), ("x".toList, .leaf b)]) = [b, a] := fun a b => rfl
  have hs : Selection (1 - ·) 2 2 := ⟨by decide, by decide, fun i hi => by omega⟩
  have px : Picked (1 - ·) 2 2 x (rows (1 - ·) 2 x) := ⟨[2, 3], hx, by simp [rows, hx], fun _ _ _ _ => rfl⟩
  have py : Picked (1 - ·) 2 2 y (rows (1 - ·) 2 y) := ⟨[3], hy, by simp [rows, hy], fun _ _ _ _ => rfl⟩
  have := C93_einsum concretises_demo (by simp) (V := Int) (g := fun c => if c = 'a' then 2 else 3) (by decide +kernel) (p := .none) rfl (by simp [Einsum.Params.absent])
    (by decide +kernel) (by decide +kernel) (1 - ·) 2 2 hs (.dict [("y".toList, .leaf y), ("x".toList, .leaf x)])
    (.dict [("y".toList, .leaf (rows (1 - ·) 2 y)), ("x".toList, .leaf (rows (1 - ·) 2 x))]) (by beta_reduce; rw [e]; simp [hx, hy]; rfl)
    ⟨.dict [("y".toList, .leaf ⟨(y, _), py⟩), ("x".toList, .leaf ⟨(x, _), px⟩)], rfl, rfl⟩
  obtain ⟨u, h1, -⟩ := C62_call (K := Int) concretises_demo (by simp) (f := fun c => if c = 'a' then 2 else 3) (by decide +kernel) (p := .none) rfl (by simp [Einsum.Params.absent])
    (by decide +kernel) (by decide +kernel) (B := 2) (data := .dict [("y".toList, .leaf y), ("x".toList, .leaf x)]) (by rw [e]; simp [hx, hy]; rfl)
  obtain ⟨v, h2, -⟩ := C62_call (K := Int) concretises_demo (by simp) (f := fun c => if c = 'a' then 2 else 3) (by decide +kernel) (p := .none) rfl (by simp [Einsum.Params.absent])
    (by decide +kernel) (by decide +kernel) (B := 2) (data := .dict [("y".toList, .leaf (rows (1 - ·) 2 y)), ("x".toList, .leaf (rows (1 - ·) 2 x))])
    (by rw [e]; simp [rows, hx, hy]; rfl)
  refine ⟨u, v, h1, h2, ?_⟩
  beta_reduce at this
  rw [h1, h2] at this
  obtain ⟨t, ht1, ht2⟩ := this
  cases t with
  | leaf q => cases ht1; cases ht2; exact q.2
  | _ => cases ht1

end Verif.Props
