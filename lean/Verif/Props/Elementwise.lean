import Verif.Model.Elementwise
import Verif.Props.TreeKey
import Mathlib.Algebra.Order.Ring.Nat
import Mathlib.Algebra.Order.Ring.Int

/-!
# C64, C69: bias, activation functions and constants
-/

namespace Verif.Props
open Reshape ReshapeSpec Tree ForwardSpec NArr NdSpec Elementwise

variable {V W : Type}

/-- The entry of a bias of shape `bs` that belongs to feature `i`: all features share one number if the bias has shape `(1,)` or `()`. -/
def featureOf (bs i : List Nat) : List Nat := if bs = [1] then [0] else if bs = [] then [] else i

theorem bleR_append (s : List Nat) (t : List Nat) : BLeR s (s ++ t) := by
  induction s with
  | nil => trivial
  | cons a s ih => exact ⟨.inl rfl, ih⟩

theorem feature_bop {U : Type} (f : V → W → U) (x : NArr V) (b : NArr W) {n : Nat} {s : List Nat} (hx : x.shape = n :: s)
    (hb : b.shape = s ∨ b.shape = [1] ∨ b.shape = []) :
    ∃ y, bop f x b = .ok y ∧ y.shape = x.shape ∧ ∀ k i, InB x.shape (k :: i) → y.val (k :: i) = f (x.val (k :: i)) (b.val (featureOf b.shape i)) := by
  have hle : BLe b.shape x.shape := by
    unfold BLe
    rw [hx]
    rcases hb with h | h | h
    · rw [h, List.reverse_cons]; exact bleR_append _ _
    · rw [h]
      cases e : (n :: s).reverse with
      | nil => simp at e
      | cons d r => exact ⟨.inr rfl, trivial⟩
    · rw [h]; trivial
  unfold bop
  rw [bshape_of_le hle]
  refine ⟨_, rfl, rfl, fun k i hi => ?_⟩
  simp only
  rw [bidx_self hi]
  congr 2
  rw [hx] at hi
  have hlen : i.length = s.length := by have := hi.1; simpa using this
  unfold featureOf
  rcases hb with h | h | h
  · by_cases h1 : b.shape = [1]
    · rw [if_pos h1, h1]
      rw [h1] at h
      subst h
      unfold bidx
      rw [List.length_cons, hlen]
      match i, hlen with
      | [j], _ => rfl
    · rw [if_neg h1]
      by_cases h2 : b.shape = []
      · rw [if_pos h2, h2]; rfl
      · rw [if_neg h2, h]
        have : InB s i := (inB_cons.1 hi).2
        have e : bidx s (k :: i) = bidx s i := by
          unfold bidx
          rw [List.length_cons, hlen, Nat.sub_self, List.drop_zero, Nat.add_sub_cancel_left]
          rfl
        rw [e, bidx_self this]
  · rw [if_pos h, h]
    unfold bidx
    have : ((k :: i).drop ((k :: i).length - [1].length)).length = 1 := by simp
    generalize (k :: i).drop ((k :: i).length - [1].length) = l at this
    match l, this with
    | [j], _ => rfl
  · rw [h]; rfl

mutual
theorem mem_shapeLeaves : ∀ (t : Tree (List Nat)) (a : List Nat), a ∈ flat t → some a ∈ shapeLeaves t
  | .leaf b, a, h => by simp only [flat, List.mem_singleton] at h; subst h; simp [shapeLeaves]
  | .none, a, h => by simp [flat] at h
  | .list ts, a, h => mem_shapeLeavesL ts a (by simpa [flat] using h)
  | .tuple [], a, h => by simp [flat, flatL] at h
  | .tuple (t :: ts), a, h => mem_shapeLeavesL (t :: ts) a (by simpa [flat] using h)
  | .dict ts, a, h => mem_shapeLeavesD ts a (by simpa [flat] using h)
theorem mem_shapeLeavesL : ∀ (ts : List (Tree (List Nat))) (a : List Nat), a ∈ flatL ts → some a ∈ shapeLeavesL ts
  | [], a, h => by simp [flatL] at h
  | t :: ts, a, h => by
    rw [flatL, List.mem_append] at h
    rw [shapeLeavesL, List.mem_append]
    exact h.imp (mem_shapeLeaves t a) (mem_shapeLeavesL ts a)
theorem mem_shapeLeavesD : ∀ (ts : List (Str × Tree (List Nat))) (a : List Nat), a ∈ flatD ts → some a ∈ shapeLeavesD ts
  | [], a, h => by simp [flatD] at h
  | (k, t) :: ts, a, h => by
    rw [flatD, List.mem_append] at h
    rw [shapeLeavesD, List.mem_append]
    exact h.imp (mem_shapeLeaves t a) (mem_shapeLeavesD ts a)
end

/-- A leafwise map with a total function on the leaves. -/
theorem jaxMap_one {α β : Type} {f : α → Except PyErr (Tree β)} {t : Tree α} {R : List ForwardSpec.Step → α → β → Prop}
    (hf : ∀ p a, At t p a → ∃ b, f a = .ok (.leaf b) ∧ R p a b) :
    ∃ r, jaxMap (fun a _ => f a) t ([] : List (Tree α)) = .ok r ∧ map (fun _ => ()) r = map (fun _ => ()) t.norm ∧
      ∀ p a, At t p a → ∃ b, At r p b ∧ R p a b := by
  obtain ⟨r, hr⟩ := jaxMap_total (f := fun a (_ : List (Tree α)) => f a) (t := t) (us := []) (fun u hu => by cases hu)
    (fun p a bs ha _ => (hf p a ha).elim fun b hb => ⟨_, hb.1⟩)
  have hf' : ∀ p a, At t p a → ∃ b, At r p b ∧ R p a b := fun p a ha => by
    obtain ⟨vs, w, -, -, h3, h4⟩ := jaxMap_at hr ha
    obtain ⟨b, hb, hR⟩ := hf p a ha
    rw [hb] at h3
    cases h3
    exact ⟨b, sub_leaf.1 h4, hR⟩
  refine ⟨r, hr, ?_, hf'⟩
  unfold jaxMap at hr
  simp only [zipAll] at hr
  have hleaf : ∀ t' : Tree (α × List (Tree α)), (∀ x ∈ flat t', ∃ b, f x.1 = .ok (.leaf b)) → ∀ {r'}, mapM (fun x => f x.1) t' = .ok r' →
      map (fun _ => ()) r' = map (fun _ => ()) t' := by
    intro t' ht' r' h'
    classical
    let g : α × List (Tree α) → Except PyErr (Tree β) := fun x => match f x.1 with
      | .ok (.leaf b) => .ok (.leaf b)
      | _ => .error .typeError
    have hg : mapM g t' = .ok r' := by
      rw [← h']
      refine mapM_congr _ _ _ fun x hx => ?_
      obtain ⟨b, hb⟩ := ht' x hx
      simp only [g, hb]
    obtain ⟨z, h1, h2, -⟩ := mapM_graph (f := g) (fun a w hw => by
      simp only [g] at hw
      split at hw
      · cases hw; exact ⟨_, rfl⟩
      · cases hw) t' hg
    rw [← h1, ← h2, map_map, map_map]
  have := hleaf _ (fun x hx => by
    obtain ⟨p, hp⟩ := mem_flat_at.1 hx
    obtain ⟨a, ha, rfl⟩ := at_map.1 hp
    obtain ⟨b, hb, -⟩ := hf p a (at_norm.1 ha)
    exact ⟨b, hb⟩) hr
  rw [this, map_map]

/-- A leafwise map over data and parameters of the same structure. -/
theorem jaxMap_two {α β γ : Type} {F : α → List (Tree β) → Except PyErr (Tree γ)} {t : Tree α} {u : Tree β} (hu : KeysOk u)
    (hs : map (fun _ => ()) t.norm = map (fun _ => ()) u.norm) {R : List ForwardSpec.Step → α → β → γ → Prop}
    (hleaf : ∀ a vs w, F a vs = .ok w → ∃ c, w = .leaf c)
    (hf : ∀ p a b, At t p a → At u p b → ∃ c, F a [.leaf b] = .ok (.leaf c) ∧ R p a b c) :
    ∃ r, jaxMap F t [u] = .ok r ∧
      map (fun _ => ()) r = map (fun _ => ()) t.norm ∧ ∀ p a b, At t p a → At u p b → ∃ c, At r p c ∧ R p a b c := by
  obtain ⟨r, hr⟩ := jaxMap_total (f := F) (t := t) (us := [u])
    (fun v hv => by
      cases hv with
      | head => exact ⟨hu, hs⟩
      | tail _ h => cases h)
    (fun p a bs ha hbs => by
      cases hbs with
      | cons h1 h2 =>
        cases h2
        obtain ⟨c, hc, -⟩ := hf p a _ ha h1
        exact ⟨_, hc⟩)
  refine ⟨r, hr, jaxMap_struct hleaf hr, fun p a b ha hb => ?_⟩
  · obtain ⟨vs, w, h1, h2, h3, h4⟩ := jaxMap_at hr ha
    match vs, h1 with
    | [v], _ =>
      have hv := h2 0 u v rfl rfl
      have := sub_unique hu hv (sub_leaf.2 hb)
      subst this
      obtain ⟨c, hc, hR⟩ := hf p a b ha hb
      rw [hc] at h3
      cases h3
      exact ⟨c, sub_leaf.1 h4, hR⟩

/-- **C64 (one bias array).** If the bias passes `compile` for the shapes of the data, then adding it succeeds, keeps the structure and all shapes, and adds to
every sample the same numbers: to feature `i` of every sample the entry `i` of the bias (or its only entry). -/
theorem C64_bias_array [Add V] (b : NArr V) (data : Tree (NArr V)) (hbatch : ∀ p x, At data p x → x.shape ≠ [])
    (h : biasCheck (.arr b) (map (fun x => x.shape.tail) data) = .ok ()) :
    ∃ out, biasCall (.arr b) data = .ok out ∧ map (fun _ => ()) out = map (fun _ => ()) data.norm ∧
      ∀ p x, At data p x → ∃ y, At out p y ∧ y.shape = x.shape ∧
        ∀ k i, InB x.shape (k :: i) → y.val (k :: i) = x.val (k :: i) + b.val (featureOf b.shape i) := by
  unfold biasCall
  refine jaxMap_one (f := fun x => addLeaf x b) (R := fun _ x y => y.shape = x.shape ∧
      ∀ k i, InB x.shape (k :: i) → y.val (k :: i) = x.val (k :: i) + b.val (featureOf b.shape i)) fun p x hx => ?_
  obtain ⟨n, s, hs⟩ := List.exists_cons_of_ne_nil (hbatch p x hx)
  have hb : b.shape = s ∨ b.shape = [1] ∨ b.shape = [] := by
    unfold biasCheck at h
    simp only at h
    split at h
    · exact .inr ‹_›
    · split at h
      · cases h
      · rename_i hany
        left
        have hm : some s ∈ treeFlattenShape (map (fun x : NArr V => x.shape.tail) data) := by
          unfold treeFlattenShape
          apply mem_shapeLeaves
          rw [mem_flat_at]
          exact ⟨p, at_norm.2 (at_map.2 ⟨x, hx, by rw [hs]; rfl⟩)⟩
        have := fun hne => hany (List.any_eq_true.2 ⟨_, hm, by simpa using hne⟩)
        by_contra hc
        exact this fun e => hc e.symm
  obtain ⟨y, h1, h2, h3⟩ := feature_bop (· + ·) x b hs hb
  refine ⟨y, ?_, h2, h3⟩
  unfold addLeaf
  rw [h1]

/-- A bias for the features of one array of three features. -/
def demoBias : NArr Int := ⟨[3], fun i => 10 * i.getD 0 0⟩

example : biasCheck (.arr demoBias) (map (fun x => x.shape.tail) (.list [.leaf (⟨[2, 3], fun i => i.getD 1 0⟩ : NArr Int)])) = .ok () := by decide +kernel
example : ∃ y : NArr Int, biasCall (.arr demoBias) (.leaf ⟨[2, 3], fun i => i.getD 0 0⟩) = .ok (.leaf y) ∧ y.shape = [2, 3] ∧ y.val [1, 2] = 21 :=
  ⟨_, rfl, by decide, by decide⟩

/-- **C64 (a tree of biases).** The same for a tree of arrays. -/
theorem C64_bias_tree [Add V] (t : Tree (NArr V)) (hkt : KeysOk t) (data : Tree (NArr V)) (hk : KeysOk data)
    (hstr : map (fun _ => ()) data.norm = map (fun _ => ()) t.norm) (hbatch : ∀ p x, At data p x → x.shape ≠ [])
    (h : biasCheck (.tree t) (map (fun x => x.shape.tail) data) = .ok ()) :
    ∃ out, biasCall (.tree t) data = .ok out ∧ map (fun _ => ()) out = map (fun _ => ()) data.norm ∧
      ∀ p x b, At data p x → At t p b → ∃ y, At out p y ∧ y.shape = x.shape ∧
        ∀ k i, InB x.shape (k :: i) → y.val (k :: i) = x.val (k :: i) + b.val i := by
  unfold biasCall
  refine jaxMap_two (R := fun _ (x b y : NArr V) => y.shape = x.shape ∧
      ∀ k i, InB x.shape (k :: i) → y.val (k :: i) = x.val (k :: i) + b.val i) hkt hstr (fun x vs w hw => ?_) fun p x b hx hb => ?_
  · split at hw
    · unfold addLeaf at hw
      split at hw
      · cases hw; exact ⟨_, rfl⟩
      · cases hw
    · cases hw
  · obtain ⟨n, s, hs⟩ := List.exists_cons_of_ne_nil (hbatch p x hx)
    have hsh : b.shape = s := by
      unfold biasCheck at h
      simp only at h
      split at h
      · rename_i r hr
        obtain ⟨vs, w, h1, h2, h3, -⟩ := jaxMap_at hr hb
        match vs, h1 with
        | [v], _ =>
          have hv := h2 0 _ v rfl rfl
          have := sub_unique ((keysOk_map _ _).2 hk) hv (sub_leaf.2 (at_map.2 ⟨x, hx, rfl⟩))
          subst this
          simp only at h3
          split at h3
          · rename_i he; rw [he, hs]; rfl
          · cases h3
      · cases h
    obtain ⟨y, h1, h2, h3⟩ := feature_bop (· + ·) x b hs (.inl hsh)
    refine ⟨y, by show addLeaf x b = _; unfold addLeaf; rw [h1], h2, fun k i hi => ?_⟩
    rw [h3 k i hi]
    congr 2
    unfold featureOf
    have hlen : i.length = s.length := by have := hi.1; rw [hs] at this; simpa using this
    have hi' : InB s i := by rw [hs] at hi; exact (inB_cons.1 hi).2
    split
    · rename_i h1'
      rw [← hsh, h1'] at hi'
      have h0 := hi'.1
      match i, h0 with
      | [j], _ =>
        have := hi'.2 0 1 j rfl rfl
        have : j = 0 := by omega
        subst this
        rfl
    · split
      · rename_i h1' h2'
        rw [← hsh, h2'] at hi'
        exact (List.length_eq_zero_iff.1 hi'.1).symm
      · rfl

example : biasCheck (.tree (.dict [("u".toList, .leaf demoBias)])) (map (fun x => x.shape.tail)
    (.dict [("u".toList, .leaf (⟨[2, 3], fun i => i.getD 1 0⟩ : NArr Int))])) = .ok () := by decide +kernel

/-- **C64 (a bias of the wrong shape is refused).** -/
theorem C64_bias_refused (b : NArr V) (data : Tree (NArr V)) (h1 : b.shape ≠ [1]) (h2 : b.shape ≠ []) (p : List ForwardSpec.Step) (x : NArr V)
    (hx : At data p x) (hne : x.shape.tail ≠ b.shape) : biasCheck (.arr b) (map (fun x => x.shape.tail) data) = .error .valueError := by
  unfold biasCheck
  simp only
  rw [if_neg (not_or.2 ⟨h1, h2⟩), if_pos]
  rw [List.any_eq_true]
  refine ⟨some x.shape.tail, ?_, by simpa using hne⟩
  unfold treeFlattenShape
  apply mem_shapeLeaves
  rw [mem_flat_at]
  exact ⟨p, at_norm.2 (at_map.2 ⟨x, hx, rfl⟩)⟩

example : biasCheck (.arr demoBias) (.leaf [2]) = .error .valueError := by decide +kernel

/-- **C64 (fresh biases).** A bias made by `compile` for the shapes of the data has these shapes (or is a single number) and passes the check of a second
`compile`. -/
theorem C64_bias_fresh (draw : List Nat → List Nat → V) (scalar : Bool) (s : Tree (List Nat)) (hk : KeysOk s) :
    biasCheck (biasInit draw scalar s) s = .ok () ∧
    (scalar = true → ∃ b, biasInit draw scalar s = .arr b ∧ b.shape = [1]) ∧
    (scalar = false → ∀ p sh, At s p sh → (∃ b, biasInit draw scalar s = .arr b ∧ b.shape = sh) ∨
      ∃ t b, biasInit draw scalar s = .tree t ∧ At t p b ∧ b.shape = sh) := by
  cases scalar with
  | true => exact ⟨rfl, fun _ => ⟨_, rfl, rfl⟩, fun h => by cases h⟩
  | false =>
    have tree : ∀ s : Tree (List Nat), KeysOk s → biasCheck (.tree (Tree.map (fun sh => (⟨sh, draw sh⟩ : NArr V)) s.norm)) s = .ok () := by
      intro s hk
      unfold biasCheck
      simp only
      generalize hF : (jaxMap (γ := Unit) _ (Tree.map (fun sh => (⟨sh, draw sh⟩ : NArr V)) s.norm) [s]) = R
      have : ∃ r, R = .ok r := by
        rw [← hF]
        refine jaxMap_total (us := [s]) (fun u hu => ?_) fun p a bs ha hbs => ?_
        · cases hu with
          | head => exact ⟨hk, by rw [norm_map, norm_norm hk, map_map]⟩
          | tail _ h => cases h
        · cases hbs with
          | cons h1 h2 =>
            cases h2
            obtain ⟨sh, hsh, rfl⟩ := at_map.1 ha
            have := at_unique hk (at_norm.1 hsh) h1
            subst this
            simp only [List.map_cons, List.map_nil, if_true]
            exact ⟨_, rfl⟩
      obtain ⟨r, hr⟩ := this
      rw [hr]
    refine ⟨?_, fun h => (by cases h), fun _ p sh hp => ?_⟩
    · cases s with
      | leaf sh =>
        unfold biasInit biasCheck
        simp only [Bool.false_eq_true, if_false]
        split
        · rfl
        · simp [treeFlattenShape, Tree.norm, shapeLeaves]
      | none => exact tree .none hk
      | list ts => exact tree (.list ts) hk
      | tuple ts => exact tree (.tuple ts) hk
      | dict ts => exact tree (.dict ts) hk
    · have aux : At (Tree.map (fun sh => (⟨sh, draw sh⟩ : NArr V)) s.norm) p ⟨sh, draw sh⟩ := at_map.2 ⟨sh, at_norm.2 hp, rfl⟩
      cases s with
      | leaf sh' =>
        cases hp
        exact .inl ⟨_, rfl, rfl⟩
      | none => cases hp
      | list ts => exact .inr ⟨_, _, rfl, aux, rfl⟩
      | tuple ts => exact .inr ⟨_, _, rfl, aux, rfl⟩
      | dict ts => exact .inr ⟨_, _, rfl, aux, rfl⟩

example : ∃ t : Tree (NArr Int), biasInit (fun _ _ => 1) false (.dict [("u".toList, .leaf [2, 3])]) = .tree t ∧
    map (fun b => b.shape) t = .dict [("u".toList, .leaf [2, 3])] := ⟨_, rfl, by decide +kernel⟩

/-- **C64 (activation functions).** The output has the structure of the data and at every place the function of the array there; the declared shape is right
exactly for functions that keep the shape of the samples. -/
theorem C64_activation (func : NArr V → NArr W) (data : Tree (NArr V)) :
    map (fun _ => ()) (activation func data) = map (fun _ => ()) data.norm ∧
    (∀ p x, At data p x → At (activation func data) p (func x)) ∧
    ((∀ p x, At data p x → (func x).shape.tail = x.shape.tail) ↔
      map (fun y => y.shape.tail) (activation func data) = (activationShape (map (fun x => x.shape.tail) data)).norm) := by
  unfold activation activationShape
  refine ⟨by rw [map_map], fun p x hx => at_map.2 ⟨x, at_norm.2 hx, rfl⟩, ?_⟩
  rw [map_map, norm_map]
  constructor
  · intro h
    refine (Tree.map_congr_iff _ _ _).2 fun x hx => ?_
    obtain ⟨p, hp⟩ := mem_flat_at.1 hx
    exact h p x (at_norm.1 hp)
  · intro h p x hx
    exact (Tree.map_congr_iff _ _ _).1 h x (mem_flat_at.2 ⟨p, at_norm.2 hx⟩)

/-- **C64 (elementwise functions).** For an elementwise function every number is replaced by its image, nothing else changes. -/
theorem C64_elementwise (f : V → W) (data : Tree (NArr V)) (p : List ForwardSpec.Step) (x : NArr V) (hx : At data p x) :
    ∃ y, At (activation (uop f) data) p y ∧ y.shape = x.shape ∧ ∀ i, y.val i = f (x.val i) :=
  ⟨uop f x, at_map.2 ⟨x, at_norm.2 hx, rfl⟩, rfl, fun _ => rfl⟩

example : ∃ y, At (activation (uop fun v : Int => v * v) (.tuple [.leaf ⟨[2], fun i => (i.getD 0 0 : Nat) + 3⟩])) [.idx 0] y ∧ y.val [1] = 16 :=
  (C64_elementwise (fun v : Int => v * v) _ [.idx 0] ⟨[2], fun i => (i.getD 0 0 : Nat) + 3⟩ (.tuple rfl (.leaf _))).elim
    fun y h => ⟨y, h.1, (h.2.2 [1]).trans (by decide)⟩

/-- **C64 refuted for functions that are not elementwise.** `AMax` is offered as an activation function. Its declared shape is the input shape, but it returns one
number for the whole array: no batch axis is left and a sample's output depends on the other samples. -/
theorem C64_reduction_refuted [LinearOrder V] [Inhabited V] (x : NArr V) (hx : x.shape ≠ []) :
    activationShape (Tree.leaf x.shape.tail) = .leaf x.shape.tail ∧
    (∃ y, activation amax (Tree.leaf x) = .leaf y ∧ y.shape ≠ x.shape ∧ y.shape = []) ∧
    ∃ u v : NArr Int, u.shape = [2, 1] ∧ v.shape = [2, 1] ∧ u.val [0, 0] = v.val [0, 0] ∧ (amax u).val [] ≠ (amax v).val [] :=
  ⟨rfl, ⟨_, rfl, fun h => hx h.symm, rfl⟩, ⟨[2, 1], fun i => i.getD 0 0⟩, ⟨[2, 1], fun i => 2 * i.getD 0 0⟩, rfl, rfl, by decide, by decide +kernel⟩

/-- **C64 (PReLU with one slope).** Nonnegative numbers are kept, negative numbers are multiplied by the slope; structure and shapes are kept. -/
theorem C64_prelu_single [Zero V] [Mul V] [LE V] [DecidableLE V] (a : NArr V) (data : Tree (NArr V)) (hbatch : ∀ p x, At data p x → x.shape ≠ []) :
    ∃ out, preluCall (.arr a) data = .ok out ∧ map (fun _ => ()) out = map (fun _ => ()) data.norm ∧
      ∀ p x, At data p x → ∃ y, At out p y ∧ y.shape = x.shape ∧ ∀ k i, InB x.shape (k :: i) →
        (0 ≤ x.val (k :: i) → y.val (k :: i) = x.val (k :: i)) ∧ (¬ 0 ≤ x.val (k :: i) → y.val (k :: i) = a.val [0] * x.val (k :: i)) := by
  unfold preluCall
  refine jaxMap_one (f := fun x => preluLeaf x ⟨[], fun _ => a.val [0]⟩) (R := fun _ (x y : NArr V) => y.shape = x.shape ∧ ∀ k i, InB x.shape (k :: i) →
        (0 ≤ x.val (k :: i) → y.val (k :: i) = x.val (k :: i)) ∧ (¬ 0 ≤ x.val (k :: i) → y.val (k :: i) = a.val [0] * x.val (k :: i))) fun p x hx => ?_
  obtain ⟨n, s, hs⟩ := List.exists_cons_of_ne_nil (hbatch p x hx)
  obtain ⟨y, h1, h2, h3⟩ := feature_bop (fun x a : V => if 0 ≤ x then x else a * x) x ⟨[], fun _ => a.val [0]⟩ hs (.inr (.inr rfl))
  refine ⟨y, by unfold preluLeaf; rw [h1], h2, fun k i hi => ?_⟩
  rw [h3 k i hi]
  exact ⟨fun h => if_pos h, fun h => if_neg h⟩

example : ∃ y : NArr Int, preluCall (V := Int) (.arr ⟨[1], fun _ => 5⟩) (.leaf ⟨[2], fun i => (i.getD 0 0 : Nat) - 1⟩) = .ok (.leaf y) ∧ y.val [0] = -5 ∧ y.val [1] = 0 :=
  ⟨_, rfl, by decide, by decide⟩

/-- **C64 (PReLU with one slope per feature).** -/
theorem C64_prelu_tree [Zero V] [Mul V] [LE V] [DecidableLE V] (t : Tree (NArr V)) (hkt : KeysOk t) (data : Tree (NArr V))
    (hstr : map (fun _ => ()) data.norm = map (fun _ => ()) t.norm)
    (hshape : ∀ p x a, At data p x → At t p a → ∃ b, x.shape = b :: a.shape) :
    ∃ out, preluCall (.tree t) data = .ok out ∧ map (fun _ => ()) out = map (fun _ => ()) data.norm ∧
      ∀ p x a, At data p x → At t p a → ∃ y, At out p y ∧ y.shape = x.shape ∧ ∀ k i, InB x.shape (k :: i) →
        (0 ≤ x.val (k :: i) → y.val (k :: i) = x.val (k :: i)) ∧ (¬ 0 ≤ x.val (k :: i) → y.val (k :: i) = a.val (featureOf a.shape i) * x.val (k :: i)) := by
  unfold preluCall
  refine jaxMap_two (R := fun _ (x a y : NArr V) => y.shape = x.shape ∧ ∀ k i, InB x.shape (k :: i) →
        (0 ≤ x.val (k :: i) → y.val (k :: i) = x.val (k :: i)) ∧ (¬ 0 ≤ x.val (k :: i) → y.val (k :: i) = a.val (featureOf a.shape i) * x.val (k :: i)))
      hkt hstr (fun x vs w hw => ?_) fun p x a hx ha => ?_
  · split at hw
    · unfold preluLeaf at hw
      split at hw
      · cases hw; exact ⟨_, rfl⟩
      · cases hw
    · cases hw
  · obtain ⟨b, hs⟩ := hshape p x a hx ha
    obtain ⟨y, h1, h2, h3⟩ := feature_bop (fun x a : V => if 0 ≤ x then x else a * x) x a hs (.inl rfl)
    refine ⟨y, by show preluLeaf x a = _; unfold preluLeaf; rw [h1], h2, fun k i hi => ?_⟩
    rw [h3 k i hi]
    exact ⟨fun h => if_pos h, fun h => if_neg h⟩

example : ∃ y : NArr Int, preluCall (.tree (.leaf demoBias)) (.leaf ⟨[2, 3], fun i => (i.getD 0 0 : Nat) - 1⟩) = .ok (.leaf y) ∧
    y.val [0, 2] = -20 ∧ y.val [1, 2] = 0 := ⟨_, rfl, by decide, by decide⟩

/-- **C69 (constants).** The output has the structure of the constant; every sample of it is the constant, whatever the data; it has as many samples as the first
array of the data; and its shape behind the batch axis is the declared one. -/
theorem C69_constant (c : Tree (NArr W)) (data : Tree (NArr V)) (x : NArr V) (xs : List (NArr V)) (b : Nat) (s : List Nat)
    (hl : Tree.jaxLeaves data = x :: xs) (hx : x.shape = b :: s) :
    ∃ out, constantCall c data = .ok out ∧ map (fun _ => ()) out = map (fun _ => ()) c.norm ∧
      (∀ p k, At c p k → ∃ y, At out p y ∧ y.shape = b :: k.shape ∧ ∀ j i, y.val (j :: i) = k.val i) ∧
      map (fun y => y.shape.tail) out = constantShape c := by
  unfold constantCall
  rw [hl]
  simp only [hx]
  refine ⟨_, rfl, by rw [map_map], fun p k hk => ⟨_, at_map.2 ⟨k, at_norm.2 hk, rfl⟩, rfl, fun j i => rfl⟩, ?_⟩
  rw [map_map]
  rfl

/-- **C69 (independence).** Two data trees whose first arrays have the same number of samples give the same output. -/
theorem C69_independent (c : Tree (NArr W)) (d₁ d₂ : Tree (NArr V)) (h : (Tree.jaxLeaves d₁).head?.bind (fun x => x.shape.head?)
    = (Tree.jaxLeaves d₂).head?.bind (fun x => x.shape.head?)) : constantCall c d₁ = constantCall c d₂ := by
  have key : ∀ d : Tree (NArr V), constantCall c d = match (Tree.jaxLeaves d).head?.bind (fun x => x.shape.head?) with
      | Option.none => .error .indexError
      | Option.some b => .ok (Tree.map (fun k : NArr W => ⟨b :: k.shape, fun i => k.val i.tail⟩) c.norm) := by
    intro d
    unfold constantCall
    cases Tree.jaxLeaves d with
    | nil => rfl
    | cons x xs =>
      simp only [List.head?_cons, Option.bind_some]
      cases x.shape <;> rfl
  rw [key, key, h]

/-- **C69 (no data).** Data without arrays is refused. -/
theorem C69_no_leaves (c : Tree (NArr W)) (data : Tree (NArr V)) (hl : Tree.jaxLeaves data = []) : constantCall c data = .error .indexError := by
  unfold constantCall
  rw [hl]

example : ∃ y, constantCall (.leaf demoBias) (.dict [("u".toList, .leaf (⟨[4, 2], fun _ => 0⟩ : NArr Int))]) = .ok (.leaf y) ∧ y.shape = [4, 3] ∧
    y.val [3, 2] = 20 := ⟨_, rfl, rfl, by decide⟩
example : constantCall (.leaf demoBias) (.list [.none] : Tree (NArr Int)) = .error .indexError := C69_no_leaves _ _ rfl

end Verif.Props
