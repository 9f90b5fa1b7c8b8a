import Verif.Model.TreeArith
import Verif.Spec.TreeArith
import Verif.Lemmas.TreeZip
import Verif.Lemmas.NdArr
import Verif.Lemmas.TreeDec
import Mathlib.Algebra.BigOperators.Group.List.Lemmas

/-! # Properties of the tree arithmetic (C67) -/

namespace Verif.Props
open Verif.Tree Verif.TreeArith Verif.ForwardSpec Verif.NdSpec Verif.ArithSpec Verif.Loss

variable {A B C : Type} {𝕜 : Type} [RCLike 𝕜]

theorem bop_elementwise {f : A → B → C} {x : NArr A} {y : NArr B} {z : NArr C} (h : NArr.bop f x y = .ok z) :
    Elementwise f x y z := by
  unfold NArr.bop at h
  split at h
  · cases h
  · rename_i s hs
    cases h
    have hb := NArr.bshape_spec hs
    refine ⟨hb, fun i j k hi hj hk => ?_⟩
    have h1 : x.shape.length ≤ i.length := hj.2.1
    have h2 : y.shape.length ≤ i.length := hk.2.1
    simp only
    rw [NArr.reads_unique hj (NArr.bidx_spec h1), NArr.reads_unique hk (NArr.bidx_spec h2)]

theorem bin_leaf {f : A → B → C} {x : NArr A} {vs : List (Tree (NArr B))} {w : Tree (NArr C)}
    (h : (match vs with
      | [.leaf y] => match NArr.bop f x y with
        | .ok z => .ok (.leaf z)
        | .error e => .error e
      | _ => .error .typeError : Except PyErr (Tree (NArr C))) = .ok w) :
    ∃ y z, vs = [.leaf y] ∧ NArr.bop f x y = .ok z ∧ w = .leaf z := by
  split at h
  · rename_i y
    split at h
    · rename_i z hz
      cases h
      exact ⟨y, z, rfl, hz, rfl⟩
    · cases h
  · cases h

/-- **C67** A leafwise operation that succeeds acts leaf by leaf: the result has an array exactly where the first tree has one, it
is the elementwise operation of the two arrays at that place, and the result has the structure of the first tree. -/
theorem C67_bin (f : A → B → C) (t : Tree (NArr A)) (u : Tree (NArr B)) (r : Tree (NArr C)) (ht : KeysOk t)
    (h : bin f t u = .ok r) : Leafwise f t u r ∧ map (fun _ => ()) r = map (fun _ => ()) t.norm := by
  unfold bin at h
  split at h
  case isFalse => cases h
  have hs := jaxMap_struct (fun a vs w h => by obtain ⟨y, z, -, -, rfl⟩ := bin_leaf h; exact ⟨z, rfl⟩) h
  have hr : KeysOk r := keysOk_of_struct hs (keysOk_norm' ht)
  refine ⟨⟨fun p => ?_, fun p x z hx hz => ?_⟩, hs⟩
  · have e1 : (∃ z, At r p z) ↔ At (map (fun _ => ()) r) p () := by
      rw [at_map]; simp
    have e2 : (∃ x, At t p x) ↔ At (map (fun _ => ()) t.norm) p () := by
      rw [at_map]
      simp [at_norm]
    rw [e1, e2, hs]
  · obtain ⟨vs, w, hl, hsub, hf, hw⟩ := jaxMap_at h hx
    obtain ⟨y, z', rfl, hb, rfl⟩ := bin_leaf hf
    refine ⟨y, sub_leaf.1 (hsub 0 u _ rfl rfl), ?_⟩
    have : z = z' := at_unique hr hz (sub_leaf.1 hw)
    subst this
    exact bop_elementwise hb

theorem lift2_lifted (f : 𝕜 → 𝕜 → 𝕜) (x y : Option 𝕜) : Lifted (fun a b => some (f a b)) x y (lift2 f x y) := by
  cases x <;> cases y <;> simp only [lift2, Option.bind_none, Option.bind_some, Option.map_none, Option.map_some]
  · exact .left _
  · exact .left _
  · exact .right _
  · exact .both _ _

open scoped Classical in
theorem fdiv_lifted (x y : Option 𝕜) : Lifted (fun a b => if b = 0 then none else some (a / b)) x y (fdiv x y) := by
  cases x <;> cases y <;> simp only [fdiv, Option.bind_none, Option.bind_some]
  · exact .left _
  · exact .left _
  · exact .right _
  · rename_i a b
    exact Lifted.both (f := fun a b => if b = 0 then none else some (a / b)) a b

open scoped Classical in
/-- **C67** `add`, `sub`, `mul` and `div` are the elementwise operations on the entries: the result is a number only if both
entries are, and division by zero gives no number. -/
theorem C67_leafwise (t u r : Tree (NArr (Option 𝕜))) (ht : KeysOk t) :
    (TreeArith.add t u = .ok r → ∃ f, Leafwise f t u r ∧ ∀ a b, Lifted (fun x y => some (x + y)) a b (f a b)) ∧
    (TreeArith.sub t u = .ok r → ∃ f, Leafwise f t u r ∧ ∀ a b, Lifted (fun x y => some (x - y)) a b (f a b)) ∧
    (TreeArith.mul t u = .ok r → ∃ f, Leafwise f t u r ∧ ∀ a b, Lifted (fun x y => some (x * y)) a b (f a b)) ∧
    (TreeArith.div t u = .ok r →
      ∃ f, Leafwise f t u r ∧ ∀ a b, Lifted (fun x y => if y = 0 then none else some (x / y)) a b (f a b)) :=
  ⟨fun h => ⟨_, (C67_bin _ t u r ht h).1, lift2_lifted _⟩, fun h => ⟨_, (C67_bin _ t u r ht h).1, lift2_lifted _⟩,
    fun h => ⟨_, (C67_bin _ t u r ht h).1, lift2_lifted _⟩, fun h => ⟨_, (C67_bin _ t u r ht h).1, fdiv_lifted⟩⟩

/-- **C67** The operation succeeds on two trees of equal structure whose arrays at equal places have equal shapes; on trees of
different structure it raises a type error. -/
theorem C67_defined (f : A → B → C) (t : Tree (NArr A)) (u : Tree (NArr B)) (hu : KeysOk u) :
    (sameStruct t.norm u.norm = true → (∀ p x y, At t p x → At u p y → x.shape = y.shape) → ∃ r, bin f t u = .ok r) ∧
    (sameStruct t.norm u.norm = false → bin f t u = .error .typeError) := by
  constructor
  · intro hs hsh
    unfold bin
    rw [if_pos hs]
    refine jaxMap2_total hu hs fun p a b ha hb => ?_
    have : NArr.bop f a b = .ok ⟨b.shape, fun i => f (a.val (NArr.bidx b.shape i)) (b.val (NArr.bidx b.shape i))⟩ := by
      unfold NArr.bop
      rw [hsh p a b ha hb, NArr.bshape_self]
    exact ⟨_, by simp only [this]; rfl⟩
  · intro hs
    unfold bin
    rw [if_neg (by rw [hs]; decide)]

/-- Arrays of equal shape: the entry at an index is the operation on the two entries at that index. -/
theorem elementwise_same {f : A → B → C} {x : NArr A} {y : NArr B} {z : NArr C} (h : Elementwise f x y z)
    (hs : x.shape = y.shape) : z.shape = x.shape ∧ ∀ i, InB x.shape i → z.val i = f (x.val i) (y.val i) := by
  obtain ⟨⟨h1, h2⟩, h3⟩ := h
  have hlen : z.shape.length = x.shape.length := by rw [h1, ← hs, max_self]
  have he : z.shape = x.shape := by
    rw [← List.reverse_inj]
    apply List.ext_getElem?
    intro k
    by_cases hk : k < z.shape.length
    · rcases h2 k hk with ⟨a, -⟩ | ⟨a, b⟩ | ⟨a, b, d, ha, hb, hd, hh⟩
      · rw [List.getElem?_eq_none_iff, List.length_reverse] at a; omega
      · exact b
      · rw [← hs, ha] at hb
        cases hb
        rw [hd, ha]
        rcases hh with ⟨-, rfl⟩ | ⟨-, rfl⟩ | ⟨-, rfl⟩ <;> rfl
    · rw [List.getElem?_eq_none (by rw [List.length_reverse]; omega), List.getElem?_eq_none (by rw [List.length_reverse]; omega)]
  refine ⟨he, fun i hi => h3 i i i (by rw [he]; exact hi) ?_ ?_⟩
  · have := NArr.bidx_spec (s := x.shape) (i := i) hi.1.ge
    rwa [NArr.bidx_self hi] at this
  · have := NArr.bidx_spec (s := y.shape) (i := i) (by rw [← hs]; exact hi.1.ge)
    rwa [NArr.bidx_self (by rw [← hs]; exact hi)] at this

/-- **C67** Subtraction undoes addition and (where the divisor is not zero) division undoes multiplication, on trees whose arrays have
equal shapes at equal places. -/
theorem C67_inverse (t u r q : Tree (NArr (Option 𝕜))) (ht : KeysOk t)
    (hu : KeysOk u) (hsh : ∀ p x y, At t p x → At u p y → x.shape = y.shape) (p : List Step) (x y : NArr (Option 𝕜))
    (hx : At t p x) (hy : At u p y) :
    (TreeArith.add t u = .ok r → TreeArith.sub r u = .ok q → ∃ z, At q p z ∧ z.shape = x.shape ∧
      ∀ i, InB x.shape i → (∃ c, y.val i = some c) → z.val i = x.val i) ∧
    (TreeArith.mul t u = .ok r → TreeArith.div r u = .ok q → ∃ z, At q p z ∧ z.shape = x.shape ∧
      ∀ i, InB x.shape i → (∃ c, c ≠ 0 ∧ y.val i = some c) → z.val i = x.val i) := by
  have aux : ∀ (f g : Option 𝕜 → Option 𝕜 → Option 𝕜), bin f t u = .ok r → bin g r u = .ok q →
      ∃ z, At q p z ∧ z.shape = x.shape ∧ ∀ i, InB x.shape i → z.val i = g (f (x.val i) (y.val i)) (y.val i) := by
    intro f g h1 h2
    obtain ⟨⟨hp, hl⟩, hst⟩ := C67_bin f t u r ht h1
    have hr : KeysOk r := keysOk_of_struct hst (keysOk_norm' ht)
    obtain ⟨⟨hp', hl'⟩, -⟩ := C67_bin g r u q hr h2
    obtain ⟨w, hw⟩ := (hp p).1 ⟨x, hx⟩
    obtain ⟨z, hz⟩ := (hp' p).1 ⟨w, hw⟩
    obtain ⟨y', hy', e1⟩ := hl p x w hx hw
    obtain ⟨y'', hy'', e2⟩ := hl' p w z hw hz
    have := at_unique hu hy hy'
    subst this
    have := at_unique hu hy hy''
    subst this
    have hxy := hsh p x y hx hy
    obtain ⟨s1, v1⟩ := elementwise_same e1 hxy
    obtain ⟨s2, v2⟩ := elementwise_same e2 (by rw [s1, hxy])
    exact ⟨z, hz, by rw [s2, s1], fun i hi => by rw [v2 i (by rw [s1]; exact hi), v1 i hi]⟩
  constructor
  · intro h1 h2
    obtain ⟨z, hz, hs, hv⟩ := aux _ _ h1 h2
    refine ⟨z, hz, hs, fun i hi => ?_⟩
    rintro ⟨c, hc⟩
    rw [hv i hi, hc]
    cases x.val i <;> simp [lift2]
  · intro h1 h2
    obtain ⟨z, hz, hs, hv⟩ := aux _ _ h1 h2
    refine ⟨z, hz, hs, fun i hi => ?_⟩
    rintro ⟨c, hc0, hc⟩
    rw [hv i hi, hc]
    cases x.val i <;> simp [lift2, fdiv, hc0]

/-- **C67** The unary operations keep the structure and all shapes and act on every entry. -/
theorem C67_unary (f : A → B) (t : Tree (NArr A)) (p : List Step) (z : NArr B) :
    At (una f t) p z ↔ ∃ x, At t p x ∧ z.shape = x.shape ∧ z.val = fun i => f (x.val i) := by
  unfold una
  rw [at_map]
  simp only [at_norm]
  constructor
  · rintro ⟨x, hx, rfl⟩; exact ⟨x, hx, rfl, rfl⟩
  · rintro ⟨x, hx, h1, h2⟩
    exact ⟨x, hx, by cases z; simp only at h1 h2; subst h1 h2; rfl⟩

/-- **C67** Negation, absolute value, its square and its root, entry by entry; what is not finite stays so. -/
theorem C67_named (t : Tree (NArr (Option 𝕜))) (p : List Step) (x : NArr (Option 𝕜)) (hx : At t p x) :
    (∃ z, At (TreeArith.neg t) p z ∧ z.shape = x.shape ∧ ∀ i, z.val i = (x.val i).map fun v => -v) ∧
    (∃ z, At (TreeArith.abs t) p z ∧ z.shape = x.shape ∧ ∀ i, z.val i = (x.val i).map fun v => ‖v‖) ∧
    (∃ z, At (TreeArith.absSqr t) p z ∧ z.shape = x.shape ∧ ∀ i, z.val i = (x.val i).map fun v => ‖v‖ * ‖v‖) ∧
    (∃ z, At (TreeArith.absSqrt t) p z ∧ z.shape = x.shape ∧ ∀ i w, x.val i = some w → ∃ r : ℝ, z.val i = some r ∧ 0 ≤ r ∧ r * r = ‖w‖) := by
  refine ⟨⟨NArr.uop (Option.map (- ·)) x, (C67_unary _ t p _).2 ⟨x, hx, rfl, rfl⟩, rfl, fun i => rfl⟩,
    ⟨NArr.uop (Option.map fun v => ‖v‖) x, (C67_unary _ t p _).2 ⟨x, hx, rfl, rfl⟩, rfl, fun i => rfl⟩,
    ⟨NArr.uop (Option.map fun v => ‖v‖ ^ 2) x, (C67_unary _ t p _).2 ⟨x, hx, rfl, rfl⟩, rfl, fun i => ?_⟩,
    ⟨NArr.uop (Option.map fun v => Real.sqrt ‖v‖) x, (C67_unary _ t p _).2 ⟨x, hx, rfl, rfl⟩, rfl, fun i w hw => ?_⟩⟩
  · simp only [NArr.uop, pow_two]
  · refine ⟨Real.sqrt ‖w‖, by simp only [NArr.uop, hw, Option.map_some], Real.sqrt_nonneg _, Real.mul_self_sqrt (norm_nonneg _)⟩

example : ∃ z, At (TreeArith.absSqr (.list [.leaf (⟨[2], fun _ => some (-3 : ℝ)⟩ : NArr (Option ℝ))])) [.idx 0] z ∧ z.shape = [2] ∧ z.val [1] = some 9 := by
  obtain ⟨z, h1, h2, h3⟩ := (C67_named (.list [.leaf (⟨[2], fun _ => some (-3 : ℝ)⟩ : NArr (Option ℝ))]) [.idx 0] _ (.list rfl (.leaf _))).2.2.1
  refine ⟨z, h1, h2, ?_⟩
  rw [h3]
  norm_num

/-- **C67** Adding or multiplying with one number: defined when all arrays have one shape, and then entry by entry. -/
theorem C67_scalar (t : Tree (NArr (Option 𝕜))) (a : 𝕜) (s : List Nat) (hs : ∀ p x, At t p x → x.shape = s) :
    ∃ r q, TreeArith.scalarAdd t a = .ok r ∧ TreeArith.scalarMul t a = .ok q ∧ map (fun _ => ()) r = map (fun _ => ()) t.norm ∧
      map (fun _ => ()) q = map (fun _ => ()) t.norm ∧
      ∀ p x, At t p x → (∃ z, At r p z ∧ z.shape = s ∧ ∀ i, z.val i = (x.val i).map fun v => v + a) ∧
        (∃ z, At q p z ∧ z.shape = s ∧ ∀ i, z.val i = (x.val i).map fun v => v * a) := by
  have hE : equalShapes t = true := by
    have hm : ∀ x ∈ jaxLeaves t, x.shape = s := fun x hx => by
      obtain ⟨p, hp⟩ := mem_flat_at.1 hx
      exact hs p x (at_norm.1 hp)
    unfold equalShapes
    cases hl : jaxLeaves t with
    | nil => rfl
    | cons z zs =>
      rw [hl] at hm
      simp only [List.all_eq_true, decide_eq_true_eq]
      intro w hw
      rw [hm w (by simp [hw]), hm z (by simp)]
  refine ⟨_, _, by unfold TreeArith.scalarAdd; rw [if_pos hE], by unfold TreeArith.scalarMul; rw [if_pos hE], by unfold una; rw [map_map],
    by unfold una; rw [map_map], fun p x hx => ⟨⟨NArr.uop (Option.map (· + a)) x, (C67_unary _ t p _).2 ⟨x, hx, rfl, rfl⟩, hs p x hx, fun i => rfl⟩,
      ⟨NArr.uop (Option.map (· * a)) x, (C67_unary _ t p _).2 ⟨x, hx, rfl, rfl⟩, hs p x hx, fun i => rfl⟩⟩⟩

example : ∃ q, TreeArith.scalarMul (.list [.leaf (⟨[2], fun _ => some (3 : ℝ)⟩ : NArr (Option ℝ))]) 2 = .ok q ∧ ∃ z, At q [.idx 0] z ∧ z.val [1] = some 6 := by
  obtain ⟨r, q, -, h2, -, -, h3⟩ := C67_scalar (.list [.leaf (⟨[2], fun _ => some (3 : ℝ)⟩ : NArr (Option ℝ))]) 2 [2] (by
    intro p x hx
    have := mem_flat_at.2 ⟨p, hx⟩
    simp [flat, flatL] at this
    rw [this])
  obtain ⟨-, z, h4, -, h5⟩ := h3 [.idx 0] _ (.list rfl (.leaf _))
  refine ⟨q, h2, z, h4, ?_⟩
  rw [h5]
  norm_num

/-! ## The mean -/

theorem foldl_lift2 (l : List 𝕜) (a : 𝕜) : (l.map some).foldl (lift2 fun a b : 𝕜 => a + b) (some a) = some (a + l.sum) := by
  induction l generalizing a with
  | nil => simp
  | cons b l ih =>
    simp only [List.map_cons, List.foldl_cons, List.sum_cons]
    have : lift2 (fun a b : 𝕜 => a + b) (some a) (some b) = some (a + b) := rfl
    rw [this, ih, add_assoc]

/-- **C67** The mean of a tree with arrays of one and the same shape and finite entries is the sum of all entries of all arrays over
their number. It is stated for any listing of the arrays by place; `e` gives the entries as numbers. Missing: trees whose arrays
differ in shape raise a type error, see `C67_mean_shapes_refuted`. -/
theorem C67_mean_partial (t : Tree (NArr (Option 𝕜))) (ht : KeysOk t) (l : List (List Step × NArr (Option 𝕜))) (hl : Lists t l)
    (hne : l ≠ []) (hsh : ∀ p x q y, (p, x) ∈ l → (q, y) ∈ l → x.shape = y.shape)
    (e : List Step → List Nat → 𝕜) (he : ∀ p x i, (p, x) ∈ l → InB x.shape i → x.val i = some (e p i)) :
    TreeArith.mean t = .ok (if (l.map fun q => q.2.size).sum = 0 then none
      else some ((l.map fun q => ((NArr.indices q.2.shape).map (e q.1)).sum).sum / ((l.map fun q => q.2.size).sum : Nat))) := by
  classical
  have hperm : (Tree.entries t.norm).Perm l := by
    have h1 : (Tree.entries t.norm).Nodup := by
      have := entries_sorted _ (sorted_norm t ht)
      refine this.imp ?_
      intro a b hab heq
      rw [heq] at hab
      clear heq this
      revert hab
      generalize b.1 = p
      intro hab
      induction p with
      | nil => cases hab
      | cons s p ih =>
        cases hab with
        | idx h => omega
        | key h => exact List.lt_irrefl _ h
        | tail h => exact ih h
    have h2 : l.Nodup := List.Nodup.of_map _ hl.1
    refine (List.perm_ext_iff_of_nodup h1 h2).2 fun ⟨p, x⟩ => ?_
    rw [mem_entries, hl.2, at_norm]
  have hleaves : jaxLeaves t = (Tree.entries t.norm).map Prod.snd := by
    rw [entries_snd]; rfl
  have hmem : ∀ q ∈ Tree.entries t.norm, q ∈ l := fun q hq => hperm.mem_iff.1 hq
  have hshape : equalShapes t = true := by
    unfold equalShapes
    rw [hleaves]
    cases hE : Tree.entries t.norm with
    | nil => rfl
    | cons a as =>
      simp only [List.map_cons, List.all_map, List.all_eq_true]
      intro b hb
      simp only [Function.comp, decide_eq_true_eq]
      exact hsh b.1 b.2 a.1 a.2 (hmem _ (by rw [hE]; exact List.mem_cons_of_mem _ hb)) (hmem _ (by rw [hE]; exact List.mem_cons_self))
  have hsize : ∀ (E : List (List Step × NArr (Option 𝕜))) (n : Nat),
      (E.map Prod.snd).foldl (fun (n : Nat) x => n + x.size) n = n + (E.map fun q => q.2.size).sum := by
    intro E
    induction E with
    | nil => intro n; rfl
    | cons a E ih => intro n; simp only [List.map_cons, List.foldl_cons, ih, List.sum_cons]; omega
  have hsum : ∀ (E : List (List Step × NArr (Option 𝕜))) (a : 𝕜), (∀ q ∈ E, q ∈ l) →
      (E.map Prod.snd).foldl (fun a x => lift2 (fun a b : 𝕜 => a + b) a (TreeArith.sum x)) (some a) =
        some (a + (E.map fun q => ((NArr.indices q.2.shape).map (e q.1)).sum).sum) := by
    intro E
    induction E with
    | nil => intro a _; simp
    | cons q E ih =>
      intro a hE
      have hq : TreeArith.sum q.2 = some (((NArr.indices q.2.shape).map (e q.1)).sum) := by
        unfold TreeArith.sum NArr.entries
        have : (NArr.indices q.2.shape).map q.2.val = ((NArr.indices q.2.shape).map (e q.1)).map some := by
          rw [List.map_map]
          exact List.map_congr_left fun i hi => he q.1 q.2 i (hE q List.mem_cons_self) (NArr.mem_indices.1 hi)
        rw [this, foldl_lift2, zero_add]
      simp only [List.map_cons, List.foldl_cons, hq]
      have : lift2 (fun a b : 𝕜 => a + b) (some a) (some ((NArr.indices q.2.shape).map (e q.1)).sum) =
          some (a + ((NArr.indices q.2.shape).map (e q.1)).sum) := rfl
      rw [this, ih _ (fun q hq => hE q (List.mem_cons_of_mem _ hq)), List.sum_cons, add_assoc]
  have hnil : ((Tree.entries t.norm).map Prod.snd).isEmpty = false := by
    rw [List.isEmpty_eq_false_iff, ne_eq, List.map_eq_nil_iff]
    intro h0
    rw [h0] at hperm
    exact hne hperm.nil_eq.symm
  unfold TreeArith.mean
  rw [if_pos hshape, hleaves]
  simp only [hnil, Bool.false_eq_true, if_false, hsize, hsum _ _ hmem, zero_add]
  rw [(hperm.map fun q => q.2.size).sum_eq, (hperm.map fun q => ((NArr.indices q.2.shape).map (e q.1)).sum).sum_eq]
  unfold fdiv
  simp only [Option.bind_some, Nat.cast_eq_zero]

/-- **C67, refuted in general**: any tree with two arrays of different shapes has no mean (the type annotation `" *d"` binds one shape
for all leaves) although the documentation promises the mean over all leaves. The same annotation makes `scalar_add` and
`scalar_mul` fail. -/
theorem C67_mean_shapes_refuted (t : Tree (NArr (Option 𝕜))) (a : 𝕜) (p q : List Step) (x y : NArr (Option 𝕜)) (hx : At t p x)
    (hy : At t q y) (h : x.shape ≠ y.shape) :
    TreeArith.mean t = .error .typeError ∧ TreeArith.scalarAdd t a = .error .typeError ∧
      TreeArith.scalarMul t a = .error .typeError := by
  have hE : equalShapes t = false := by
    have hmx : x ∈ jaxLeaves t := mem_flat_at.2 ⟨p, at_norm.2 hx⟩
    have hmy : y ∈ jaxLeaves t := mem_flat_at.2 ⟨q, at_norm.2 hy⟩
    unfold equalShapes
    cases hl : jaxLeaves t with
    | nil => rw [hl] at hmx; cases hmx
    | cons z zs =>
      rw [hl] at hmx hmy
      simp only
      rw [Bool.eq_false_iff, ne_eq, List.all_eq_true]
      intro hall
      have key : ∀ w, w ∈ z :: zs → w.shape = z.shape := by
        intro w hw
        rcases List.mem_cons.1 hw with rfl | hw
        · rfl
        · simpa using hall w hw
      exact h ((key x hmx).trans (key y hmy).symm)
  unfold TreeArith.mean TreeArith.scalarAdd TreeArith.scalarMul
  simp [hE]

/-- An empty tree has no mean either: Python divides the integers 0 by 0. -/
theorem C67_mean_empty (t : Tree (NArr (Option 𝕜))) (h : ∀ p x, ¬ At t p x) : TreeArith.mean t = .error .zeroDivision := by
  have hl : jaxLeaves t = [] := by
    cases hl : jaxLeaves t with
    | nil => rfl
    | cons x xs =>
      have : x ∈ jaxLeaves t := by rw [hl]; exact List.mem_cons_self
      obtain ⟨p, hp⟩ := mem_flat_at.1 (show x ∈ flat t.norm from this)
      exact absurd (at_norm.1 hp) (h p x)
  unfold TreeArith.mean equalShapes
  simp [hl]

/-- Both cases of `C67_defined` occur: equal structures with equal shapes, and a list next to a tuple. -/
example (f : ℕ → ℕ → ℕ) : (∃ r, bin f (.list [.leaf ⟨[2], fun _ => 1⟩, .none]) (.list [.leaf ⟨[2], fun _ => 2⟩, .none]) = .ok r) ∧
    bin f (.list [.leaf ⟨[2], fun _ => 1⟩]) (.tuple [.leaf ⟨[2], fun _ => 2⟩]) = .error .typeError := by
  refine ⟨(C67_defined f _ _ ?_).1 rfl fun p x y hx hy => ?_, (C67_defined f _ _ ?_).2 rfl⟩
  · exact ⟨trivial, trivial, trivial⟩
  rotate_left
  · exact ⟨trivial, trivial⟩
  cases hx with
  | list h1 h2 =>
    cases hy with
    | list h3 h4 =>
      rename_i i _ _ _
      match i, h1, h3 with
      | 0, h1, h3 => cases h1; cases h3; cases h2; cases h4; rfl
      | 1, h1, h3 => cases h1; cases h2

/-- The hypotheses of the mean are met by a dictionary with two arrays. -/
example : ∃ (t : Tree (NArr (Option ℝ))) (l : List (List Step × NArr (Option ℝ))), KeysOk t ∧ Lists t l ∧ l.length = 2 := by
  refine ⟨.dict [("b".toList, .leaf ⟨[2], fun _ => some 3⟩), ("a".toList, .leaf ⟨[2], fun _ => some 1⟩)],
    [([.key "b".toList], ⟨[2], fun _ => some 3⟩), ([.key "a".toList], ⟨[2], fun _ => some 1⟩)], ⟨by decide, trivial, trivial, trivial⟩,
    ⟨by decide, fun p a => ?_⟩, rfl⟩
  constructor
  · intro h
    simp only [List.mem_cons, Prod.mk.injEq, List.not_mem_nil, or_false] at h
    rcases h with ⟨rfl, rfl⟩ | ⟨rfl, rfl⟩
    · exact .dict (by simp) (.leaf _)
    · exact .dict (by simp) (.leaf _)
  · intro h
    cases h with
    | dict hm h =>
      simp only [List.mem_cons, Prod.mk.injEq, List.not_mem_nil, or_false] at hm
      rcases hm with ⟨rfl, rfl⟩ | ⟨rfl, rfl⟩ <;> cases h <;> simp

end Verif.Props
