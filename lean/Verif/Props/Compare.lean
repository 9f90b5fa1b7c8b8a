import Verif.Model.Compare
import Verif.Spec.TreeMap
import Verif.Spec.NdArr
import Verif.Lemmas.NdArr
import Verif.Lemmas.Scalers
import Verif.Lemmas.TreeBack
import Verif.Lemmas.TreeBind
import Verif.Lemmas.TreeDec
import Verif.Props.ModelTrain

/-! # Properties of the comparison of trees -/

namespace Verif.Props

open Verif.Tree Verif.Compare Verif.ForwardSpec Verif.NdSpec

variable {V O : Type}

/-- Two leaves are the same: arrays of the same shape with equal entries, or equal objects. -/
def LeafSame (eqv : V → V → Bool) : Leaf V O → Leaf V O → Prop
  | .jax a, .jax b => a.shape = b.shape ∧ ∀ i, InB a.shape i → eqv (a.val i) (b.val i) = true
  | .obj o, .obj p => o = p
  | _, _ => False

/-- Two leaves of the kinds that are meant to be compared: two JAX arrays or two objects. -/
def SameKind : Leaf V O → Leaf V O → Prop
  | .jax _, .jax _ => True
  | .obj _, .obj _ => True
  | _, _ => False

/-- Two trees have the same containers, with the same lengths and keys. -/
def SameContainers {A B : Type} (t : Tree A) (u : Tree B) : Prop := map (fun _ => ()) t.norm = map (fun _ => ()) u.norm

theorem loop_iff {L : Type} {f : L → L → Except PyErr Bool} : ∀ {l : List (L × L)}, (∀ x ∈ l, ∃ b, f x.1 x.2 = .ok b) →
    ∃ b, loop f l = .ok b ∧ (b = true ↔ ∀ x ∈ l, f x.1 x.2 = .ok true)
  | [], _ => ⟨true, rfl, by simp⟩
  | (a, c) :: l, h => by
    obtain ⟨b, hb⟩ := h _ List.mem_cons_self
    obtain ⟨b', hb', hi⟩ := loop_iff (l := l) fun x hx => h x (List.mem_cons_of_mem _ hx)
    simp only at hb
    cases b with
    | true => exact ⟨b', by simp only [loop, hb, hb'], by rw [hi]; simp [hb]⟩
    | false => exact ⟨false, by simp only [loop, hb], by simp [hb]⟩

theorem mem_zip_at {A B : Type} {t : Tree A} {u : Tree B} (ht : KeysOk t) (hu : KeysOk u) (hs : SameContainers t u) (x : A × B) :
    x ∈ (jaxLeaves t).zip (jaxLeaves u) ↔ ∃ p, At t p x.1 ∧ At u p x.2 := by
  obtain ⟨z, h1, h2⟩ := exists_zip _ _ hs
  have hz := flat_zip h1 h2
  have hkz : KeysOk z := by
    have h0 := keysOk_norm' ht
    rw [← h1] at h0
    exact (keysOk_map _ _).1 h0
  unfold jaxLeaves
  rw [← hz, mem_flat_at]
  constructor
  · rintro ⟨p, hp⟩
    refine ⟨p, at_norm.1 ?_, at_norm.1 ?_⟩
    · rw [← h1]; exact at_map.2 ⟨_, hp, rfl⟩
    · rw [← h2]; exact at_map.2 ⟨_, hp, rfl⟩
  · rintro ⟨p, ha, hb⟩
    rw [← at_norm, ← h1] at ha
    rw [← at_norm, ← h2] at hb
    obtain ⟨y, hy, e1⟩ := at_map.1 ha
    obtain ⟨y', hy', e2⟩ := at_map.1 hb
    have := at_unique hkz hy hy'
    subst this
    exact ⟨p, by rw [← Prod.mk.eta (p := x), ← e1, ← e2]; exact hy⟩

theorem compare_iff {L : Type} {f : L → L → Except PyErr Bool} {t u : Tree L} (ht : KeysOk t) (hu : KeysOk u)
    (h : SameContainers t u → ∀ p x y, At t p x → At u p y → ∃ b, f x y = .ok b) :
    ∃ b, Compare.compare f t u = .ok b ∧ (b = true ↔ SameContainers t u ∧ ∀ p x y, At t p x → At u p y → f x y = .ok true) := by
  unfold Compare.compare
  by_cases hs : SameContainers t u
  · rw [if_neg (by simp [(sameStruct_iff _ _).2 hs])]
    obtain ⟨b, hb, hi⟩ := loop_iff (f := f) (l := (jaxLeaves t).zip (jaxLeaves u)) (fun x hx => by
      obtain ⟨p, h1, h2⟩ := (mem_zip_at ht hu hs x).1 hx
      exact h hs p _ _ h1 h2)
    refine ⟨b, hb, hi.trans ⟨fun h0 => ⟨hs, fun p x y h1 h2 => h0 (x, y) ((mem_zip_at ht hu hs _).2 ⟨p, h1, h2⟩)⟩, fun h0 x hx => ?_⟩⟩
    obtain ⟨p, h1, h2⟩ := (mem_zip_at ht hu hs x).1 hx
    exact h0.2 p _ _ h1 h2
  · have hs' : sameStruct t.norm u.norm = false := by
      rw [← Bool.not_eq_true, sameStruct_iff]; exact hs
    rw [if_pos (by simp [hs'])]
    exact ⟨false, rfl, by simp [hs]⟩

theorem arrayEqual_iff {eqv : V → V → Bool} {a b : NArr V} : arrayEqual eqv a b = true ↔ a.shape = b.shape ∧ ∀ i, InB a.shape i → eqv (a.val i) (b.val i) = true := by
  simp only [arrayEqual, Bool.and_eq_true, decide_eq_true_eq, List.all_eq_true, NArr.mem_indices]

theorem leafEqual_spec [DecidableEq O] {eqv : V → V → Bool} {mixed : NArr V → O → Except PyErr Bool} {x y : Leaf V O} (h : SameKind x y) :
    ∃ b, leafEqual eqv mixed x y = .ok b ∧ (b = true ↔ LeafSame eqv x y) := by
  cases x <;> cases y <;> simp only [SameKind] at h
  · exact ⟨_, rfl, arrayEqual_iff⟩
  · exact ⟨_, rfl, by simp [LeafSame]⟩

/-- `all_equal` of two trees of JAX arrays and other objects does not raise, and is true exactly if the trees have the same containers and the same leaf at every place. The order of the entries of a
dictionary does not matter. -/
theorem C90_equal [DecidableEq O] (eqv : V → V → Bool) (mixed : NArr V → O → Except PyErr Bool) {t u : Tree (Leaf V O)} (ht : KeysOk t) (hu : KeysOk u)
    (hp : ∀ p x y, At t p x → At u p y → SameKind x y) :
    ∃ b, allEqual eqv mixed t u = .ok b ∧ (b = true ↔ SameContainers t u ∧ ∀ p x y, At t p x → At u p y → LeafSame eqv x y) := by
  obtain ⟨b, hb, hi⟩ := compare_iff (f := leafEqual eqv mixed) ht hu fun _ p x y h1 h2 => (leafEqual_spec (hp p x y h1 h2)).imp fun _ h => h.1
  refine ⟨b, hb, hi.trans (and_congr_right fun _ => ?_)⟩
  refine forall_congr' fun p => forall_congr' fun x => forall_congr' fun y => forall_congr' fun h1 => forall_congr' fun h2 => ?_
  obtain ⟨c, hc, hci⟩ := leafEqual_spec (eqv := eqv) (mixed := mixed) (hp p x y h1 h2)
  rw [hc, ← hci]
  simp

/-- The result does not depend on the order of the arguments. -/
theorem C90_symmetric [DecidableEq O] (eqv : V → V → Bool) (mixed : NArr V → O → Except PyErr Bool) (he : ∀ x y, eqv x y = eqv y x) {t u : Tree (Leaf V O)} (ht : KeysOk t) (hu : KeysOk u)
    (hp : ∀ p x y, At t p x → At u p y → SameKind x y) : allEqual eqv mixed t u = allEqual eqv mixed u t := by
  have hk : ∀ {x y : Leaf V O}, SameKind x y → SameKind y x := by
    intro x y; cases x <;> cases y <;> simp [SameKind]
  have hl : ∀ {x y : Leaf V O}, LeafSame eqv x y → LeafSame eqv y x := by
    intro x y
    cases x <;> cases y <;> simp only [LeafSame, imp_self]
    · rintro ⟨h1, h2⟩
      exact ⟨h1.symm, fun i hi => by rw [he]; exact h2 i (h1 ▸ hi)⟩
    · exact Eq.symm
  obtain ⟨b, hb, hi⟩ := C90_equal eqv mixed ht hu hp
  obtain ⟨c, hc, hj⟩ := C90_equal eqv mixed hu ht fun p x y h1 h2 => hk (hp p y x h2 h1)
  rw [hb, hc]
  congr 1
  rw [Bool.eq_iff_iff, hi, hj]
  exact ⟨fun h => ⟨h.1.symm, fun p x y h1 h2 => hl (h.2 p y x h2 h1)⟩, fun h => ⟨h.1.symm, fun p x y h1 h2 => hl (h.2 p y x h2 h1)⟩⟩

/-- A tree equals itself exactly if all its numbers equal themselves, that is, if it has no NaN. -/
theorem C90_reflexive [DecidableEq O] (eqv : V → V → Bool) (mixed : NArr V → O → Except PyErr Bool) {t : Tree (Leaf V O)} (ht : KeysOk t) (hp : ∀ p a, ¬ At t p (.numpy a)) :
    allEqual eqv mixed t t = .ok true ↔ ∀ p a, At t p (.jax a) → ∀ i, InB a.shape i → eqv (a.val i) (a.val i) = true := by
  obtain ⟨b, hb, hi⟩ := C90_equal eqv mixed ht ht fun p x y h1 h2 => by
    have := at_unique ht h1 h2
    subst this
    cases x with
    | jax a => trivial
    | numpy a => exact absurd h1 (hp p a)
    | obj o => trivial
  rw [hb, Except.ok.injEq, hi]
  constructor
  · intro h p a h1 i hi
    exact (h.2 p _ _ h1 h1).2 i hi
  · refine fun h => ⟨rfl, fun p x y h1 h2 => ?_⟩
    have := at_unique ht h1 h2
    subst this
    cases x with
    | jax a => exact ⟨rfl, h p a h1⟩
    | numpy a => exact absurd h1 (hp p a)
    | obj o => rfl

/-- A concrete case: two dictionaries in different order. -/
example : allEqual (V := ℤ) (O := ℕ) (fun x y => decide (x = y)) (fun _ _ => .ok true) (.dict [("b".toList, .leaf (.obj 3)), ("a".toList, .leaf (.jax ⟨[2], fun i => i.headD 0⟩))])
    (.dict [("a".toList, .leaf (.jax ⟨[2], fun i => i.headD 0⟩)), ("b".toList, .leaf (.obj 3))]) = .ok true := by decide +kernel

/-- NumPy arrays are not recognised as arrays: comparing an array with more than one entry with itself raises. -/
theorem C90_numpy_refuted : ∃ a : NArr ℤ, allEqual (O := ℕ) (fun x y => decide (x = y)) (fun _ _ => .ok true) (.leaf (.numpy a)) (.leaf (.numpy a)) = .error .valueError :=
  ⟨⟨[2], fun _ => 0⟩, by decide +kernel⟩

/-! ## Shapes -/

theorem map_leaf_norm (l : List Nat) : Tree.norm (Tree.tuple (l.map Tree.leaf)) = Tree.tuple (l.map Tree.leaf) := by
  simp only [Tree.norm]
  congr 1
  induction l with
  | nil => rfl
  | cons a l ih => simp [normL, Tree.norm, ih]

theorem norm_ints (s : Tree (List Nat)) : (ints s).norm = ints s.norm := by
  unfold ints
  rw [norm_bind]
  congr 1
  funext l
  exact map_leaf_norm l

theorem leaf_map_inj : ∀ {l m : List Nat}, l.map Tree.leaf = m.map Tree.leaf → l = m
  | [], [], _ => rfl
  | [], _ :: _, h => by simp at h
  | _ :: _, [], h => by simp at h
  | a :: l, b :: m, h => by
    simp only [List.map_cons, List.cons.injEq, Tree.leaf.injEq] at h
    rw [h.1, leaf_map_inj h.2]

/-- No container is an empty tuple. -/
def NoUnit (s : Tree (List Nat)) : Prop := ∀ p, ¬ Sub s p (.tuple [])

theorem ints_ne_leaf : ∀ (s : Tree (List Nat)) (n : Nat), ints s ≠ .leaf n
  | .leaf _, _ => fun h => nomatch h
  | .none, _ => fun h => nomatch h
  | .list _, _ => fun h => nomatch h
  | .tuple _, _ => fun h => nomatch h
  | .dict _, _ => fun h => nomatch h

theorem leaf_tuple {l : List Nat} {ts : List (Tree (List Nat))} (h : l.map Tree.leaf = bindL (fun l => Tree.tuple (l.map Tree.leaf)) ts) : ts = [] := by
  cases ts with
  | nil => rfl
  | cons t ts =>
    cases l with
    | nil => simp [bindL] at h
    | cons n l =>
      simp only [List.map_cons, bindL, List.cons.injEq] at h
      exact absurd h.1.symm (ints_ne_leaf t n)

mutual
theorem ints_inj : ∀ (s t : Tree (List Nat)), NoUnit s → NoUnit t → ints s = ints t → s = t
  | .leaf l, t, _, ht, h => by
    cases t with
    | leaf m => simp only [ints, Tree.bind, Tree.tuple.injEq] at h; rw [leaf_map_inj h]
    | tuple ts =>
      simp only [ints, Tree.bind, Tree.tuple.injEq] at h
      have := leaf_tuple h
      subst this
      exact absurd (Sub.here _) (ht [])
    | none => simp [ints, Tree.bind] at h
    | list => simp [ints, Tree.bind] at h
    | dict => simp [ints, Tree.bind] at h
  | .none, t, _, _, h => by cases t <;> simp [ints, Tree.bind] at h ⊢
  | .list ts, t, hs, ht, h => by
    cases t <;> simp only [ints, Tree.bind, Tree.list.injEq, reduceCtorEq] at h ⊢
    exact intsL_inj ts _ (fun i t hi p hp => hs _ (.list hi hp)) (fun i t hi p hp => ht _ (.list hi hp)) h
  | .tuple ts, t, hs, ht, h => by
    cases t with
    | leaf m =>
      simp only [ints, Tree.bind, Tree.tuple.injEq] at h
      have := leaf_tuple h.symm
      subst this
      exact absurd (Sub.here _) (hs [])
    | tuple us =>
      simp only [ints, Tree.bind, Tree.tuple.injEq] at h
      rw [intsL_inj ts us (fun i t hi p hp => hs _ (.tuple hi hp)) (fun i t hi p hp => ht _ (.tuple hi hp)) h]
    | none => simp [ints, Tree.bind] at h
    | list => simp [ints, Tree.bind] at h
    | dict => simp [ints, Tree.bind] at h
  | .dict ts, t, hs, ht, h => by
    cases t <;> simp only [ints, Tree.bind, Tree.dict.injEq, reduceCtorEq] at h ⊢
    exact intsD_inj ts _ (fun k t hi p hp => hs _ (.dict hi hp)) (fun k t hi p hp => ht _ (.dict hi hp)) h
theorem intsL_inj : ∀ (ts us : List (Tree (List Nat))), (∀ (i : Nat) t, ts[i]? = some t → NoUnit t) → (∀ (i : Nat) t, us[i]? = some t → NoUnit t) →
    bindL (fun l => Tree.tuple (l.map Tree.leaf)) ts = bindL (fun l => Tree.tuple (l.map Tree.leaf)) us → ts = us
  | [], [], _, _, _ => rfl
  | [], _ :: _, _, _, h => by simp [bindL] at h
  | _ :: _, [], _, _, h => by simp [bindL] at h
  | t :: ts, u :: us, h1, h2, h => by
    simp only [bindL, List.cons.injEq] at h
    rw [ints_inj t u (h1 0 t rfl) (h2 0 u rfl) h.1, intsL_inj ts us (fun i t hi => h1 (i + 1) t hi) (fun i t hi => h2 (i + 1) t hi) h.2]
theorem intsD_inj : ∀ (ts us : List (Str × Tree (List Nat))), (∀ k t, (k, t) ∈ ts → NoUnit t) → (∀ k t, (k, t) ∈ us → NoUnit t) →
    bindD (fun l => Tree.tuple (l.map Tree.leaf)) ts = bindD (fun l => Tree.tuple (l.map Tree.leaf)) us → ts = us
  | [], [], _, _, _ => rfl
  | [], _ :: _, _, _, h => by simp [bindD] at h
  | _ :: _, [], _, _, h => by simp [bindD] at h
  | (k, t) :: ts, (k', u) :: us, h1, h2, h => by
    simp only [bindD, List.cons.injEq, Prod.mk.injEq] at h
    rw [h.1.1, ints_inj t u (h1 k t List.mem_cons_self) (h2 k' u List.mem_cons_self) h.1.2,
      intsD_inj ts us (fun k t hi => h1 k t (List.mem_cons_of_mem _ hi)) (fun k t hi => h2 k t (List.mem_cons_of_mem _ hi)) h.2]
end

theorem keysOk_ints {s : Tree (List Nat)} (h : KeysOk s) : KeysOk (ints s) := by
  refine keysOk_bind _ s h fun l hl => ?_
  clear hl
  show KeysOkL (l.map Tree.leaf)
  induction l with
  | nil => trivial
  | cons a l ih => exact ⟨trivial, ih⟩

theorem shapesEqual_eq {s t : Tree (List Nat)} (hs : KeysOk s) (ht : KeysOk t) : shapesEqual s t = .ok (decide (ints s.norm = ints t.norm)) := by
  obtain ⟨b, hb, hi⟩ := compare_iff (f := fun a b : Nat => .ok (decide (a = b))) (keysOk_ints hs) (keysOk_ints ht) fun _ _ _ _ _ _ => ⟨_, rfl⟩
  unfold shapesEqual
  rw [hb]
  congr 1
  rw [Bool.eq_iff_iff, hi, decide_eq_true_iff, ← norm_ints, ← norm_ints]
  constructor
  · rintro ⟨h1, h2⟩
    obtain ⟨z, e1, e2⟩ := exists_zip _ _ h1
    have hz := flat_zip e1 e2
    refine tree_ext h1 ?_
    rw [← e1, ← e2, Props.flat_map, Props.flat_map]
    refine List.map_congr_left fun x hx => ?_
    rw [hz] at hx
    obtain ⟨p, h3, h4⟩ := (mem_zip_at (keysOk_ints hs) (keysOk_ints ht) h1 x).1 hx
    simpa using h2 p _ _ h3 h4
  · intro h
    refine ⟨congrArg _ h, fun p x y h1 h2 => ?_⟩
    rw [← at_norm] at h1 h2
    rw [h] at h1
    simp [at_unique (keysOk_norm' (keysOk_ints ht)) h1 h2]

/-- A compiled model takes data exactly if the data has the containers that it was compiled for, and arrays of the right shapes in them, whatever the number of samples. Otherwise it is a `ValueError`. (Empty
tuples apart.) -/
theorem C90_verify {s : Tree (List Nat)} {X : Tree (NArr V)} (hs : KeysOk s) (hX : KeysOk X) (hns : NoUnit s.norm) (hnX : NoUnit (sampleShapes X)) :
    verify s X = if s.norm = map (fun x => x.shape.drop 1) X.norm then .ok () else .error .valueError := by
  have hk : KeysOk (sampleShapes X) := (keysOk_map _ _).2 (keysOk_norm' hX)
  have hn : (sampleShapes X).norm = sampleShapes X := by
    unfold sampleShapes
    rw [Tree.norm_map, norm_norm hX]
  unfold verify
  rw [shapesEqual_eq hs hk, hn]
  change _ = if s.norm = sampleShapes X then _ else _
  by_cases h : s.norm = sampleShapes X
  · rw [if_pos h, h]; simp
  · rw [if_neg h]
    have : ints s.norm ≠ ints (sampleShapes X) := fun h' => h (ints_inj _ _ hns hnX h')
    simp [this]

/-- Shapes without a number are empty tuples to the comparison: a model that was compiled for one number per sample takes data without any arrays. -/
theorem C90_scalar_refuted : ∃ (s : Tree (List Nat)) (X : Tree (NArr ℤ)), flat X = [] ∧ flat s ≠ [] ∧ verify s X = .ok () :=
  ⟨.leaf [], .tuple [], rfl, by decide, by decide +kernel⟩

/-- A concrete case. -/
example : verify (V := ℤ) (.dict [("b".toList, .leaf [3]), ("a".toList, .leaf [2, 2])]) (.dict [("a".toList, .leaf ⟨[7, 2, 2], fun _ => 0⟩), ("b".toList, .leaf ⟨[7, 3], fun _ => 0⟩)]) = .ok () := by
  decide +kernel

/-! ## Close trees -/

/-- Two leaves are close: arrays of the same shape with close entries, or equal objects. -/
def LeafNear (close : V → V → Bool) : Leaf V O → Leaf V O → Prop
  | .jax a, .jax b => ∀ i, InB a.shape i → close (a.val i) (b.val i) = true
  | .obj o, .obj p => o = p
  | _, _ => False

/-- Two JAX arrays of the same shape, or two objects. -/
def SameForm : Leaf V O → Leaf V O → Prop
  | .jax a, .jax b => a.shape = b.shape
  | .obj _, .obj _ => True
  | _, _ => False

theorem bidx_self {s i : List Nat} (h : InB s i) : NArr.bidx s i = i := by
  obtain ⟨hl, hb⟩ := h
  refine List.ext_getElem? fun k => ?_
  simp only [NArr.bidx, hl, Nat.sub_self, List.drop_zero, List.getElem?_zipWith]
  rcases hs : s[k]? with _ | d
  · have : i[k]? = Option.none := by rw [List.getElem?_eq_none_iff] at hs ⊢; omega
    simp [this]
  · rcases hi : i[k]? with _ | j
    · simp
    · have := hb k d j hs hi
      by_cases h1 : d = 1
      · simp [h1]; omega
      · simp [h1]

theorem leafClose_spec [DecidableEq O] {eqv close : V → V → Bool} {mixed : NArr V → O → Except PyErr Bool} {x y : Leaf V O} (h : SameForm x y) :
    ∃ b, leafClose eqv close mixed x y = .ok b ∧ (b = true ↔ LeafNear close x y) := by
  cases x with
  | jax a =>
    cases y with
    | jax c =>
      have hs : a.shape = c.shape := h
      refine ⟨(NArr.indices a.shape).all fun i => close (a.val (NArr.bidx a.shape i)) (c.val (NArr.bidx c.shape i)), ?_, ?_⟩
      · show arrayClose close a c = _
        unfold arrayClose NArr.bop
        rw [← hs, NArr.bshape_self]
        simp [NArr.entries, List.all_map, Function.comp_def]
      · rw [List.all_eq_true]
        show _ ↔ ∀ i, InB a.shape i → close (a.val i) (c.val i) = true
        refine forall_congr' fun i => ?_
        rw [NArr.mem_indices]
        refine forall_congr' fun hi => ?_
        rw [← hs, bidx_self hi]
    | numpy c => exact h.elim
    | obj o => exact h.elim
  | numpy a => cases y <;> exact h.elim
  | obj o =>
    cases y with
    | obj q => exact ⟨_, rfl, by simp [LeafNear]⟩
    | jax a => exact h.elim
    | numpy a => exact h.elim

/-- What comparing two NumPy arrays of the same shape does: with exactly one entry it compares the entries, otherwise it raises. -/
theorem C90_numpy [DecidableEq O] (eqv : V → V → Bool) (mixed : NArr V → O → Except PyErr Bool) {a b : NArr V} (hs : a.shape = b.shape) :
    (a.size = 1 → ∃ i, InB a.shape i ∧ allEqual eqv mixed (.leaf (.numpy a)) (.leaf (.numpy b)) = .ok (eqv (a.val i) (b.val i))) ∧
    (a.size ≠ 1 → allEqual eqv mixed (.leaf (.numpy a)) (.leaf (.numpy b)) = .error .valueError) := by
  have hall : allEqual eqv mixed (.leaf (.numpy a)) (.leaf (.numpy b)) = (arrayNe eqv a b).map (!·) := by
    show loop _ _ = _
    unfold loop
    show (match (arrayNe eqv a b).map (!·) with | .error e => _ | .ok false => _ | .ok true => _) = _
    rcases arrayNe eqv a b with e | _ | _ <;> rfl
  have hne : arrayNe eqv a b = match (NArr.indices a.shape).map (fun i => !eqv (a.val (NArr.bidx a.shape i)) (b.val (NArr.bidx a.shape i))) with
      | [x] => .ok x
      | _ => .error .valueError := by
    unfold arrayNe NArr.bop
    rw [← hs, NArr.bshape_self]
    rfl
  have hl := NArr.length_indices a.shape
  rw [hall, hne]
  constructor
  · intro h1
    obtain ⟨i, hi⟩ := List.length_eq_one_iff.1 (hl.trans h1)
    have hb : InB a.shape i := NArr.mem_indices.1 (by rw [hi]; simp)
    refine ⟨i, hb, ?_⟩
    rw [hi, List.map_cons, List.map_nil, bidx_self hb]
    simp [Except.map]
  · intro h1
    have : (NArr.indices a.shape).length ≠ 1 := fun e => h1 (hl.symm.trans e)
    match hi : NArr.indices a.shape with
    | [] => rfl
    | [i] => rw [hi] at this; exact absurd rfl this
    | i :: j :: r => rfl

example : allEqual (V := ℤ) (O := ℕ) (fun x y => decide (x = y)) (fun _ _ => .ok true) (.leaf (.numpy ⟨[1, 1], fun _ => 2⟩)) (.leaf (.numpy ⟨[1, 1], fun _ => 3⟩)) = .ok false := by
  decide +kernel

/-- `all_close` of two trees whose arrays have the same shapes is true exactly if the trees have the same containers, the entries of the arrays are close and all other leaves are equal. -/
theorem C90_close [DecidableEq O] (eqv close : V → V → Bool) (mixed : NArr V → O → Except PyErr Bool) {t u : Tree (Leaf V O)} (ht : KeysOk t) (hu : KeysOk u)
    (hp : ∀ p x y, At t p x → At u p y → SameForm x y) :
    ∃ b, allClose eqv close mixed t u = .ok b ∧ (b = true ↔ SameContainers t u ∧ ∀ p x y, At t p x → At u p y → LeafNear close x y) := by
  obtain ⟨b, hb, hi⟩ := compare_iff (f := leafClose eqv close mixed) ht hu fun _ p x y h1 h2 => (leafClose_spec (hp p x y h1 h2)).imp fun _ h => h.1
  refine ⟨b, hb, hi.trans (and_congr_right fun _ => ?_)⟩
  refine forall_congr' fun p => forall_congr' fun x => forall_congr' fun y => forall_congr' fun h1 => forall_congr' fun h2 => ?_
  obtain ⟨c, hc, hci⟩ := leafClose_spec (eqv := eqv) (close := close) (mixed := mixed) (hp p x y h1 h2)
  rw [hc, ← hci]
  simp

/-- `np.isclose` of two numbers with the default tolerances. -/
def isClose (a b : ℚ) : Bool := decide (|a - b| ≤ 1 / 100000000 + 1 / 100000 * |b|)

/-- Arrays of different shapes are broadcast: an array with one entry is close to an array with two entries. -/
theorem C90_close_broadcast_refuted : ∃ a b : NArr ℚ, a.shape ≠ b.shape ∧ allClose (O := ℕ) (fun x y => decide (x = y)) isClose (fun _ _ => .ok true) (.leaf (.jax a)) (.leaf (.jax b)) = .ok true :=
  ⟨⟨[1], fun _ => 1⟩, ⟨[2], fun _ => 1⟩, by decide, by decide +kernel⟩

/-- Arrays whose shapes do not fit raise instead of being different. -/
theorem C90_close_raises_refuted : ∃ (a b : NArr ℚ) (e : PyErr), allClose (O := ℕ) (fun x y => decide (x = y)) isClose (fun _ _ => .ok true) (.leaf (.jax a)) (.leaf (.jax b)) = .error e :=
  ⟨⟨[2], fun _ => 1⟩, ⟨[3], fun _ => 1⟩, .typeError, by decide +kernel⟩

/-- The order of the arguments matters: the relative tolerance is measured with the second one. -/
theorem C90_close_order_refuted : ∃ t u : Tree (Leaf ℚ ℕ), allClose (fun x y => decide (x = y)) isClose (fun _ _ => .ok true) t u ≠ allClose (fun x y => decide (x = y)) isClose (fun _ _ => .ok true) u t :=
  ⟨.leaf (.jax ⟨[], fun _ => 1 - 1001 / 100000000⟩), .leaf (.jax ⟨[], fun _ => 1⟩), by decide +kernel⟩

/-- A concrete case. -/
example : allClose (O := ℕ) (fun x y => decide (x = y)) isClose (fun _ _ => .ok true) (.list [.leaf (.jax ⟨[2], fun _ => 1⟩), .leaf (.obj 2)])
    (.list [.leaf (.jax ⟨[2], fun _ => 1 + 1 / 1000000⟩), .leaf (.obj 2)]) = .ok true := by decide +kernel

end Verif.Props
