import Verif.Props.Reshape
import Verif.Props.Eigen
import Verif.Lemmas.NonSeqShape

/-!
# C60: flattening and concatenating leaves
-/

namespace Verif.Props
open Reshape ReshapeSpec Tree ForwardSpec NArr NdSpec

variable {V : Type}

theorem concretify_flat (s : List Nat) : concretify (some s) (some [-1]) = .ok (some [((count s : Nat) : Int)]) := by
  unfold concretify
  simp [prod_eq_count]

theorem sameStruct_target (s : Tree (Option (List Nat))) (hk : KeysOk s) (hs : isInts s = true → ∃ o, s = .leaf o) :
    sameStruct s.norm (flattenTarget s).norm = true ∧ KeysOk (flattenTarget s) := by
  unfold flattenTarget
  split
  · rename_i h
    obtain ⟨o, rfl⟩ := hs h
    exact ⟨rfl, trivial⟩
  · rw [sameStruct_iff, norm_map, norm_norm hk, map_map]
    exact ⟨rfl, (keysOk_map _ _).2 (keysOk_norm' hk)⟩

theorem flatten_at (s : Tree (Option (List Nat))) {p : List ForwardSpec.Step} {b : Option (List Int)} (h : At (flattenTarget s) p b) :
    b = some [-1] := by
  unfold flattenTarget at h
  split at h
  · cases h; rfl
  · obtain ⟨a, -, e⟩ := at_map.1 h
    exact e.symm

theorem hasNone_map (f : NArr V → List Nat) (data : Tree (NArr V)) : hasNone (map (fun x => some (f x)) data) = false := by
  have key : ∀ ts : List (Tree (NArr V)), (mapL (fun x => some (f x)) ts).any isNoneLeaf = false := by
    intro ts
    induction ts with
    | nil => rfl
    | cons t ts ih => cases t <;> simp [mapL, map, isNoneLeaf, ih]
  cases data <;> simp only [map, hasNone, key]

theorem outputShape_node (t : Target) (s : Tree (Option (List Nat))) (h1 : s ≠ .leaf Option.none) (h2 : s ≠ .none) (h3 : hasNone s = false)
    (h4 : isInts s = false) (h5 : isInts t = false) : outputShape (some t) s = concretifyTree s t := by
  have key : ∀ r : Except PyErr Target, (match r with | .error e => .error e | .ok r => .ok r) = r := fun r => by cases r <;> rfl
  cases s with
  | leaf o => cases o with
    | none => exact absurd rfl h1
    | some o => cases h4
  | none => exact absurd rfl h2
  | list ts => simp only [outputShape, h3, h4, h5, Bool.false_eq_true, if_false]; exact key _
  | tuple ts => simp only [outputShape, h3, h4, h5, Bool.false_eq_true, if_false]; exact key _
  | dict ts => simp only [outputShape, h3, h4, h5, Bool.false_eq_true, if_false]; exact key _

theorem flatten_total_node (s : Tree (Option (List Nat))) (hk : KeysOk s) (h1 : s ≠ .leaf Option.none) (h2 : s ≠ .none) (h3 : hasNone s = false)
    (h4 : isInts s = false) (h5 : ∀ p o, At s p o → ∃ sh, o = some sh) : ∃ out, flattenShape s = .ok out := by
  obtain ⟨hstr, hkt⟩ := sameStruct_target s hk (fun h => by rw [h4] at h; cases h)
  have ht : isInts (flattenTarget s) = false := by
    by_contra hc
    have := isInts_struct (sameStruct_symm hstr) (by simpa using hc) h1
    rw [h4] at this
    cases this
  unfold flattenShape
  rw [outputShape_node _ _ h1 h2 h3 h4 ht]
  unfold concretifyTree
  rw [if_pos hstr]
  refine jaxMap_total (us := [flattenTarget s]) (fun u hu => ?_) fun p a bs ha hbs => ?_
  · cases hu with
    | head => exact ⟨hkt, (sameStruct_iff _ _).1 hstr⟩
    | tail _ hu => cases hu
  · cases hbs with
    | cons hb hn =>
      cases hn
      have := flatten_at s hb
      subst this
      obtain ⟨sh, rfl⟩ := h5 p a ha
      simp only [List.map_cons, List.map_nil, concretify_flat]
      exact ⟨_, rfl⟩

theorem flatten_total (data : Tree (NArr V)) (hk : KeysOk data) {p₀ : List ForwardSpec.Step} {x₀ : NArr V} (h₀ : At data p₀ x₀) :
    (∃ out, flattenShape (map (fun x : NArr V => some x.shape.tail) data) = .ok out) ∧
      (isInts (map (fun x : NArr V => some x.shape.tail) data) = true → ∃ o, map (fun x : NArr V => some x.shape.tail) data = .leaf o) := by
  have hs : ∀ p o, At (map (fun x : NArr V => some x.shape.tail) data) p o → ∃ sh, o = some sh := fun p o h => by
    obtain ⟨x, -, rfl⟩ := at_map.1 h
    exact ⟨_, rfl⟩
  have hn := hasNone_map (fun x : NArr V => x.shape.tail) data
  have hk' : KeysOk (map (fun x : NArr V => some x.shape.tail) data) := (keysOk_map _ _).2 hk
  cases data with
  | leaf x =>
    refine ⟨?_, fun _ => ⟨_, rfl⟩⟩
    unfold flattenShape flattenTarget outputShape
    simp only [map, isInts, if_true, hasNone, Bool.false_eq_true, if_false]
    unfold concretifyTree
    have : sameStruct (Tree.norm (Tree.tuple [Tree.leaf (some x.shape.tail)])) (Tree.norm (Tree.tuple [Tree.leaf (some [(-1 : Int)])])) = true := rfl
    rw [if_pos this]
    simp [jaxMap, zipAll, Tree.norm, normL, map, mapL, zipPre, zipPreL, Tree.mapM, mapML, concretify_flat]
  | none => cases h₀
  | list ts =>
    have h4 : isInts (map (fun x : NArr V => some x.shape.tail) (.list ts)) = false := by
      cases h₀ with
      | list hi _ => cases ts with
        | nil => cases hi
        | cons _ _ => rfl
    exact ⟨flatten_total_node _ hk' (by simp [map]) (by simp [map]) hn h4 hs, fun h => by rw [h4] at h; cases h⟩
  | tuple ts =>
    have h4 : isInts (map (fun x : NArr V => some x.shape.tail) (.tuple ts)) = false := by
      cases h₀ with
      | tuple hi _ => cases ts with
        | nil => cases hi
        | cons _ _ => rfl
    exact ⟨flatten_total_node _ hk' (by simp [map]) (by simp [map]) hn h4 hs, fun h => by rw [h4] at h; cases h⟩
  | dict ts =>
    have h4 : isInts (map (fun x : NArr V => some x.shape.tail) (.dict ts)) = false := by
      cases h₀ with
      | dict hi _ => cases ts with
        | nil => cases hi
        | cons _ _ => rfl
    exact ⟨flatten_total_node _ hk' (by simp [map]) (by simp [map]) hn h4 hs, fun h => by rw [h4] at h; cases h⟩

/-- **C60 (flatten).** For every tree of arrays with a nonempty batch, flattening succeeds, keeps the structure, and makes every array two-dimensional:
one axis after the batch axis, with the entries of each sample in the same order. The declared shape says so. -/
theorem C60_flatten (data : Tree (NArr V)) (hk : KeysOk data) (hb : ∀ p x, At data p x → ∃ b s, x.shape = b :: s ∧ 0 < b)
    (p₀ : List ForwardSpec.Step) (x₀ : NArr V) (h₀ : At data p₀ x₀) :
    ∃ out data', flattenShape (map (fun x : NArr V => some x.shape.tail) data) = .ok out ∧
      callable (some (flattenTarget (map (fun x : NArr V => some x.shape.tail) data))) data = .ok data' ∧
      map (fun _ => ()) data' = map (fun _ => ()) data.norm ∧
      ∀ p x, At data p x → At out p (some [((count x.shape.tail : Nat) : Int)]) ∧
        ∃ y, At data' p y ∧ y.shape = [x.shape.headD 0, count x.shape.tail] ∧ ∀ k, k < x.shape.headD 0 → sample y k = sample x k := by
  obtain ⟨⟨out, ho⟩, hi⟩ := flatten_total data hk h₀
  obtain ⟨hstr, hkt⟩ := sameStruct_target _ ((keysOk_map _ _).2 hk) hi
  have hstr' : sameStruct data.norm (flattenTarget (map (fun x : NArr V => some x.shape.tail) data)).norm = true := by
    have := (sameStruct_iff _ _).1 hstr
    rw [norm_map, map_map] at this
    exact (sameStruct_iff _ _).2 this
  obtain ⟨data', h1, h2, h3⟩ := C59_call (flattenTarget (map (fun x : NArr V => some x.shape.tail) data)) out data hk hkt hstr' hb
    (fun p d h => by
      have := flatten_at _ h
      cases this
      intro n hn
      simp only [List.mem_singleton] at hn
      omega) ho
  refine ⟨out, data', ho, h1, h2, fun p x hx => ?_⟩
  obtain ⟨tgt, y, h4, h5, -, h6⟩ := h3 p x hx
  have := flatten_at _ h4
  subst this
  obtain ⟨r, h7, h8, h9, -, h10, h11⟩ := h6 _ rfl
  have hr : r = [count x.shape.tail] := by
    cases h8 with
    | cons _ hn =>
      cases hn
      rw [← h9]
      simp [count]
  subst hr
  exact ⟨h7, y, h5, h10, h11⟩

example : flattenShape (map (fun x => some x.shape.tail) reshapeData)
    = .ok (.dict [("a".toList, .list [.leaf (some [12])]), ("b".toList, .leaf (some [4]))]) := by decide +kernel

/-! ### Reading a normalised tree -/

theorem lookup_perm {γ : Type} {l l' : List (Str × γ)} (h : l.Perm l') (hn : (l.map Prod.fst).Nodup) (k : Str) : l.lookup k = l'.lookup k := by
  have hn' : (l'.map Prod.fst).Nodup := (h.map _).nodup_iff.1 hn
  cases e : l.lookup k with
  | some v => exact (lookup_of_mem hn' (h.mem_iff.1 (lookup_mem e))).symm
  | none =>
    cases e' : l'.lookup k with
    | none => rfl
    | some v =>
      have := lookup_of_mem hn (h.mem_iff.2 (lookup_mem e'))
      rw [e] at this
      cases this

theorem lookup_normD {β : Type} (kvs : List (Str × Tree β)) (k : Str) : (normD kvs).lookup k = (kvs.lookup k).map Tree.norm := by
  induction kvs with
  | nil => rfl
  | cons x kvs ih =>
    obtain ⟨k', t⟩ := x
    simp only [normD, List.lookup_cons]
    split
    · rfl
    · exact ih

theorem normD_keys {β : Type} (kvs : List (Str × Tree β)) : (normD kvs).map Prod.fst = kvs.map Prod.fst := by
  induction kvs with
  | nil => rfl
  | cons x kvs ih => simp only [normD, List.map_cons, ih]

theorem normL_get {β : Type} (ts : List (Tree β)) (i : Nat) : (normL ts)[i]? = ts[i]?.map Tree.norm := by
  induction ts generalizing i with
  | nil => rfl
  | cons t ts ih => cases i with
    | zero => rfl
    | succ i => simpa [normL] using ih i

theorem child_norm {β : Type} {t : Tree β} (hk : KeysOk t) (k : Str) : child t.norm k = (child t k).map Tree.norm := by
  cases t with
  | leaf b => rfl
  | none => rfl
  | list ts =>
    simp only [Tree.norm, child, normL_get]
    split
    · rfl
    · cases ts[toInt k]? <;> rfl
  | tuple ts =>
    simp only [Tree.norm, child, normL_get]
    split
    · rfl
    · cases ts[toInt k]? <;> rfl
  | dict kvs =>
    simp only [Tree.norm, child]
    rw [lookup_perm (sortKvs_perm _) ((sortKvs_perm _).map _ |>.nodup_iff.2 (by rw [normD_keys]; exact hk.1)), lookup_normD]
    cases kvs.lookup k <;> rfl

theorem keysOkL_get {β : Type} {ts : List (Tree β)} (hk : KeysOkL ts) {i : Nat} {c : Tree β} (h : ts[i]? = some c) : KeysOk c := by
  induction ts generalizing i with
  | nil => cases h
  | cons t ts ih => cases i with
    | zero => cases h; exact hk.1
    | succ i => exact ih hk.2 h

theorem keysOkD_mem {β : Type} {ts : List (Str × Tree β)} (hk : KeysOkD ts) {k : Str} {c : Tree β} (h : (k, c) ∈ ts) : KeysOk c := by
  induction ts with
  | nil => cases h
  | cons t ts ih => cases h with
    | head => exact hk.1
    | tail _ h => exact ih hk.2 h

theorem keysOk_child {β : Type} {t c : Tree β} (hk : KeysOk t) {k : Str} (h : child t k = .ok c) : KeysOk c := by
  cases t with
  | leaf b => cases h
  | none => cases h
  | list ts =>
    simp only [child] at h
    split at h
    · cases h
    · split at h
      · rename_i c' hc; cases h; exact keysOkL_get hk hc
      · cases h
  | tuple ts =>
    simp only [child] at h
    split at h
    · cases h
    · split at h
      · rename_i c' hc; cases h; exact keysOkL_get hk hc
      · cases h
  | dict kvs =>
    simp only [child] at h
    split at h
    · rename_i c' hc; cases h; exact keysOkD_mem hk.2 (lookup_mem hc)
    · cases h

theorem get_norm {β : Type} (p : List Str) : ∀ {t : Tree β}, KeysOk t → Tree.get t.norm p = (Tree.get t p).map Tree.norm := by
  induction p with
  | nil => intro t _; simp [Except.map]
  | cons k ks ih =>
    intro t hk
    by_cases h : k = [] ∧ ks = []
    · obtain ⟨rfl, rfl⟩ := h
      simp [Except.map]
    · rw [get_cons _ _ _ h, get_cons _ _ _ h, child_norm hk]
      cases hc : child t k with
      | error e => rfl
      | ok c => exact ih (keysOk_child hk hc)

/-! ### Lists of leaves -/

/-- **C60 (order of the leaves).** The leaves are listed in the left-to-right order of their places (dictionary keys alphabetically), each exactly
once. -/
theorem C60_leaf_order {β : Type} (data : Tree β) (hk : KeysOk data) :
    ∃ es : List (List ForwardSpec.Step × β), (es.Pairwise fun a b => Precedes a.1 b.1) ∧ (∀ p a, (p, a) ∈ es ↔ At data p a) ∧
      selectLeaves Option.none data = .ok (es.map Prod.snd) ∧ treeFlatten data = .list (es.map fun e => .leaf e.2) := by
  have hl : jaxLeaves data = (entries data.norm).map Prod.snd := (entries_snd _).symm
  refine ⟨entries data.norm, entries_sorted _ (sorted_norm _ hk), fun p a => ?_, ?_, ?_⟩
  · rw [mem_entries, at_norm]
  · unfold selectLeaves
    simp only [hl]
  · unfold treeFlatten
    rw [hl, List.map_map]
    rfl

example : treeFlatten (map (fun x => x.shape) reshapeData) = .list [.leaf [2, 2, 6], .leaf [2, 4]] := by decide +kernel

/-- **C60 (leaves by path).** With paths given, exactly the arrays at these paths are taken, in the order of the paths. -/
theorem C60_paths {β : Type} (data : Tree β) (ps : List (List Str)) (leaves : List β) (h : selectLeaves (some ps) data = .ok leaves) :
    List.Forall₂ (fun p x => Tree.get data p = .ok (.leaf x)) ps leaves := by
  unfold selectLeaves at h
  refine (mapM_forall₂ h).imp fun p x hx => ?_
  split at hx
  · cases hx
  · cases hx; assumption
  · cases hx

example : selectLeaves (some [["b".toList], ["a".toList, "0".toList], ["b".toList]]) (map (fun x => x.shape) reshapeData)
    = .ok [[2, 4], [2, 2, 6], [2, 4]] := by decide +kernel

mutual
theorem shapeLeaves_flat : ∀ t : Tree (List Nat), (∀ p, ¬ Sub t p .none) → (∀ p, ¬ Sub t p (.tuple [])) → shapeLeaves t = (flat t).map some
  | .leaf _, _, _ => rfl
  | .none, h, _ => absurd (Sub.here _) (h [])
  | .list ts, h, h' => by
    rw [shapeLeaves, flat]
    exact shapeLeavesL_flat ts (fun i t hi p hp => h _ (.list hi hp)) (fun i t hi p hp => h' _ (.list hi hp))
  | .tuple [], _, h => absurd (Sub.here _) (h [])
  | .tuple (t :: ts), h, h' => by
    rw [shapeLeaves, flat]
    exact shapeLeavesL_flat (t :: ts) (fun i t hi p hp => h _ (.tuple hi hp)) (fun i t hi p hp => h' _ (.tuple hi hp))
  | .dict ts, h, h' => by
    rw [shapeLeaves, flat]
    exact shapeLeavesD_flat ts (fun k t hi p hp => h _ (.dict hi hp)) (fun k t hi p hp => h' _ (.dict hi hp))
theorem shapeLeavesL_flat : ∀ ts : List (Tree (List Nat)), (∀ (i : Nat) t, ts[i]? = some t → ∀ p, ¬ Sub t p .none) →
    (∀ (i : Nat) t, ts[i]? = some t → ∀ p, ¬ Sub t p (.tuple [])) → shapeLeavesL ts = (flatL ts).map some
  | [], _, _ => rfl
  | t :: ts, h, h' => by
    rw [shapeLeavesL, flatL, List.map_append, shapeLeaves_flat t (h 0 t rfl) (h' 0 t rfl),
      shapeLeavesL_flat ts (fun i t hi => h (i + 1) t hi) (fun i t hi => h' (i + 1) t hi)]
theorem shapeLeavesD_flat : ∀ ts : List (Str × Tree (List Nat)), (∀ k t, (k, t) ∈ ts → ∀ p, ¬ Sub t p .none) →
    (∀ k t, (k, t) ∈ ts → ∀ p, ¬ Sub t p (.tuple [])) → shapeLeavesD ts = (flatD ts).map some
  | [], _, _ => rfl
  | (k, t) :: ts, h, h' => by
    rw [shapeLeavesD, flatD, List.map_append, shapeLeaves_flat t (h k t (by simp)) (h' k t (by simp)),
      shapeLeavesD_flat ts (fun k t hi => h k t (by simp [hi])) (fun k t hi => h' k t (by simp [hi]))]
end

theorem sub_norm_none {β : Type} {p : List ForwardSpec.Step} : ∀ {t : Tree β} {w : Tree β}, Sub t.norm p w → ∃ u, Sub t p u ∧ u.norm = w := by
  induction p with
  | nil =>
    intro t w h
    generalize e : t.norm = n at h
    cases h
    exact ⟨t, .here _, e⟩
  | cons s p ih =>
    intro t w h
    cases t with
    | leaf b => cases h
    | none => cases h
    | list ts =>
      cases h with
      | list hi h =>
        rw [normL_get] at hi
        obtain ⟨c, hc, rfl⟩ := Option.map_eq_some_iff.1 hi
        obtain ⟨u, h1, h2⟩ := ih h
        exact ⟨u, .list hc h1, h2⟩
    | tuple ts =>
      cases h with
      | tuple hi h =>
        rw [normL_get] at hi
        obtain ⟨c, hc, rfl⟩ := Option.map_eq_some_iff.1 hi
        obtain ⟨u, h1, h2⟩ := ih h
        exact ⟨u, .tuple hc h1, h2⟩
    | dict ts =>
      cases h with
      | dict hi h =>
        have hi := (sortKvs_perm _).mem_iff.1 hi
        have : ∀ (l : List (Str × Tree β)) k t, (k, t) ∈ normD l → ∃ c, (k, c) ∈ l ∧ c.norm = t := by
          intro l
          induction l with
          | nil => intro k t h; cases h
          | cons x l ih =>
            intro k t h
            obtain ⟨k', c⟩ := x
            rw [normD] at h
            cases h with
            | head => exact ⟨c, by simp, rfl⟩
            | tail _ h =>
              obtain ⟨c', h1, h2⟩ := ih k t h
              exact ⟨c', by simp [h1], h2⟩
        obtain ⟨c, hc, rfl⟩ := this _ _ _ hi
        obtain ⟨u, h1, h2⟩ := ih h
        exact ⟨u, .dict hc h1, h2⟩

theorem sub_map {β δ : Type} {f : β → δ} {p : List ForwardSpec.Step} : ∀ {t : Tree β} {w : Tree δ}, Sub (map f t) p w → ∃ u, Sub t p u ∧ map f u = w := by
  induction p with
  | nil =>
    intro t w h
    generalize e : map f t = n at h
    cases h
    exact ⟨t, .here _, e⟩
  | cons s p ih =>
    intro t w h
    cases t with
    | leaf b => cases h
    | none => cases h
    | list ts =>
      cases h with
      | list hi h =>
        rw [mapL_eq, List.getElem?_map] at hi
        obtain ⟨c, hc, rfl⟩ := Option.map_eq_some_iff.1 hi
        obtain ⟨u, h1, h2⟩ := ih h
        exact ⟨u, .list hc h1, h2⟩
    | tuple ts =>
      cases h with
      | tuple hi h =>
        rw [mapL_eq, List.getElem?_map] at hi
        obtain ⟨c, hc, rfl⟩ := Option.map_eq_some_iff.1 hi
        obtain ⟨u, h1, h2⟩ := ih h
        exact ⟨u, .tuple hc h1, h2⟩
    | dict ts =>
      cases h with
      | dict hi h =>
        rw [mapD_eq] at hi
        obtain ⟨⟨k, c⟩, hc, e⟩ := List.mem_map.1 hi
        cases e
        obtain ⟨u, h1, h2⟩ := ih h
        exact ⟨u, .dict hc h1, h2⟩

/-- **C60 (declared shapes of the list of leaves).** If the data contains no `None` and no empty tuple, the declared shapes are those of the leaves,
in the order of the leaves. -/
theorem C60_treeflatten (data : Tree (NArr V)) (hn : ∀ p, ¬ Sub data p .none) (ht : ∀ p, ¬ Sub data p (.tuple [])) :
    treeFlattenShape (map (fun x => x.shape.tail) data) = (jaxLeaves data).map fun x => some x.shape.tail := by
  unfold treeFlattenShape
  rw [norm_map, shapeLeaves_flat, flat_map, List.map_map]
  · rfl
  · intro p h
    obtain ⟨u, h1, h2⟩ := sub_map h
    obtain ⟨u', h3, h4⟩ := sub_norm_none h1
    cases u' <;> simp [Tree.norm] at h4 <;> subst h4 <;> simp [map] at h2
    exact hn p h3
  · intro p h
    obtain ⟨u, h1, h2⟩ := sub_map h
    obtain ⟨u', h3, h4⟩ := sub_norm_none h1
    cases u' <;> simp [Tree.norm] at h4 <;> subst h4 <;> simp [map] at h2
    rename_i ts
    cases ts with
    | nil => exact ht p h3
    | cons t ts => simp [normL, mapL] at h2

example : treeFlattenShape (map (fun x => x.shape.tail) reshapeData) = [some [2, 6], some [4]] := by decide +kernel

/-- **C60 refuted for data with `None` or an empty tuple.** These are not leaves of the data, but the declared shapes have an entry for them, so every
shape after them is assigned to the wrong leaf. -/
theorem C60_treeflatten_refuted (x : NArr V) :
    treeFlattenShape (map (fun x => x.shape.tail) (.list [.none, .leaf x])) = [Option.none, some x.shape.tail] ∧
    treeFlattenShape (map (fun x => x.shape.tail) (.list [.tuple [], .leaf x])) = [some [], some x.shape.tail] ∧
    treeFlatten (.list [.none, .leaf x]) = .list [.leaf x] ∧ treeFlatten (.list [.tuple [], .leaf x]) = .list [.leaf x] := ⟨rfl, rfl, rfl, rfl⟩

/-! ### Concatenation -/

theorem getD_lt {l : List Nat} {k : Nat} (h : k < l.length) : l.getD k 0 = l[k] := by simp [List.getD_eq_getElem?_getD, h]

theorem catVal_at {k : Nat} : ∀ {xs : List (NArr V)} {m : Nat} {x : NArr V}, xs[m]? = some x → ∀ {i : List Nat}, k < i.length →
    i.getD k 0 < x.shape.getD k 0 →
    catVal k xs (i.set k (((xs.take m).map fun y => y.shape.getD k 0).sum + i.getD k 0)) = some (x.val i)
  | [], m, x, h, _, _, _ => by cases h
  | y :: ys, 0, x, h, i, hk, hi => by
    cases h
    rw [List.take_zero, List.map_nil, List.sum_nil, Nat.zero_add]
    have : i.set k (i.getD k 0) = i := by
      rw [getD_lt hk]
      exact List.set_getElem_self hk
    rw [this, catVal, if_pos hi]
  | y :: ys, m + 1, x, h, i, hk, hi => by
    have ih := catVal_at (xs := ys) (m := m) (x := x) h hk hi
    rw [List.take_succ_cons, List.map_cons, List.sum_cons, catVal]
    have hg : ∀ v, (i.set k v).getD k 0 = v := fun v => by
      rw [getD_lt (by simpa using hk)]
      simp
    rw [hg, if_neg (by omega), List.set_set]
    have e : ∀ a b c : Nat, a + b + c - a = b + c := fun a b c => by omega
    rw [e]
    exact ih

theorem concat_spec [Inhabited V] {xs : List (NArr V)} {axis : Int} {y : NArr V} (h : concat xs axis = .ok y) :
    ∃ (x : NArr V) (xs' : List (NArr V)) (k : Nat), xs = x :: xs' ∧ (k : Int) = (if axis < 0 then axis + x.shape.length else axis) ∧
      k < x.shape.length ∧ y.shape = x.shape.set k ((xs.map fun y => y.shape.getD k 0).sum) ∧
      (∀ z ∈ xs, z.shape.length = x.shape.length ∧ z.shape.eraseIdx k = x.shape.eraseIdx k) ∧ y.val = fun i => (catVal k xs i).getD default := by
  unfold concat at h
  split at h
  · cases h
  · rename_i x xs'
    simp only at h
    generalize hkk : (if axis < 0 then axis + (x.shape.length : Int) else axis) = k at h
    split at h
    · cases h
    · rename_i hk
      split at h
      · rename_i ha
        obtain ⟨hk1, hk2⟩ := not_or.1 hk
        cases h
        refine ⟨x, xs', _, rfl, (Int.toNat_of_nonneg (by omega)).trans hkk.symm, ?_, rfl, ?_, rfl⟩
        · omega
        · intro z hz
          cases hz with
          | head => exact ⟨rfl, rfl⟩
          | tail _ hz =>
            have := List.all_eq_true.1 ha z hz
            simp only [Bool.and_eq_true, decide_eq_true_eq] at this
            exact ⟨this.2, this.1⟩
      · cases h

/-- **C60 (concatenation along an axis).** For an axis ≥ 0 of the samples: the output has the sum of the sizes along that axis and the common sizes
elsewhere; the entry of the `m`-th leaf at an index is found at the same index, shifted along the axis by the sizes of the leaves before it. In
particular the batch index is kept. -/
theorem C60_concat_axis [Inhabited V] (a : Nat) (paths : Option (List (List Str))) (data : Tree (NArr V)) (y : NArr V) (leaves : List (NArr V))
    (hl : selectLeaves paths data = .ok leaves) (h : concatLeaves (some (a : Int)) paths data = .ok y) :
    (∀ x ∈ leaves, a + 1 < x.shape.length ∧ y.shape = x.shape.set (a + 1) ((leaves.map fun z => z.shape.getD (a + 1) 0).sum)) ∧
    ∀ (m : Nat) (x : NArr V), leaves[m]? = some x → ∀ i, InB x.shape i →
      y.val (i.set (a + 1) (((leaves.take m).map fun z => z.shape.getD (a + 1) 0).sum + i.getD (a + 1) 0)) = x.val i := by
  unfold concatLeaves at h
  rw [hl] at h
  simp only at h
  obtain ⟨x, xs', k, e1, e2, h3, h4, h5, h6⟩ := concat_spec h
  rw [if_neg (by omega)] at e2
  have hk : k = a + 1 := by omega
  subst hk
  refine ⟨fun z hz => ⟨by have := (h5 z hz).1; omega, ?_⟩, fun m z hz i hi => ?_⟩
  · rw [h4]
    obtain ⟨g1, g2⟩ := h5 z hz
    have key : ∀ s t : List Nat, s.length = t.length → ∀ k v, s.eraseIdx k = t.eraseIdx k → s.set k v = t.set k v := by
      intro s
      induction s with
      | nil => intro t ht k v h; cases t with
        | nil => rfl
        | cons _ _ => cases ht
      | cons a s ih =>
        intro t ht k v h
        cases t with
        | nil => cases ht
        | cons b t =>
          cases k with
          | zero => simp only [List.eraseIdx_cons_zero] at h; rw [List.set_cons_zero, List.set_cons_zero, h]
          | succ k =>
            simp only [List.eraseIdx_cons_succ, List.cons.injEq] at h
            rw [List.set_cons_succ, List.set_cons_succ, h.1, ih t (by simpa using ht) k v h.2]
    exact (key _ _ g1 _ _ g2).symm
  · have hz' := List.mem_of_getElem? hz
    have hlen : a + 1 < z.shape.length := by have := (h5 z hz').1; omega
    have hil : a + 1 < i.length := by rw [hi.1]; exact hlen
    have hlt : i.getD (a + 1) 0 < z.shape.getD (a + 1) 0 := by
      rw [getD_lt hil, getD_lt hlen]
      exact hi.2 (a + 1) _ _ (List.getElem?_eq_getElem hlen) (List.getElem?_eq_getElem hil)
    rw [h6]
    simp only
    rw [catVal_at hz hil hlt]
    rfl

example : ∃ y : NArr (List Nat), concatLeaves (some 0) Option.none (.list [.leaf ⟨[2, 1, 3], id⟩, .leaf ⟨[2, 4, 3], id⟩]) = .ok y ∧ y.shape = [2, 5, 3] ∧
    y.val [1, 3, 2] = [1, 2, 2] := ⟨_, rfl, by decide, by decide⟩

theorem flat2_spec {x y : NArr V} (h : flat2 x = .ok y) : ∃ b s, x.shape = b :: s ∧ 0 < b ∧ y.shape = [b, count s] ∧
    ∀ k, k < b → sample y k = sample x k := by
  unfold flat2 at h
  cases e : x.shape with
  | nil => rw [e] at h; cases h
  | cons b s =>
    rw [e] at h
    simp only at h
    obtain ⟨r, h1, h2, h3, h4⟩ := npReshape_samples (t := [-1]) e h
    have hb : 0 < b := by
      rcases Nat.eq_zero_or_pos b with rfl | hb
      · exfalso
        unfold npReshape at h
        have : ∀ n, resolve n [((0 : Nat) : Int), -1] = .error .typeError := fun n => by simp [resolve, prod]
        rw [this] at h
        cases h
      · exact hb
    refine ⟨b, s, rfl, hb, ?_, h4⟩
    cases h2 with
    | cons _ hn =>
      cases hn
      rw [h1]
      have := h3 hb
      rw [prod_eq_count s, prod_cons, prod_nil, Nat.mul_one] at this
      rw [this]

theorem sample_two {y : NArr V} {b n : Nat} (h : y.shape = [b, n]) (k : Nat) : sample y k = (List.range n).map fun j => y.val [k, j] := by
  unfold sample
  rw [h, List.tail_cons, indices, indices, List.map_flatMap]
  simp only [List.map_cons, List.map_nil]
  exact List.flatMap_singleton' ((List.range n).map _) ▸ by rw [List.flatMap_map]

theorem cat_two [Inhabited V] (k : Nat) : ∀ ls : List (NArr V), ((List.range ((ls.map fun l => l.shape.getD 1 0).sum)).map fun j =>
    (catVal 1 ls [k, j]).getD default) = ls.flatMap fun l => (List.range (l.shape.getD 1 0)).map fun j => l.val [k, j]
  | [] => rfl
  | l :: ls => by
    rw [List.map_cons, List.sum_cons, List.range_add, List.map_append, List.flatMap_cons, ← cat_two k ls, List.map_map]
    congr 1
    · refine List.map_congr_left fun j hj => ?_
      have := List.mem_range.1 hj
      rw [catVal, if_pos (by simpa using this)]
      rfl
    · refine List.map_congr_left fun j hj => ?_
      simp only [Function.comp]
      rw [catVal, if_neg (by simp)]
      simp

/-- **C60 (concatenation of flattened leaves).** Without an axis, the output has one axis behind the batch axis, its size is the sum of the leaf sizes,
and each sample is the concatenation of the samples of the selected leaves in their order. -/
theorem C60_concat_flat [Inhabited V] (paths : Option (List (List Str))) (data : Tree (NArr V)) (y : NArr V) (leaves : List (NArr V))
    (hl : selectLeaves paths data = .ok leaves) (h : concatLeaves Option.none paths data = .ok y) :
    ∃ b, y.shape = [b, (leaves.map fun x => count x.shape.tail).sum] ∧ (∀ x ∈ leaves, x.shape.head? = some b) ∧
      ∀ k, k < b → sample y k = leaves.flatMap fun x => sample x k := by
  unfold concatLeaves at h
  rw [hl] at h
  simp only at h
  split at h
  · cases h
  · rename_i ls hls
    have hF := mapM_forall₂ hls
    obtain ⟨l, ls', k, e1, e2, h3, h4, h5, h6⟩ := concat_spec h
    have hshape : ∀ l ∈ ls, ∃ b n, l.shape = [b, n] := by
      clear h h4 h5 h6 hls e1 hl
      induction hF with
      | nil => intro l hl; cases hl
      | cons hx _ ih =>
        intro l hl
        cases hl with
        | head =>
          obtain ⟨b, s, -, -, h, -⟩ := flat2_spec hx
          exact ⟨b, _, h⟩
        | tail _ hl => exact ih l hl
    obtain ⟨b, n, hln⟩ := hshape l (by rw [e1]; simp)
    rw [hln] at e2 h3
    rw [if_pos (by omega)] at e2
    simp only [List.length_cons, List.length_nil] at e2
    have hk : k = 1 := by omega
    subst hk
    have hb : ∀ z ∈ ls, ∃ n, z.shape = [b, n] := by
      intro z hz
      obtain ⟨b', n', hz'⟩ := hshape z hz
      have := (h5 z hz).2
      rw [hz', hln] at this
      simp at this
      exact ⟨n', by rw [hz', this]⟩
    have hsum : (ls.map fun z => z.shape.getD 1 0) = leaves.map fun x => count x.shape.tail := by
      clear h h4 h5 h6 hls e1 hl hshape hb
      induction hF with
      | nil => rfl
      | cons hx _ ih =>
        obtain ⟨b, s, e, -, h, -⟩ := flat2_spec hx
        rw [List.map_cons, List.map_cons, ih, h, e]
        rfl
    have hys : y.shape = [b, (leaves.map fun x => count x.shape.tail).sum] := by
      rw [h4, hsum, hln]
      rfl
    refine ⟨b, hys, ?_, fun k hk => ?_⟩
    · clear h h4 h5 h6 hls e1 hl hshape hsum hys
      induction hF with
      | nil => intro l hl; cases hl
      | cons hx _ ih =>
        intro x hx'
        cases hx' with
        | head =>
          obtain ⟨b', s, e, -, h, -⟩ := flat2_spec hx
          obtain ⟨n, hn⟩ := hb _ List.mem_cons_self
          rw [h] at hn
          simp at hn
          rw [e, hn.1]
          rfl
        | tail _ hx' => exact ih (fun z hz => hb z (List.mem_cons_of_mem _ hz)) x hx'
    · rw [sample_two hys, h6, ← hsum, cat_two]
      clear h h4 h5 h6 hls e1 hl hshape hsum hys
      induction hF with
      | nil => rfl
      | cons hx _ ih =>
        rw [List.flatMap_cons, List.flatMap_cons, ih fun z hz => hb z (List.mem_cons_of_mem _ hz)]
        congr 1
        obtain ⟨b', s, e, -, h, h'⟩ := flat2_spec hx
        obtain ⟨n, hn⟩ := hb _ List.mem_cons_self
        rw [h] at hn
        simp at hn
        rw [← h' k (by omega), sample_two h, h]
        rfl

example : ∃ y : NArr (List Nat), concatLeaves Option.none Option.none (.list [.leaf ⟨[2, 2, 3], id⟩, .leaf ⟨[2, 4], id⟩]) = .ok y ∧ y.shape = [2, 10] ∧
    y.val [1, 5] = [1, 1, 2] ∧ y.val [1, 6] = [1, 0] := ⟨_, rfl, by decide, by decide, by decide⟩

/-! ### The declared shape of a concatenation -/

/-- The zeros on which the declared shape is computed. -/
def zeroOf (x : NArr V) : NArr Unit := ⟨1 :: x.shape.tail, fun _ => ()⟩

theorem select_zero (paths : Option (List (List Str))) (data : Tree (NArr V)) (hk : KeysOk data) {leaves : List (NArr V)}
    (h : selectLeaves paths data = .ok leaves) :
    selectLeaves paths (Tree.map (fun sh => (⟨1 :: sh, fun _ => ()⟩ : NArr Unit)) (Tree.map (fun x : NArr V => x.shape.tail) data).norm)
      = .ok (leaves.map zeroOf) := by
  have e : Tree.map (fun sh => (⟨1 :: sh, fun _ => ()⟩ : NArr Unit)) (Tree.map (fun x : NArr V => x.shape.tail) data).norm = Tree.map zeroOf data.norm := by
    rw [norm_map, map_map]
    rfl
  rw [e]
  cases paths with
  | none =>
    unfold selectLeaves at h ⊢
    simp only at h ⊢
    cases h
    unfold jaxLeaves
    rw [norm_map, norm_norm hk, flat_map]
  | some ps =>
    have hF := C60_paths data ps leaves h
    unfold selectLeaves
    simp only
    clear h
    induction hF with
    | nil => rfl
    | cons hx _ ih =>
      rw [List.mapM_cons, ih, get_map, get_norm _ hk, hx]
      rfl

theorem concat_batch [Inhabited V] {xs : List (NArr V)} {b : Nat} {axis : Int} (hb : ∀ x ∈ xs, ∃ s, x.shape = b :: s)
    (ha : 0 < axis ∨ (axis < 0 ∧ ∀ x ∈ xs, 0 < axis + x.shape.length)) {z : NArr Unit} (h : concat (xs.map zeroOf) axis = .ok z) :
    ∃ y, concat xs axis = .ok y ∧ y.shape = b :: z.shape.tail := by
  obtain ⟨z0, zs, k, e1, e2, h3, h4, h5, -⟩ := concat_spec h
  cases xs with
  | nil => cases e1
  | cons x xs =>
    obtain ⟨s, hs⟩ := hb x (by simp)
    simp only [List.map_cons, List.cons.injEq] at e1
    obtain ⟨rfl, rfl⟩ := e1
    have hz : (zeroOf x).shape = 1 :: s := by unfold zeroOf; rw [hs]; rfl
    have hlen : (zeroOf x).shape.length = x.shape.length := by rw [hz, hs]; rfl
    rw [hlen] at e2 h3
    obtain ⟨k', rfl⟩ : ∃ k', k = k' + 1 := by
      cases k with
      | succ k' => exact ⟨k', rfl⟩
      | zero =>
        exfalso
        rcases ha with ha | ⟨ha, ha'⟩
        · rw [if_neg (by omega)] at e2; omega
        · have := ha' x (by simp)
          rw [if_pos ha] at e2
          omega
    have hsum : ∀ l : List (NArr V), (∀ x ∈ l, ∃ s, x.shape = b :: s) →
        ((l.map zeroOf).map fun y => y.shape.getD (k' + 1) 0) = l.map fun y => y.shape.getD (k' + 1) 0 := by
      intro l hl
      rw [List.map_map]
      refine List.map_congr_left fun y hy => ?_
      obtain ⟨s, hs⟩ := hl y hy
      simp [zeroOf, hs]
    have hall : xs.all (fun y => decide (y.shape.eraseIdx (k' + 1) = x.shape.eraseIdx (k' + 1)) && decide (y.shape.length = x.shape.length)) = true := by
      rw [List.all_eq_true]
      intro y hy
      obtain ⟨sy, hsy⟩ := hb y (by simp [hy])
      obtain ⟨g1, g2⟩ := h5 (zeroOf y) (List.mem_map.2 ⟨y, by simp [hy], rfl⟩)
      have hzy : (zeroOf y).shape = 1 :: sy := by unfold zeroOf; rw [hsy]; rfl
      rw [hzy, hz] at g1 g2
      simp only [List.eraseIdx_cons_succ, List.cons.injEq, true_and] at g2
      simp only [List.length_cons, Nat.add_right_cancel_iff] at g1
      simp [hsy, hs, g1, g2]
    refine ⟨⟨x.shape.set (k' + 1) (((x :: xs).map fun y => y.shape.getD (k' + 1) 0).sum), fun i => (catVal (k' + 1) (x :: xs) i).getD default⟩, ?_, ?_⟩
    · unfold concat
      simp only
      rw [← e2, if_neg (by omega), Int.toNat_natCast, if_pos hall]
    · simp only
      rw [h4, hz, hs, List.set_cons_succ, List.set_cons_succ, List.tail_cons]
      rw [← hsum (x :: xs) hb]

/-- **C60 (declared shape of a concatenation).** If all arrays have the same nonzero batch size and the axis is not given, or counts ≥ 0, or counts from the
back and stays behind the batch axis, then whenever `compile` declares a shape the call succeeds and its output has that shape behind the batch
axis. -/
theorem C60_concat_declared [Inhabited V] (axis : Option Int) (paths : Option (List (List Str))) (data : Tree (NArr V)) (hk : KeysOk data)
    (leaves : List (NArr V)) (hl : selectLeaves paths data = .ok leaves) (b : Nat) (hb0 : 0 < b) (hb : ∀ x ∈ leaves, ∃ s, x.shape = b :: s)
    (ha : ∀ a, axis = some a → 0 ≤ a ∨ (a < -1 ∧ ∀ x ∈ leaves, 0 < a + 1 + x.shape.length)) (r : List Nat)
    (h : concatShape axis paths (map (fun x : NArr V => x.shape.tail) data) = .ok r) :
    ∃ y, concatLeaves axis paths data = .ok y ∧ y.shape = b :: r := by
  unfold concatShape at h
  have hz := select_zero paths data hk hl
  unfold concatLeaves at h ⊢
  rw [hz] at h
  rw [hl]
  cases axis with
  | some a =>
    simp only at h ⊢
    split at h
    · cases h
    · rename_i z hz'
      cases h
      refine concat_batch hb ?_ hz'
      rcases ha a rfl with ha | ⟨ha, ha'⟩
      · exact .inl (by omega)
      · exact .inr ⟨by omega, ha'⟩
  | none =>
    simp only at h ⊢
    have hflat : ∀ {U : Type} (x : NArr U) (b : Nat) (s : List Nat), 0 < b → x.shape = b :: s →
        ∃ y, flat2 x = .ok y ∧ y.shape = [b, count s] := by
      intro U x b s hb0 hs
      have : ∃ y, flat2 x = .ok y := by
        unfold flat2 npReshape
        rw [hs]
        simp only
        have hr := resolve_total (size := prod s) (t := [-1]) (r := [prod s]) hb0 (by simp) (by decide)
          (List.Forall₂.cons (.inl rfl) List.Forall₂.nil) (by simp [prod]) (fun _ => by decide)
        have hsz : x.size = b * prod s := by unfold NArr.size; rw [hs]; rfl
        rw [hsz, hr]
        exact ⟨_, rfl⟩
      obtain ⟨y, hy⟩ := this
      obtain ⟨b', s', e, -, e', -⟩ := flat2_spec hy
      rw [hs] at e
      cases e
      exact ⟨y, hy, e'⟩
    obtain ⟨ls, hls⟩ := list_mapM_total (f := flat2) (l := leaves) fun x hx => by
      obtain ⟨s, hs⟩ := hb x hx
      obtain ⟨y, hy, -⟩ := hflat x b s hb0 hs
      exact ⟨y, hy⟩
    have hne : leaves ≠ [] := by
      rintro rfl
      cases h
    have hF := mapM_forall₂ hls
    have hsh : ∀ l ∈ ls, ∃ n, l.shape = [b, n] := by
      clear h hls hz hl hne
      induction hF with
      | nil => intro l hl; cases hl
      | cons hx _ ih =>
        intro l hl
        cases hl with
        | head =>
          obtain ⟨s, hs⟩ := hb _ List.mem_cons_self
          obtain ⟨y, hy, hy'⟩ := hflat _ b s hb0 hs
          rw [hx] at hy
          cases hy
          exact ⟨_, hy'⟩
        | tail _ hl => exact ih (fun x hx => hb x (List.mem_cons_of_mem _ hx)) (fun a h => by cases h) l hl
    have hco : ∃ y, concat ls (-1) = .ok y := by
      cases ls with
      | nil =>
        cases hF
        exact absurd rfl hne
      | cons l ls =>
        obtain ⟨n, hn⟩ := hsh l (by simp)
        have hk1 : (if (-1 : Int) < 0 then (-1 : Int) + (l.shape.length : Int) else -1) = 1 := by rw [hn]; rfl
        unfold concat
        simp only
        rw [hk1, if_neg (by rw [hn]; simp), if_pos]
        · exact ⟨_, rfl⟩
        · rw [List.all_eq_true]
          intro z hz
          obtain ⟨m, hm⟩ := hsh z (by simp [hz])
          simp [hm, hn]
    obtain ⟨y, hy⟩ := hco
    rw [hls]
    refine ⟨y, hy, ?_⟩
    have h1 : concatLeaves Option.none paths data = .ok y := by
      unfold concatLeaves
      rw [hl]
      simp only
      rw [hls]
      exact hy
    obtain ⟨b1, e1, e2, -⟩ := C60_concat_flat paths data y leaves hl h1
    split at h
    · cases h
    · rename_i z hz'
      cases h
      have h2 : concatLeaves Option.none paths (Tree.map (fun sh => (⟨1 :: sh, fun _ => ()⟩ : NArr Unit)) (Tree.map (fun x : NArr V => x.shape.tail) data).norm)
          = .ok z := by
        unfold concatLeaves
        rw [hz]
        exact hz'
      obtain ⟨b2, e3, -, -⟩ := C60_concat_flat paths _ z _ hz h2
      have hb1 : b1 = b := by
        obtain ⟨x, hx⟩ := List.exists_mem_of_ne_nil _ hne
        obtain ⟨s, hs⟩ := hb x hx
        have := e2 x hx
        rw [hs] at this
        cases this
        rfl
      rw [e1, e3, hb1, List.tail_cons, List.map_map]
      rfl

example : concatShape (some 0) Option.none (.list [.leaf [1, 3], .leaf [4, 3]]) = .ok [5, 3] ∧
    concatShape (some (-2)) Option.none (.list [.leaf [1, 3], .leaf [1, 4]]) = .ok [1, 7] ∧
    concatShape Option.none Option.none (.list [.leaf [1, 3], .leaf [4, 3]]) = .ok [15] := by decide +kernel

/-- **C60 refuted for axis −1.** The last axis of the samples is not what `axis=-1` selects: the code adds one for the batch axis, so the samples are stacked
into a longer batch while the declared shape says that nothing changes. -/
theorem C60_axis_refuted (v w : List Nat → Nat) :
    concatShape (some (-1)) Option.none (.list [.leaf [2], .leaf [2]]) = .ok [2] ∧
    ∃ y, concatLeaves (some (-1)) Option.none (.list [.leaf ⟨[3, 2], v⟩, .leaf ⟨[3, 2], w⟩]) = .ok y ∧ y.shape = [6, 2] :=
  ⟨by decide +kernel, _, rfl, rfl⟩

end Verif.Props
