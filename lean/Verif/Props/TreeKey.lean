import Verif.Props.Concat
import Verif.Props.Tree

/-!
# C61: selecting parts of the data by path
-/

namespace Verif.Props
open Reshape ReshapeSpec Tree ForwardSpec TreeSpec PathSpec

variable {V : Type}

/-- **C61 (what is selected).** The output has the structure of the tree of paths; at the place of a path is the part of the data that is read by following the
path, or, if the path goes on below an array, that array. -/
theorem C61_select {β : Type} (ks : Tree (List Str)) (data r : Tree β) (h : treeKey (fun _ => false) (some ks) data = .ok r)
    (q : List ForwardSpec.Step) (p : List Str) (hq : At ks q p) (hp : Proper p) :
    ∃ w consumed rest, Sub r q w ∧ p = consumed ++ rest ∧ Tree.get data consumed = .ok w ∧
      (rest ≠ [] → (∃ b, w = .leaf b) ∨ w = .none) := by
  unfold treeKey at h
  simp only at h
  obtain ⟨w, h1, h2⟩ := mapM_at h (at_norm.2 hq)
  split at h1
  · cases h1
  · rename_i x hx
    cases h1
    obtain ⟨n, rem⟩ := x
    obtain ⟨c, e1, e2, e3⟩ := C13_early_return (fun _ => false) data n p rem hp hx
    refine ⟨n, c, rem, h2, e1, ?_, fun hr => ?_⟩
    · unfold Tree.get
      rw [e2]
    · have := e3 hr
      cases n <;> simp_all

example : treeKey (fun _ => false) (some (.dict [("x".toList, .leaf ["b".toList]), ("y".toList, .leaf ["a".toList])])) (map (fun x => x.shape) reshapeData)
    = .ok (.dict [("x".toList, .leaf [2, 4]), ("y".toList, .list [.leaf [2, 2, 6]])]) := by decide +kernel

theorem getPath_shape {α β : Type} (f : α → β) (p : List Str) : ∀ t : Tree α, (∀ q, ¬ Sub t q (.tuple [])) →
    getPath isShapeLeaf true (map f t) p = (getPath (fun _ => false) true t p).map fun x => (map f x.1, x.2) := by
  induction p with
  | nil => intro t _; rfl
  | cons k ks ih =>
    intro t ht
    rw [getPath.eq_def, getPath.eq_def]
    simp only
    by_cases h : k = [] ∧ ks = []
    · simp [h, Except.map]
    · simp only [h, if_false, Bool.false_eq_true]
      cases t with
      | leaf b => rfl
      | none => rfl
      | list ts =>
        simp only [map, mapL_eq, List.getElem?_map, isShapeLeaf, Bool.false_eq_true, if_false]
        split
        · rfl
        · cases hc : ts[toInt k]? with
          | none => rfl
          | some c => exact ih c fun q hq => ht _ (.list hc hq)
      | tuple ts =>
        have : isShapeLeaf (map f (.tuple ts)) = false := by
          cases ts with
          | nil => exact absurd (Sub.here _) (ht [])
          | cons _ _ => rfl
        simp only [this]
        simp only [map, mapL_eq, List.getElem?_map, Bool.false_eq_true, if_false]
        split
        · rfl
        · cases hc : ts[toInt k]? with
          | none => rfl
          | some c => exact ih c fun q hq => ht _ (.tuple hc hq)
      | dict kvs =>
        simp only [map, lookup_mapD, isShapeLeaf, Bool.false_eq_true, if_false]
        cases hc : kvs.lookup k with
        | none => rfl
        | some c => exact ih c fun q hq => ht _ (.dict (lookup_mem hc) hq)

mutual
theorem mapM_map_congr {α β δ : Type} {f : α → Except PyErr (Tree β)} {g : α → Except PyErr (Tree δ)} {φ : β → δ}
    (h : ∀ a, g a = (f a).map (map φ)) : ∀ t : Tree α, Tree.mapM g t = (Tree.mapM f t).map (map φ)
  | .leaf a => h a
  | .none => rfl
  | .list ts => by
    rw [Tree.mapM, Tree.mapM, mapML_map_congr h ts]
    cases mapML f ts <;> rfl
  | .tuple ts => by
    rw [Tree.mapM, Tree.mapM, mapML_map_congr h ts]
    cases mapML f ts <;> rfl
  | .dict ts => by
    rw [Tree.mapM, Tree.mapM, mapMD_map_congr h ts]
    cases mapMD f ts <;> rfl
theorem mapML_map_congr {α β δ : Type} {f : α → Except PyErr (Tree β)} {g : α → Except PyErr (Tree δ)} {φ : β → δ}
    (h : ∀ a, g a = (f a).map (map φ)) : ∀ ts : List (Tree α), mapML g ts = (mapML f ts).map (mapL φ)
  | [] => rfl
  | t :: ts => by
    rw [mapML, mapML, mapM_map_congr h t, mapML_map_congr h ts]
    cases Tree.mapM f t with
    | error e => rfl
    | ok u => cases mapML f ts <;> rfl
theorem mapMD_map_congr {α β δ : Type} {f : α → Except PyErr (Tree β)} {g : α → Except PyErr (Tree δ)} {φ : β → δ}
    (h : ∀ a, g a = (f a).map (map φ)) : ∀ ts : List (Str × Tree α), mapMD g ts = (mapMD f ts).map (mapD φ)
  | [] => rfl
  | (k, t) :: ts => by
    rw [mapMD, mapMD, mapM_map_congr h t, mapMD_map_congr h ts]
    cases Tree.mapM f t with
    | error e => rfl
    | ok u => cases mapMD f ts <;> rfl
end

mutual
theorem mapM_error {α β : Type} {f : α → Except PyErr (Tree β)} {e : PyErr} : ∀ t : Tree α, Tree.mapM f t = .error e → ∃ a, f a = .error e
  | .leaf a, h => ⟨a, h⟩
  | .none, h => by cases h
  | .list ts, h => by
    rw [Tree.mapM] at h
    split at h
    · cases h
    · rename_i he; cases h; exact mapML_error ts he
  | .tuple ts, h => by
    rw [Tree.mapM] at h
    split at h
    · cases h
    · rename_i he; cases h; exact mapML_error ts he
  | .dict ts, h => by
    rw [Tree.mapM] at h
    split at h
    · cases h
    · rename_i he; cases h; exact mapMD_error ts he
theorem mapML_error {α β : Type} {f : α → Except PyErr (Tree β)} {e : PyErr} : ∀ ts : List (Tree α), mapML f ts = .error e → ∃ a, f a = .error e
  | [], h => by cases h
  | t :: ts, h => by
    rw [mapML] at h
    split at h
    · rename_i he; cases h; exact mapM_error t he
    · split at h
      · rename_i he; cases h; exact mapML_error ts he
      · cases h
theorem mapMD_error {α β : Type} {f : α → Except PyErr (Tree β)} {e : PyErr} : ∀ ts : List (Str × Tree α), mapMD f ts = .error e → ∃ a, f a = .error e
  | [], h => by cases h
  | (k, t) :: ts, h => by
    rw [mapMD] at h
    split at h
    · rename_i he; cases h; exact mapM_error t he
    · split at h
      · rename_i he; cases h; exact mapMD_error ts he
      · cases h
end

theorem getPath_early_error {β : Type} {isLeaf : Tree β → Bool} {e : PyErr} (p : List Str) : ∀ {t : Tree β}, getPath isLeaf true t p = .error e →
    e = .keyError ∨ e = .indexError := by
  induction p with
  | nil => intro t h; simp [getPath] at h
  | cons k ks ih =>
    intro t h
    rw [getPath.eq_def] at h
    simp only at h
    split at h
    · cases h
    · split at h
      · cases h
      · cases t with
        | leaf b => cases h
        | none => cases h
        | list ts =>
          simp only at h
          split at h
          · cases h; exact .inl rfl
          · split at h
            · exact ih h
            · cases h; exact .inr rfl
        | tuple ts =>
          simp only at h
          split at h
          · cases h; exact .inl rfl
          · split at h
            · exact ih h
            · cases h; exact .inr rfl
        | dict ts =>
          simp only at h
          split at h
          · exact ih h
          · cases h; exact .inl rfl

theorem treeKey_shape (ks : Option (Tree (List Str))) (data : Tree (NArr V)) (ht : ∀ q, ¬ Sub data q (.tuple [])) :
    treeKey isShapeLeaf ks (map (fun x : NArr V => x.shape.tail) data) = (treeKey (fun _ => false) ks data).map (map fun x => x.shape.tail) := by
  cases ks with
  | none => rfl
  | some ks =>
    unfold treeKey
    refine mapM_map_congr (fun p => ?_) _
    rw [getPath_shape _ _ _ ht]
    cases getPath (fun _ => false) true data p <;> rfl

/-- **C61 (shapes and data agree).** For data without empty tuples: if selection succeeds on the data, the declared shape is the shape of the selected data;
if it fails on the data, `compile` raises `ValueError`. -/
theorem C61_agree (ks : Option (Tree (List Str))) (data : Tree (NArr V)) (ht : ∀ q, ¬ Sub data q (.tuple [])) :
    (∀ r, treeKey (fun _ => false) ks data = .ok r →
      treeKeyShape ks (map (fun x => x.shape.tail) data) = .ok (map (fun x => x.shape.tail) r)) ∧
    (∀ e, treeKey (fun _ => false) ks data = .error e → treeKeyShape ks (map (fun x => x.shape.tail) data) = .error .valueError) := by
  unfold treeKeyShape
  rw [treeKey_shape ks data ht]
  constructor
  · intro r h
    rw [h]
    rfl
  · intro e h
    rw [h]
    have : e = .keyError ∨ e = .indexError := by
      cases ks with
      | none => cases h
      | some ks =>
        unfold treeKey at h
        obtain ⟨p, hp⟩ := mapM_error _ h
        split at hp
        · rename_i e' he
          cases hp
          exact getPath_early_error _ he
        · cases hp
    rcases this with rfl | rfl <;> rfl

example : treeKeyShape (some (.leaf ["a".toList, "0".toList])) (map (fun x => x.shape.tail) reshapeData) = .ok (.leaf [2, 6]) ∧
    treeKeyShape (some (.leaf ["a".toList, "1".toList])) (map (fun x => x.shape.tail) reshapeData) = .error .valueError := by decide +kernel

/-- **C61 refuted for empty tuples.** A path below an empty tuple is accepted by `compile`, which takes the tuple for the shape of a scalar, and raises when the
module is called. -/
theorem C61_empty_refuted (x : NArr V) :
    treeKeyShape (some (.leaf ["a".toList, "0".toList])) (map (fun x => x.shape.tail) (.dict [("a".toList, .tuple []), ("b".toList, .leaf x)]))
      = .ok (.tuple []) ∧
    treeKey (fun _ => false) (some (.leaf ["a".toList, "0".toList])) (.dict [("a".toList, .tuple []), ("b".toList, .leaf x)])
      = .error .indexError := ⟨rfl, rfl⟩

end Verif.Props
