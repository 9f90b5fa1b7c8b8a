import Verif.Spec.ModelFile
import Verif.Lemmas.TreeBind
import Verif.Lemmas.Tree

/-! # Lemmas about saving and loading models -/

namespace Verif
namespace Tree
open ForwardSpec (KeysOk KeysOkL KeysOkD)

variable {α β γ : Type}

mutual
theorem mapM_bind (f : α → Tree β) : ∀ t : Tree α, mapM (fun a => .ok (f a)) t = .ok (Tree.bind f t)
  | .leaf _ => rfl
  | .none => rfl
  | .list ts => by rw [mapM, mapML_bind f ts, Tree.bind]
  | .tuple ts => by rw [mapM, mapML_bind f ts, Tree.bind]
  | .dict kvs => by rw [mapM, mapMD_bind f kvs, Tree.bind]
theorem mapML_bind (f : α → Tree β) : ∀ ts : List (Tree α), mapML (fun a => .ok (f a)) ts = .ok (bindL f ts)
  | [] => rfl
  | t :: ts => by rw [mapML, mapM_bind f t, mapML_bind f ts, bindL]
theorem mapMD_bind (f : α → Tree β) : ∀ ts : List (Str × Tree α), mapMD (fun a => .ok (f a)) ts = .ok (bindD f ts)
  | [] => rfl
  | (k, t) :: ts => by rw [mapMD, mapM_bind f t, mapMD_bind f ts, bindD]
end

theorem bind_leaf (f : α → β) (t : Tree α) : Tree.bind (fun a => .leaf (f a)) t = map f t := by
  have h1 := mapM_bind (fun a => .leaf (f a)) t
  rw [mapM_pure] at h1
  exact (Except.ok.inj h1).symm

theorem bind_congr {f g : α → Tree β} {t : Tree α} (h : ∀ a ∈ flat t, f a = g a) : Tree.bind f t = Tree.bind g t := by
  have h1 := mapM_congr (fun a => .ok (f a)) (fun a => .ok (g a)) t fun a ha => by rw [h a ha]
  rw [mapM_bind, mapM_bind] at h1
  exact Except.ok.inj h1

theorem bind_map (f : β → Tree γ) (g : α → β) (t : Tree α) : Tree.bind f (map g t) = Tree.bind (fun a => f (g a)) t := by
  have h1 := mapM_bind f (map g t)
  rw [mapM_comp, mapM_bind] at h1
  exact (Except.ok.inj h1).symm

theorem map_congr {f g : α → β} {t : Tree α} (h : ∀ a ∈ flat t, f a = g a) : map f t = map g t := by
  rw [← bind_leaf, ← bind_leaf]
  exact bind_congr fun a ha => by rw [h a ha]

theorem mem_flat_norm {t : Tree α} {a : α} : a ∈ flat t.norm ↔ a ∈ flat t := by
  rw [mem_flat_at, mem_flat_at]
  exact ⟨fun ⟨p, hp⟩ => ⟨p, at_norm.1 hp⟩, fun ⟨p, hp⟩ => ⟨p, at_norm.2 hp⟩⟩

theorem child_norm {t : Tree α} (hk : KeysOk t) (k : Str) : child t.norm k = (child t k).map Tree.norm := by
  cases t with
  | leaf b => rfl
  | none => rfl
  | list ts =>
    simp only [Tree.norm, child, normL_eq, List.getElem?_map]
    split
    · rfl
    · cases ts[toInt k]? <;> rfl
  | tuple ts =>
    simp only [Tree.norm, child, normL_eq, List.getElem?_map]
    split
    · rfl
    · cases ts[toInt k]? <;> rfl
  | dict kvs =>
    simp only [Tree.norm, child, lookup_norm hk.1]
    cases kvs.lookup k <;> rfl

theorem child_keysOk {t c : Tree α} {k : Str} (hk : KeysOk t) (h : child t k = .ok c) : KeysOk c := by
  cases t with
  | leaf b => cases h
  | none => cases h
  | list ts =>
    simp only [child] at h
    split at h
    · cases h
    · cases hc : ts[toInt k]? with
      | none => rw [hc] at h; cases h
      | some c' => rw [hc] at h; cases h; exact keysOkL_mem hk (List.mem_of_getElem? hc)
  | tuple ts =>
    simp only [child] at h
    split at h
    · cases h
    · cases hc : ts[toInt k]? with
      | none => rw [hc] at h; cases h
      | some c' => rw [hc] at h; cases h; exact keysOkL_mem hk (List.mem_of_getElem? hc)
  | dict kvs =>
    simp only [child] at h
    cases hc : kvs.lookup k with
    | none => rw [hc] at h; cases h
    | some c' => rw [hc] at h; cases h; exact keysOkD_mem hk.2 (lookup_mem hc)

theorem get_norm {t : Tree α} (hk : KeysOk t) (p : List Str) : Tree.get t.norm p = (Tree.get t p).map Tree.norm := by
  induction p generalizing t with
  | nil => simp [Except.map]
  | cons k ks ih =>
    by_cases h : k = [] ∧ ks = []
    · obtain ⟨rfl, rfl⟩ := h; simp [Except.map]
    · rw [get_cons _ _ _ h, get_cons _ _ _ h, child_norm hk]
      cases hc : child t k with
      | error e => rfl
      | ok c => exact ih (child_keysOk hk hc)

theorem flatL_mem {ts : List (Tree α)} {c : Tree α} (h : c ∈ ts) {a : α} (ha : a ∈ flat c) : a ∈ flatL ts := by
  induction ts with
  | nil => cases h
  | cons t ts ih =>
    simp only [flatL, List.mem_append]
    rcases List.mem_cons.1 h with rfl | h
    · exact Or.inl ha
    · exact Or.inr (ih h)

theorem flatD_mem {ts : List (Str × Tree α)} {k : Str} {c : Tree α} (h : (k, c) ∈ ts) {a : α} (ha : a ∈ flat c) : a ∈ flatD ts := by
  induction ts with
  | nil => cases h
  | cons t ts ih =>
    obtain ⟨k', t⟩ := t
    simp only [flatD, List.mem_append]
    rcases List.mem_cons.1 h with h | h
    · cases h; exact Or.inl ha
    · exact Or.inr (ih h)

theorem flat_child {t c : Tree α} {k : Str} (h : child t k = .ok c) {a : α} (ha : a ∈ flat c) : a ∈ flat t := by
  cases t with
  | leaf b => cases h
  | none => cases h
  | list ts =>
    simp only [child] at h
    split at h
    · cases h
    · cases hc : ts[toInt k]? with
      | none => rw [hc] at h; cases h
      | some c' => rw [hc] at h; cases h; simp only [flat]; exact flatL_mem (List.mem_of_getElem? hc) ha
  | tuple ts =>
    simp only [child] at h
    split at h
    · cases h
    · cases hc : ts[toInt k]? with
      | none => rw [hc] at h; cases h
      | some c' => rw [hc] at h; cases h; simp only [flat]; exact flatL_mem (List.mem_of_getElem? hc) ha
  | dict kvs =>
    simp only [child] at h
    cases hc : kvs.lookup k with
    | none => rw [hc] at h; cases h
    | some c' => rw [hc] at h; cases h; simp only [flat]; exact flatD_mem (lookup_mem hc) ha

theorem get_leaf_mem {t c : Tree α} {p : List Str} (h : Tree.get t p = .ok c) {a : α} (ha : a ∈ flat c) : a ∈ flat t := by
  induction p generalizing t with
  | nil => simp at h; cases h; exact ha
  | cons k ks ih =>
    by_cases h' : k = [] ∧ ks = []
    · obtain ⟨rfl, rfl⟩ := h'; simp at h; cases h; exact ha
    · rw [get_cons _ _ _ h'] at h
      cases hc : child t k with
      | error e => rw [hc] at h; cases h
      | ok c => rw [hc] at h; exact flat_child hc (ih h)

mutual
theorem mapM_ok_mem {f : α → Except PyErr (Tree β)} : ∀ (t : Tree α) {r : Tree β}, mapM f t = .ok r → ∀ a ∈ flat t, ∃ w, f a = .ok w
  | .leaf b, r, h, a, ha => by
    simp only [flat, List.mem_singleton] at ha
    subst ha
    exact ⟨r, h⟩
  | .none, r, h, a, ha => by simp [flat] at ha
  | .list ts, r, h, a, ha => by
    rw [mapM] at h
    cases hr : mapML f ts with
    | error e => rw [hr] at h; cases h
    | ok r' => exact mapML_ok_mem ts hr a ha
  | .tuple ts, r, h, a, ha => by
    rw [mapM] at h
    cases hr : mapML f ts with
    | error e => rw [hr] at h; cases h
    | ok r' => exact mapML_ok_mem ts hr a ha
  | .dict ts, r, h, a, ha => by
    rw [mapM] at h
    cases hr : mapMD f ts with
    | error e => rw [hr] at h; cases h
    | ok r' => exact mapMD_ok_mem ts hr a ha
theorem mapML_ok_mem {f : α → Except PyErr (Tree β)} : ∀ (ts : List (Tree α)) {r : List (Tree β)}, mapML f ts = .ok r → ∀ a ∈ flatL ts, ∃ w, f a = .ok w
  | [], r, h, a, ha => by simp [flatL] at ha
  | t :: ts, r, h, a, ha => by
    rw [mapML] at h
    cases h1 : mapM f t with
    | error e => rw [h1] at h; cases h
    | ok r1 =>
      cases h2 : mapML f ts with
      | error e => rw [h1, h2] at h; cases h
      | ok r2 =>
        rcases List.mem_append.1 ha with ha | ha
        · exact mapM_ok_mem t h1 a ha
        · exact mapML_ok_mem ts h2 a ha
theorem mapMD_ok_mem {f : α → Except PyErr (Tree β)} : ∀ (ts : List (Str × Tree α)) {r : List (Str × Tree β)}, mapMD f ts = .ok r → ∀ a ∈ flatD ts, ∃ w, f a = .ok w
  | [], r, h, a, ha => by simp [flatD] at ha
  | (k, t) :: ts, r, h, a, ha => by
    rw [mapMD] at h
    cases h1 : mapM f t with
    | error e => rw [h1] at h; cases h
    | ok r1 =>
      cases h2 : mapMD f ts with
      | error e => rw [h1, h2] at h; cases h
      | ok r2 =>
        rcases List.mem_append.1 ha with ha | ha
        · exact mapM_ok_mem t h1 a ha
        · exact mapMD_ok_mem ts h2 a ha
end

theorem mapM_fails {f : α → Except PyErr (Tree β)} {t : Tree α} {a : α} (ha : a ∈ flat t) {e : PyErr} (h : f a = .error e) : ∃ e, mapM f t = .error e := by
  cases hm : mapM f t with
  | error e => exact ⟨e, rfl⟩
  | ok r =>
    obtain ⟨w, hw⟩ := mapM_ok_mem t hm a ha
    rw [h] at hw
    cases hw

end Tree
end Verif
