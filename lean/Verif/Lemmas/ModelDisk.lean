import Verif.Spec.ModelLib
import Verif.Lemmas.ModelFile

/-! # Lemmas about the file of a model -/

namespace Verif
namespace ModelSpec
open Tree Ser ModelSer
open ForwardSpec (KeysOk KeysOkL)

variable {α β : Type}

theorem axesL_one (t : Tree α) : axesL [t] = axes t := by
  rw [axesL]
  cases axes t <;> rfl

theorem axesL_two (t u : Tree α) (us : List (Tree α)) : axesL (t :: u :: us) = match axes t with
    | .error e => .error e
    | .ok s => match axesL (u :: us) with
      | .error e => .error e
      | .ok s' => if s = s' then .ok s else .error .valueError := by
  rw [axesL]
  cases axes t <;> rfl

mutual
theorem axes_ok : ∀ (t : Tree α) {s : List Nat}, axes t = .ok s → HasShape t s
  | .leaf a, s, h => by cases h; exact .leaf a
  | .none, s, h => by cases h; exact .none
  | .dict kvs, s, h => by cases h; exact .dict kvs
  | .list ts, s, h => by
    rw [axes] at h
    cases hs : axesL ts with
    | error e => rw [hs] at h; cases h
    | ok s' => rw [hs] at h; cases h; exact .list ts s' (axesL_ok ts hs).1 (axesL_ok ts hs).2
  | .tuple ts, s, h => by
    rw [axes] at h
    cases hs : axesL ts with
    | error e => rw [hs] at h; cases h
    | ok s' => rw [hs] at h; cases h; exact .tuple ts s' (axesL_ok ts hs).1 (axesL_ok ts hs).2
theorem axesL_ok : ∀ (ts : List (Tree α)) {s : List Nat}, axesL ts = .ok s → (∀ t ∈ ts, HasShape t s) ∧ (ts = [] → s = [])
  | [], s, h => by cases h; simp
  | [t], s, h => by
    rw [axesL_one] at h
    simpa using axes_ok t h
  | t :: u :: us, s, h => by
    rw [axesL_two] at h
    cases ht : axes t with
    | error e => rw [ht] at h; cases h
    | ok s0 =>
      rw [ht] at h
      simp only at h
      cases hs : axesL (u :: us) with
      | error e => rw [hs] at h; cases h
      | ok s1 =>
        rw [hs] at h
        simp only at h
        split at h
        · rename_i he
          have h0 : s0 = s := Except.ok.inj h
          refine ⟨fun x hx => ?_, fun h => by cases h⟩
          rcases List.mem_cons.1 hx with hx | hx
          · rw [hx, ← h0]; exact axes_ok t ht
          · rw [← h0, he]; exact (axesL_ok (u :: us) hs).1 x hx
        · cases h
end

mutual
theorem axes_of : ∀ (t : Tree α) {s : List Nat}, HasShape t s → axes t = .ok s
  | .leaf a, s, h => by cases h; rfl
  | .none, s, h => by cases h; rfl
  | .dict kvs, s, h => by cases h; rfl
  | .list ts, s, h => by
    cases h with
    | list _ s h1 h2 => rw [axes, axesL_of ts h1 h2]
  | .tuple ts, s, h => by
    cases h with
    | tuple _ s h1 h2 => rw [axes, axesL_of ts h1 h2]
theorem axesL_of : ∀ (ts : List (Tree α)) {s : List Nat}, (∀ t ∈ ts, HasShape t s) → (ts = [] → s = []) → axesL ts = .ok s
  | [], s, _, h => by rw [h rfl]; rfl
  | [t], s, h, _ => by rw [axesL_one]; exact axes_of t (h t (by simp))
  | t :: u :: us, s, h, _ => by
    rw [axesL_two, axes_of t (h t (by simp))]
    simp only
    rw [axesL_of (u :: us) (fun x hx => h x (List.mem_cons_of_mem _ hx)) (fun h => by cases h)]
    simp
end

theorem axes_iff {t : Tree α} {s : List Nat} : axes t = .ok s ↔ HasShape t s := ⟨axes_ok t, axes_of t⟩

mutual
theorem axes_error : ∀ (t : Tree α) {e : PyErr}, axes t = .error e → e = .valueError
  | .leaf a, e, h => by cases h
  | .none, e, h => by cases h
  | .dict kvs, e, h => by cases h
  | .list ts, e, h => by
    rw [axes] at h
    cases hs : axesL ts with
    | error e => rw [hs] at h; cases h; exact axesL_error ts hs
    | ok s' => rw [hs] at h; cases h
  | .tuple ts, e, h => by
    rw [axes] at h
    cases hs : axesL ts with
    | error e => rw [hs] at h; cases h; exact axesL_error ts hs
    | ok s' => rw [hs] at h; cases h
theorem axesL_error : ∀ (ts : List (Tree α)) {e : PyErr}, axesL ts = .error e → e = .valueError
  | [], e, h => by cases h
  | [t], e, h => by rw [axesL_one] at h; exact axes_error t h
  | t :: u :: us, e, h => by
    rw [axesL_two] at h
    cases ht : axes t with
    | error e0 => rw [ht] at h; cases h; exact axes_error t ht
    | ok s0 =>
      rw [ht] at h
      simp only at h
      cases hs : axesL (u :: us) with
      | error e => rw [hs] at h; cases h; exact axesL_error _ hs
      | ok s1 =>
        rw [hs] at h
        simp only at h
        split at h
        · cases h
        · cases h; rfl
end

mutual
theorem axes_map (f : α → β) : ∀ t : Tree α, axes (map f t) = axes t
  | .leaf _ => rfl
  | .none => rfl
  | .dict _ => rfl
  | .list ts => by rw [map, axes, axes, axesL_map f ts, mapL_eq, List.length_map]
  | .tuple ts => by rw [map, axes, axes, axesL_map f ts, mapL_eq, List.length_map]
theorem axesL_map (f : α → β) : ∀ ts : List (Tree α), axesL (mapL f ts) = axesL ts
  | [] => rfl
  | [t] => by rw [mapL, mapL, axesL_one, axesL_one, axes_map f t]
  | t :: u :: us => by
    have := axesL_map f (u :: us)
    rw [mapL] at this
    rw [mapL, mapL, axesL_two, axesL_two, axes_map f t, this]
end

mutual
theorem untuple_map (f : α → β) : ∀ t : Tree α, untuple (map f t) = map f (untuple t)
  | .leaf _ => rfl
  | .none => rfl
  | .dict _ => rfl
  | .list ts => by simp only [map, untuple, untupleL_map f ts]
  | .tuple ts => by simp only [map, untuple, untupleL_map f ts]
theorem untupleL_map (f : α → β) : ∀ ts : List (Tree α), untupleL (mapL f ts) = mapL f (untupleL ts)
  | [] => rfl
  | t :: ts => by simp only [mapL, untupleL, untuple_map f t, untupleL_map f ts]
end

mutual
theorem untuple_norm : ∀ t : Tree α, untuple t.norm = (untuple t).norm
  | .leaf _ => rfl
  | .none => rfl
  | .dict _ => rfl
  | .list ts => by simp only [Tree.norm, untuple, untupleL_norm ts]
  | .tuple ts => by simp only [Tree.norm, untuple, untupleL_norm ts]
theorem untupleL_norm : ∀ ts : List (Tree α), untupleL (normL ts) = normL (untupleL ts)
  | [] => rfl
  | t :: ts => by simp only [normL, untupleL, untuple_norm t, untupleL_norm ts]
end

mutual
theorem flat_untuple : ∀ t : Tree α, (untuple t).flat = t.flat
  | .leaf _ => rfl
  | .none => rfl
  | .dict _ => rfl
  | .list ts => by simp only [untuple, flat, flatL_untuple ts]
  | .tuple ts => by simp only [untuple, flat, flatL_untuple ts]
theorem flatL_untuple : ∀ ts : List (Tree α), flatL (untupleL ts) = flatL ts
  | [] => rfl
  | t :: ts => by simp only [untupleL, flatL, flat_untuple t, flatL_untuple ts]
end

mutual
theorem keysOk_untuple : ∀ t : Tree α, KeysOk t → KeysOk (untuple t)
  | .leaf _, h => h
  | .none, h => h
  | .dict _, h => h
  | .list ts, h => keysOkL_untuple ts h
  | .tuple ts, h => keysOkL_untuple ts h
theorem keysOkL_untuple : ∀ ts : List (Tree α), KeysOkL ts → KeysOkL (untupleL ts)
  | [], h => h
  | t :: ts, h => ⟨keysOk_untuple t h.1, keysOkL_untuple ts h.2⟩
end

mutual
theorem untuple_self : ∀ t : Tree α, untuple t = t ↔ NoTuple t
  | .leaf a => ⟨fun _ => .leaf a, fun _ => rfl⟩
  | .none => ⟨fun _ => .none, fun _ => rfl⟩
  | .dict kvs => ⟨fun _ => .dict kvs, fun _ => rfl⟩
  | .tuple ts => ⟨fun h => by simp [untuple] at h, fun h => by cases h⟩
  | .list ts => by
    rw [untuple, Tree.list.injEq, untupleL_self ts]
    exact ⟨.list ts, fun h => by cases h; assumption⟩
theorem untupleL_self : ∀ ts : List (Tree α), untupleL ts = ts ↔ ∀ t ∈ ts, NoTuple t
  | [] => by simp [untupleL]
  | t :: ts => by simp [untupleL, untuple_self t, untupleL_self ts]
end

mutual
theorem axes_norm : ∀ t : Tree α, axes t.norm = axes t
  | .leaf _ => rfl
  | .none => rfl
  | .dict _ => rfl
  | .list ts => by rw [Tree.norm, axes, axes, axesL_norm ts, normL_eq, List.length_map]
  | .tuple ts => by rw [Tree.norm, axes, axes, axesL_norm ts, normL_eq, List.length_map]
theorem axesL_norm : ∀ ts : List (Tree α), axesL (normL ts) = axesL ts
  | [] => rfl
  | [t] => by rw [normL, normL, axesL_one, axesL_one, axes_norm t]
  | t :: u :: us => by
    have := axesL_norm (u :: us)
    rw [normL] at this
    rw [normL, normL, axesL_two, axesL_two, axes_norm t, this]
end

mutual
theorem noTuple_norm : ∀ t : Tree α, NoTuple t.norm ↔ NoTuple t
  | .leaf a => ⟨fun _ => .leaf a, fun _ => .leaf a⟩
  | .none => ⟨fun _ => .none, fun _ => .none⟩
  | .dict kvs => ⟨fun _ => .dict kvs, fun _ => .dict _⟩
  | .tuple ts => ⟨fun h => (by cases h), fun h => (by cases h)⟩
  | .list ts => ⟨fun h => by
      rw [Tree.norm] at h
      cases h with
      | list _ h => exact .list ts ((noTupleL_norm ts).1 h), fun h => by
      rw [Tree.norm]
      cases h with
      | list _ h => exact .list _ ((noTupleL_norm ts).2 h)⟩
theorem noTupleL_norm : ∀ ts : List (Tree α), (∀ t ∈ normL ts, NoTuple t) ↔ ∀ t ∈ ts, NoTuple t
  | [] => by simp [normL]
  | t :: ts => by simp [normL, noTuple_norm t, noTupleL_norm ts]
end

mutual
theorem untuple_struct : ∀ t : Tree α, sameStruct (untuple t) t = true → untuple t = t
  | .leaf _, _ => rfl
  | .none, _ => rfl
  | .dict _, _ => rfl
  | .list ts, h => by rw [untuple] at h ⊢; rw [untupleL_struct ts (by simpa [sameStruct] using h)]
  | .tuple ts, h => by simp [untuple, sameStruct] at h
theorem untupleL_struct : ∀ ts : List (Tree α), sameStructL (untupleL ts) ts = true → untupleL ts = ts
  | [], _ => rfl
  | t :: ts, h => by
    simp only [untupleL, sameStructL, Bool.and_eq_true] at h ⊢
    rw [untuple_struct t h.1, untupleL_struct ts h.2]
end

end ModelSpec
end Verif
