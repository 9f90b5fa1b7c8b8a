import Verif.Spec.Precision
import Verif.Model.TreeMap

/-! # Lemmas about precision -/

namespace Verif
namespace Tree

variable {α β : Type}

mutual
theorem mapM_error_mem {f : α → Except PyErr (Tree β)} : ∀ (t : Tree α) {e : PyErr}, mapM f t = .error e → ∃ a ∈ flat t, f a = .error e
  | .leaf b, e, h => ⟨b, by simp [flat], h⟩
  | .none, e, h => by cases h
  | .list ts, e, h => by
    rw [mapM] at h
    cases hr : mapML f ts with
    | ok r => rw [hr] at h; cases h
    | error e' => rw [hr] at h; cases h; exact mapML_error_mem ts hr
  | .tuple ts, e, h => by
    rw [mapM] at h
    cases hr : mapML f ts with
    | ok r => rw [hr] at h; cases h
    | error e' => rw [hr] at h; cases h; exact mapML_error_mem ts hr
  | .dict ts, e, h => by
    rw [mapM] at h
    cases hr : mapMD f ts with
    | ok r => rw [hr] at h; cases h
    | error e' => rw [hr] at h; cases h; exact mapMD_error_mem ts hr
theorem mapML_error_mem {f : α → Except PyErr (Tree β)} : ∀ (ts : List (Tree α)) {e : PyErr}, mapML f ts = .error e → ∃ a ∈ flatL ts, f a = .error e
  | [], e, h => by cases h
  | t :: ts, e, h => by
    rw [mapML] at h
    cases h1 : mapM f t with
    | error e' =>
      rw [h1] at h; cases h
      obtain ⟨a, ha, hf⟩ := mapM_error_mem t h1
      exact ⟨a, List.mem_append_left _ ha, hf⟩
    | ok r1 =>
      cases h2 : mapML f ts with
      | ok r2 => rw [h1, h2] at h; cases h
      | error e' =>
        rw [h1, h2] at h; cases h
        obtain ⟨a, ha, hf⟩ := mapML_error_mem ts h2
        exact ⟨a, List.mem_append_right _ ha, hf⟩
theorem mapMD_error_mem {f : α → Except PyErr (Tree β)} : ∀ (ts : List (Str × Tree α)) {e : PyErr}, mapMD f ts = .error e → ∃ a ∈ flatD ts, f a = .error e
  | [], e, h => by cases h
  | (k, t) :: ts, e, h => by
    rw [mapMD] at h
    cases h1 : mapM f t with
    | error e' =>
      rw [h1] at h; cases h
      obtain ⟨a, ha, hf⟩ := mapM_error_mem t h1
      exact ⟨a, List.mem_append_left _ ha, hf⟩
    | ok r1 =>
      cases h2 : mapMD f ts with
      | ok r2 => rw [h1, h2] at h; cases h
      | error e' =>
        rw [h1, h2] at h; cases h
        obtain ⟨a, ha, hf⟩ := mapMD_error_mem ts h2
        exact ⟨a, List.mem_append_right _ ha, hf⟩
end

end Tree

namespace Precision
open PrecisionSpec

variable {V : Type} (conv : DType → DType → V → V)

mutual
theorem allReady_ready : ∀ m : PrecMod V, AllReady m → ready m = true
  | .base _ _ _, h => h
  | .model c subs, h => by
    rw [ready, h.1, allReady_readyL subs h.2]
    rfl
theorem allReady_readyL : ∀ l : List (Bool × PrecMod V), AllReadyL l → readyL l = true
  | [], _ => rfl
  | (b, m) :: l, h => by
    rw [readyL, allReady_ready m h.1, allReady_readyL l h.2]
    simp
end

mutual
theorem ready_executed : ∀ m : PrecMod V, AllExecuted m → ready m = true → AllReady m
  | .base _ _ _, _, h => h
  | .model c subs, he, h => by
    rw [ready, Bool.and_eq_true] at h
    exact ⟨h.1, readyL_executed subs he h.2⟩
theorem readyL_executed : ∀ l : List (Bool × PrecMod V), AllExecutedL l → readyL l = true → AllReadyL l
  | [], _, _ => trivial
  | (b, m) :: l, he, h => by
    rw [readyL, Bool.and_eq_true, he.1] at h
    simp only [Bool.not_true, Bool.false_or] at h
    exact ⟨ready_executed m he.2.1 h.1, readyL_executed l he.2.2 h.2⟩
end

mutual
theorem setPrec_ok (p : Nat) : ∀ m : PrecMod V, AllReady m → setPrec conv p m = (none, mapArr (castArr conv p) m)
  | .base r ps ss, h => by
    have h' : r = true := h
    rw [setPrec, if_pos h', mapArr]
  | .model c subs, h => by
    rw [setPrec, if_pos (by rw [h.1, allReady_readyL subs h.2]; rfl), setPrecL_ok p subs h.2, mapArr]
theorem setPrecL_ok (p : Nat) : ∀ l : List (Bool × PrecMod V), AllReadyL l → setPrecL conv p l = (none, mapArrL (castArr conv p) l)
  | [], _ => rfl
  | (b, m) :: l, h => by
    rw [setPrecL, setPrec_ok p m h.1, setPrecL_ok p l h.2, mapArrL]
end

mutual
theorem setPrec_none (p : Nat) : ∀ m : PrecMod V, (setPrec conv p m).1 = none → AllReady m
  | .base r ps ss, h => by
    rw [setPrec] at h
    by_cases hr : r = true
    · exact hr
    · rw [if_neg hr] at h; cases h
  | .model c subs, h => by
    rw [setPrec] at h
    by_cases hr : (c && readyL subs) = true
    · rw [if_pos hr] at h
      exact ⟨(Bool.and_eq_true _ _ ▸ hr).1, setPrecL_none p subs h⟩
    · rw [if_neg hr] at h; cases h
theorem setPrecL_none (p : Nat) : ∀ l : List (Bool × PrecMod V), (setPrecL conv p l).1 = none → AllReadyL l
  | [], _ => trivial
  | (b, m) :: l, h => by
    rw [setPrecL] at h
    cases hm : (setPrec conv p m).1 with
    | some e => rw [hm] at h; cases h
    | none =>
      rw [hm] at h
      exact ⟨setPrec_none p m hm, setPrecL_none p l h⟩
end

mutual
theorem arrays_mapArr (g : Arr V → Arr V) : ∀ m : PrecMod V, arrays (mapArr g m) = (arrays m).map g
  | .base _ ps ss => by rw [mapArr, arrays, arrays, List.map_append]
  | .model c subs => by rw [mapArr, arrays, arrays, arraysL_mapArr g subs]
theorem arraysL_mapArr (g : Arr V → Arr V) : ∀ l : List (Bool × PrecMod V), arraysL (mapArrL g l) = (arraysL l).map g
  | [] => rfl
  | (b, m) :: l => by rw [mapArrL, arraysL, arraysL, arrays_mapArr g m, arraysL_mapArr g l, List.map_append]
end

mutual
theorem mapArr_congr {g g' : Arr V → Arr V} : ∀ m : PrecMod V, (∀ x ∈ arrays m, g x = g' x) → mapArr g m = mapArr g' m
  | .base _ ps ss, h => by
    rw [mapArr, mapArr, List.map_congr_left fun x hx => h x (List.mem_append_left _ hx), List.map_congr_left fun x hx => h x (List.mem_append_right _ hx)]
  | .model c subs, h => by rw [mapArr, mapArr, mapArrL_congr subs h]
theorem mapArrL_congr {g g' : Arr V → Arr V} : ∀ l : List (Bool × PrecMod V), (∀ x ∈ arraysL l, g x = g' x) → mapArrL g l = mapArrL g' l
  | [], _ => rfl
  | (b, m) :: l, h => by
    rw [mapArrL, mapArrL, mapArr_congr m fun x hx => h x (List.mem_append_left _ hx), mapArrL_congr l fun x hx => h x (List.mem_append_right _ hx)]
end

mutual
theorem mapArr_map (g g' : Arr V → Arr V) : ∀ m : PrecMod V, mapArr g (mapArr g' m) = mapArr (fun x => g (g' x)) m
  | .base _ ps ss => by simp only [mapArr, List.map_map]; rfl
  | .model c subs => by simp only [mapArr, mapArrL_map g g' subs]
theorem mapArrL_map (g g' : Arr V → Arr V) : ∀ l : List (Bool × PrecMod V), mapArrL g (mapArrL g' l) = mapArrL (fun x => g (g' x)) l
  | [] => rfl
  | (b, m) :: l => by simp only [mapArrL, mapArr_map g g' m, mapArrL_map g g' l]
end

mutual
theorem mapArr_id : ∀ m : PrecMod V, mapArr (fun x => x) m = m
  | .base _ ps ss => by simp only [mapArr, List.map_id']
  | .model c subs => by simp only [mapArr, mapArrL_id subs]
theorem mapArrL_id : ∀ l : List (Bool × PrecMod V), mapArrL (fun x => x) l = l
  | [] => rfl
  | (b, m) :: l => by simp only [mapArrL, mapArr_id m, mapArrL_id l]
end

mutual
theorem allReady_mapArr (g : Arr V → Arr V) : ∀ m : PrecMod V, AllReady m → AllReady (mapArr g m)
  | .base _ _ _, h => h
  | .model _ subs, h => ⟨h.1, allReadyL_mapArr g subs h.2⟩
theorem allReadyL_mapArr (g : Arr V → Arr V) : ∀ l : List (Bool × PrecMod V), AllReadyL l → AllReadyL (mapArrL g l)
  | [], _ => trivial
  | (_, m) :: l, h => ⟨allReady_mapArr g m h.1, allReadyL_mapArr g l h.2⟩
end

theorem castArr_dtype {p : Nat} (hp : p = 32 ∨ p = 64) (x : Arr V) : (castArr conv p x).dtype = target p x.dtype := by
  obtain ⟨d, v⟩ := x
  rcases hp with rfl | rfl <;> cases d <;> rfl

theorem castArr_vals {p : Nat} (hp : p = 32 ∨ p = 64) (x : Arr V) : (castArr conv p x).vals = x.vals.map (conv x.dtype (target p x.dtype)) := by
  obtain ⟨d, v⟩ := x
  rcases hp with rfl | rfl <;> cases d <;> rfl

theorem parse_bits {o : Option'} {p : Nat} (h : parse o = some p) : p = 32 ∨ p = 64 := by
  unfold parse at h
  split at h
  · cases h; exact Or.inl rfl
  · split at h
    · cases h; exact Or.inr rfl
    · cases h

end Precision
end Verif
