import Verif.Spec.SetParams
import Verif.Lemmas.SerializeLib
import Verif.Lemmas.Loaded

/-! # Lemmas about setting parameters -/

namespace Verif.ParamSpec
open Verif.Tree Verif.Ser Verif.SerSpec

mutual
/-- The shapes a tree of tuples of integers stands for. -/
def rd : PyVal → Option (Tree (List Nat))
  | .leaf _ => Option.none
  | .none => some .none
  | .list ts => (rdL ts).map .list
  | .tuple ts => match intsOf (.tuple ts) with
    | some s => if s.all (0 ≤ ·) then some (.leaf (s.map Int.toNat)) else Option.none
    | Option.none => (rdL ts).map .tuple
  | .dict kvs => (rdD kvs).map .dict
/-- `rd` on lists. -/
def rdL : List PyVal → Option (List (Tree (List Nat)))
  | [] => some []
  | t :: ts => match rd t, rdL ts with
    | some u, some r => some (u :: r)
    | _, _ => Option.none
/-- `rd` on dictionaries. -/
def rdD : List (Str × PyVal) → Option (List (Str × Tree (List Nat)))
  | [] => some []
  | (k, t) :: ts => match rd t, rdD ts with
    | some u, some r => some ((k, u) :: r)
    | _, _ => Option.none
end

theorem ints_shape {s : List Int} {x : Arr} : s = shapeInts x ↔ s.all (0 ≤ ·) = true ∧ s.map Int.toNat = x.shape := by
  unfold shapeInts
  generalize x.shape = l
  induction s generalizing l with
  | nil => cases l <;> simp
  | cons i s ih =>
    cases l with
    | nil => simp
    | cons n l =>
      simp only [List.map_cons, List.cons.injEq, ih, List.all_cons, Bool.and_eq_true, decide_eq_true_eq, Int.ofNat_eq_natCast]
      constructor
      · rintro ⟨rfl, h1, h2⟩; exact ⟨⟨by omega, h1⟩, by omega, h2⟩
      · rintro ⟨⟨h0, h1⟩, h2, h3⟩; exact ⟨by omega, h1, h3⟩

mutual
theorem fits_iff : ∀ (s u : PyVal), fitsShape u s = true ↔ ∃ t, shapes u = some t ∧ rd s = some t
  | .leaf b, u => by
    cases u with
    | leaf c => cases c <;> simp [fitsShape, rd]
    | _ => simp [fitsShape, rd]
  | .none, u => by
    cases u with
    | leaf c => cases c <;> simp [fitsShape, rd, shapes]
    | none => simp [fitsShape, rd, shapes]
    | list ts => simp [fitsShape, rd, shapes]
    | tuple ts => simp [fitsShape, rd, shapes]
    | dict ts => simp [fitsShape, rd, shapes]
  | .list ss, u => by
    cases u with
    | list ts =>
      rw [fitsShape, fitsL_iff ss ts, shapes, rd]
      constructor
      · rintro ⟨l, h1, h2⟩; exact ⟨.list l, by rw [h1]; rfl, by rw [h2]; rfl⟩
      · rintro ⟨t, h1, h2⟩
        obtain ⟨l, h3, rfl⟩ := Option.map_eq_some_iff.1 h1
        obtain ⟨l', h4, h5⟩ := Option.map_eq_some_iff.1 h2
        cases h5
        exact ⟨l, h3, h4⟩
    | leaf c => cases c <;> simp [fitsShape, rd, shapes]
    | none => simp [fitsShape, rd, shapes]
    | tuple ts => simp [fitsShape, rd, shapes]
    | dict ts => simp [fitsShape, rd, shapes]
  | .tuple ss, u => by
    cases hi : intsOf (.tuple ss) with
    | some s =>
      rw [rd, hi]
      simp only
      cases u with
      | leaf c =>
        cases c with
        | arr x =>
          rw [fitsShape, hi]
          have : (some s == some (shapeInts x)) = true ↔ s = shapeInts x := by simp
          rw [this, ints_shape]
          constructor
          · rintro ⟨h1, h2⟩; exact ⟨.leaf x.shape, rfl, by rw [if_pos h1, h2]⟩
          · rintro ⟨t, h1, h2⟩
            cases h1
            split at h2
            · next hh => exact ⟨hh, by injection h2 with h2; injection h2⟩
            · cases h2
        | _ => simp [fitsShape, shapes]
      | none => simp only [fitsShape, shapes]; constructor
                · intro h; cases h
                · rintro ⟨t, h1, h2⟩; cases h1; split at h2 <;> cases h2
      | list ts => simp only [fitsShape, shapes]; constructor
                   · intro h; cases h
                   · rintro ⟨t, h1, h2⟩
                     obtain ⟨l, -, rfl⟩ := Option.map_eq_some_iff.1 h1
                     split at h2 <;> cases h2
      | tuple ts => simp only [fitsShape, shapes, hi]; constructor
                    · intro h; cases h
                    · rintro ⟨t, h1, h2⟩
                      obtain ⟨l, -, rfl⟩ := Option.map_eq_some_iff.1 h1
                      split at h2 <;> cases h2
      | dict ts => simp only [fitsShape, shapes]; constructor
                   · intro h; cases h
                   · rintro ⟨t, h1, h2⟩
                     obtain ⟨l, -, rfl⟩ := Option.map_eq_some_iff.1 h1
                     split at h2 <;> cases h2
    | none =>
      rw [rd, hi]
      simp only
      cases u with
      | tuple ts =>
        rw [fitsShape, hi]
        simp only [Option.isNone_none, Bool.true_and]
        rw [fitsL_iff ss ts, shapes]
        constructor
        · rintro ⟨l, h1, h2⟩; exact ⟨.tuple l, by rw [h1]; rfl, by rw [h2]; rfl⟩
        · rintro ⟨t, h1, h2⟩
          obtain ⟨l, h3, rfl⟩ := Option.map_eq_some_iff.1 h1
          obtain ⟨l', h4, h5⟩ := Option.map_eq_some_iff.1 h2
          cases h5
          exact ⟨l, h3, h4⟩
      | leaf c => cases c <;> simp [fitsShape, shapes, hi]
      | none => simp [fitsShape, shapes]
      | list ts => simp [fitsShape, shapes]
      | dict ts => simp [fitsShape, shapes]
  | .dict ss, u => by
    cases u with
    | dict ts =>
      rw [fitsShape, fitsD_iff ss ts, shapes, rd]
      constructor
      · rintro ⟨l, h1, h2⟩; exact ⟨.dict l, by rw [h1]; rfl, by rw [h2]; rfl⟩
      · rintro ⟨t, h1, h2⟩
        obtain ⟨l, h3, rfl⟩ := Option.map_eq_some_iff.1 h1
        obtain ⟨l', h4, h5⟩ := Option.map_eq_some_iff.1 h2
        cases h5
        exact ⟨l, h3, h4⟩
    | leaf c => cases c <;> simp [fitsShape, rd, shapes]
    | none => simp [fitsShape, rd, shapes]
    | tuple ts => simp [fitsShape, rd, shapes]
    | list ts => simp [fitsShape, rd, shapes]
theorem fitsL_iff : ∀ (ss us : List PyVal), fitsShapeL us ss = true ↔ ∃ t, shapesL us = some t ∧ rdL ss = some t
  | [], us => by
    cases us with
    | nil => simp [fitsShapeL, shapesL, rdL]
    | cons u us =>
      simp only [fitsShapeL, shapesL, rdL]
      constructor
      · intro h; cases h
      · rintro ⟨t, h1, h2⟩
        cases h2
        split at h1 <;> cases h1
  | s :: ss, us => by
    cases us with
    | nil =>
      simp only [fitsShapeL, shapesL, rdL]
      constructor
      · intro h; cases h
      · rintro ⟨t, h1, h2⟩
        cases h1
        split at h2 <;> cases h2
    | cons u us =>
      rw [fitsShapeL, Bool.and_eq_true, fits_iff s u, fitsL_iff ss us, shapesL, rdL]
      constructor
      · rintro ⟨⟨t, h1, h2⟩, l, h3, h4⟩
        exact ⟨t :: l, by rw [h1, h3], by rw [h2, h4]⟩
      · rintro ⟨t, h1, h2⟩
        split at h1
        · next a l ha hl =>
          cases h1
          split at h2
          · next b l' hb hl' =>
            cases h2
            exact ⟨⟨_, ha, hb⟩, _, hl, hl'⟩
          · cases h2
        · cases h1
theorem fitsD_iff : ∀ (ss us : List (Str × PyVal)), fitsShapeD us ss = true ↔ ∃ t, shapesD us = some t ∧ rdD ss = some t
  | [], us => by
    cases us with
    | nil => simp [fitsShapeD, shapesD, rdD]
    | cons u us =>
      simp only [fitsShapeD, shapesD, rdD]
      constructor
      · intro h; cases h
      · rintro ⟨t, h1, h2⟩
        cases h2
        split at h1 <;> cases h1
  | (k, s) :: ss, us => by
    cases us with
    | nil =>
      simp only [fitsShapeD, shapesD, rdD]
      constructor
      · intro h; cases h
      · rintro ⟨t, h1, h2⟩
        cases h1
        split at h2 <;> cases h2
    | cons u us =>
      obtain ⟨k', u⟩ := u
      rw [fitsShapeD, Bool.and_eq_true, Bool.and_eq_true, decide_eq_true_eq, fits_iff s u, fitsD_iff ss us, shapesD, rdD]
      constructor
      · rintro ⟨rfl, ⟨t, h1, h2⟩, l, h3, h4⟩
        exact ⟨(k', t) :: l, by rw [h1, h3], by rw [h2, h4]⟩
      · rintro ⟨t, h1, h2⟩
        split at h1
        · next a l ha hl =>
          cases h1
          split at h2
          · next b l' hb hl' =>
            cases h2
            exact ⟨rfl, ⟨_, ha, hb⟩, _, hl, hl'⟩
          · cases h2
        · cases h1
end

mutual
theorem arrTree_shapes (re : Bool) (rnd : Nat) : ∀ (s : PyVal) {u : PyVal}, arrTree re rnd s = some u → ∃ t, shapes u = some t ∧ rd s = some t
  | .leaf _, u, h => by cases h
  | .none, u, h => by cases h; exact ⟨.none, rfl, rfl⟩
  | .list ss, u, h => by
    rw [arrTree] at h
    obtain ⟨l, h1, rfl⟩ := Option.map_eq_some_iff.1 h
    obtain ⟨t, h2, h3⟩ := arrTreeL_shapes re rnd ss h1
    exact ⟨.list t, by rw [shapes, h2]; rfl, by rw [rd, h3]; rfl⟩
  | .tuple ss, u, h => by
    rw [arrTree] at h
    rw [rd]
    split at h
    · next s hs =>
      split at h
      · next hn => cases h; exact ⟨.leaf (s.map Int.toNat), rfl, by rw [hs]; simp only; rw [if_pos hn]⟩
      · cases h
    · next hs =>
      obtain ⟨l, h1, rfl⟩ := Option.map_eq_some_iff.1 h
      obtain ⟨t, h2, h3⟩ := arrTreeL_shapes re rnd ss h1
      exact ⟨.tuple t, by rw [shapes, h2]; rfl, by rw [hs]; simp only [h3]; rfl⟩
  | .dict ss, u, h => by
    rw [arrTree] at h
    obtain ⟨l, h1, rfl⟩ := Option.map_eq_some_iff.1 h
    obtain ⟨t, h2, h3⟩ := arrTreeD_shapes re rnd ss h1
    exact ⟨.dict t, by rw [shapes, h2]; rfl, by rw [rd, h3]; rfl⟩
theorem arrTreeL_shapes (re : Bool) (rnd : Nat) : ∀ (ss : List PyVal) {us : List PyVal}, arrTreeL re rnd ss = some us → ∃ t, shapesL us = some t ∧ rdL ss = some t
  | [], us, h => by cases h; exact ⟨[], rfl, rfl⟩
  | s :: ss, us, h => by
    rw [arrTreeL] at h
    split at h
    · next u r hu hr =>
      cases h
      obtain ⟨t, h1, h2⟩ := arrTree_shapes re rnd s hu
      obtain ⟨l, h3, h4⟩ := arrTreeL_shapes re rnd ss hr
      exact ⟨t :: l, by rw [shapesL, h1, h3], by rw [rdL, h2, h4]⟩
    · cases h
theorem arrTreeD_shapes (re : Bool) (rnd : Nat) : ∀ (ss : List (Str × PyVal)) {us : List (Str × PyVal)}, arrTreeD re rnd ss = some us → ∃ t, shapesD us = some t ∧ rdD ss = some t
  | [], us, h => by cases h; exact ⟨[], rfl, rfl⟩
  | (k, s) :: ss, us, h => by
    rw [arrTreeD] at h
    split at h
    · next u r hu hr =>
      cases h
      obtain ⟨t, h1, h2⟩ := arrTree_shapes re rnd s hu
      obtain ⟨l, h3, h4⟩ := arrTreeD_shapes re rnd ss hr
      exact ⟨(k, t) :: l, by rw [shapesD, h1, h3], by rw [rdD, h2, h4]⟩
    · cases h
end

theorem normD_keys {α : Type} : ∀ kvs : List (Str × Tree α), (normD kvs).map Prod.fst = kvs.map Prod.fst
  | [] => rfl
  | (k, t) :: ts => by simp only [normD, List.map_cons, normD_keys ts]

theorem arrTreeD_keys (re : Bool) (rnd : Nat) : ∀ (ss : List (Str × PyVal)) {us : List (Str × PyVal)}, arrTreeD re rnd ss = some us → us.map Prod.fst = ss.map Prod.fst
  | [], us, h => by cases h; rfl
  | (k, s) :: ss, us, h => by
    rw [arrTreeD] at h
    split at h
    · next u r hu hr => cases h; simp only [List.map_cons, arrTreeD_keys re rnd ss hr]
    · cases h

theorem weak_keys {α β : Type} {l : List (Str × α)} {l' : List (Str × β)} (h : l.map Prod.fst = l'.map Prod.fst) (hl : l.Pairwise fun a b => ¬ b.1 < a.1) : l'.Pairwise fun a b => ¬ b.1 < a.1 := by
  have h1 : (l.map Prod.fst).Pairwise (fun a b => ¬ b < a) := List.pairwise_map.2 hl
  rw [h] at h1
  exact List.pairwise_map.1 h1

mutual
theorem arrTree_norm (re : Bool) (rnd : Nat) : ∀ (s : PyVal) {u : PyVal}, s.norm = s → arrTree re rnd s = some u → u.norm = u
  | .leaf _, u, _, h => by cases h
  | .none, u, _, h => by cases h; rfl
  | .list ss, u, hn, h => by
    rw [arrTree] at h
    obtain ⟨l, h1, rfl⟩ := Option.map_eq_some_iff.1 h
    rw [Tree.norm] at hn ⊢
    injection hn with hn
    rw [arrTreeL_norm re rnd ss hn h1]
  | .tuple ss, u, hn, h => by
    rw [arrTree] at h
    split at h
    · split at h
      · cases h; rfl
      · cases h
    · obtain ⟨l, h1, rfl⟩ := Option.map_eq_some_iff.1 h
      rw [Tree.norm] at hn ⊢
      injection hn with hn
      rw [arrTreeL_norm re rnd ss hn h1]
  | .dict ss, u, hn, h => by
    rw [arrTree] at h
    obtain ⟨l, h1, rfl⟩ := Option.map_eq_some_iff.1 h
    rw [Tree.norm] at hn ⊢
    injection hn with hn
    have hw : ss.Pairwise fun a b => ¬ b.1 < a.1 := by rw [← hn]; exact Loaded.sortKvs_weak _
    have h2 : normD ss = ss := by
      rw [Loaded.sortKvs_of_weak _ (weak_keys (normD_keys ss).symm hw)] at hn
      exact hn
    have h3 : normD l = l := arrTreeD_norm re rnd ss h2 h1
    rw [h3, Loaded.sortKvs_of_weak _ (weak_keys (arrTreeD_keys re rnd ss h1).symm hw)]
theorem arrTreeL_norm (re : Bool) (rnd : Nat) : ∀ (ss : List PyVal) {us : List PyVal}, normL ss = ss → arrTreeL re rnd ss = some us → normL us = us
  | [], us, _, h => by cases h; rfl
  | s :: ss, us, hn, h => by
    rw [arrTreeL] at h
    split at h
    · next u r hu hr =>
      cases h
      rw [normL] at hn ⊢
      injection hn with h1 h2
      rw [arrTree_norm re rnd s h1 hu, arrTreeL_norm re rnd ss h2 hr]
    · cases h
theorem arrTreeD_norm (re : Bool) (rnd : Nat) : ∀ (ss : List (Str × PyVal)) {us : List (Str × PyVal)}, normD ss = ss → arrTreeD re rnd ss = some us → normD us = us
  | [], us, _, h => by cases h; rfl
  | (k, s) :: ss, us, hn, h => by
    rw [arrTreeD] at h
    split at h
    · next u r hu hr =>
      cases h
      rw [normD] at hn ⊢
      injection hn with h1 h2
      injection h1 with _ h1
      rw [arrTree_norm re rnd s h1 hu, arrTreeD_norm re rnd ss h2 hr]
    · cases h
end

end Verif.ParamSpec
