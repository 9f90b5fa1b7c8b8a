import Verif.Spec.NdArr
import Mathlib.Data.List.Basic
import Mathlib.Data.List.Nodup

namespace Verif.NArr
open NdSpec

variable {V W U : Type}

theorem inB_cons {n : Nat} {s : List Nat} {i : Nat} {is : List Nat} : InB (n :: s) (i :: is) ↔ i < n ∧ InB s is := by
  constructor
  · rintro ⟨h1, h2⟩
    exact ⟨h2 0 n i rfl rfl, by simpa using h1, fun k d j hd hj => h2 (k + 1) d j (by simpa using hd) (by simpa using hj)⟩
  · rintro ⟨h, h1, h2⟩
    refine ⟨by simpa using h1, fun k d j hd hj => ?_⟩
    cases k with
    | zero => simp at hd hj; omega
    | succ k => exact h2 k d j (by simpa using hd) (by simpa using hj)

theorem mem_indices {s i : List Nat} : i ∈ indices s ↔ InB s i := by
  induction s generalizing i with
  | nil =>
    simp only [indices, List.mem_singleton]
    constructor
    · rintro rfl; exact ⟨rfl, by simp⟩
    · rintro ⟨h, -⟩; exact List.length_eq_zero_iff.1 h
  | cons n s ih =>
    simp only [indices, List.mem_flatMap, List.mem_range, List.mem_map]
    constructor
    · rintro ⟨a, ha, b, hb, rfl⟩
      exact inB_cons.2 ⟨ha, ih.1 hb⟩
    · intro h
      cases i with
      | nil => have := h.1; simp at this
      | cons a b =>
        obtain ⟨h1, h2⟩ := inB_cons.1 h
        exact ⟨a, h1, b, ih.2 h2, rfl⟩

theorem nodup_indices (s : List Nat) : (indices s).Nodup := by
  induction s with
  | nil => simp [indices]
  | cons n s ih =>
    simp only [indices]
    rw [List.nodup_flatMap]
    refine ⟨fun a _ => ih.map (fun _ _ h => by simpa using h), ?_⟩
    refine List.Pairwise.imp_of_mem ?_ (List.nodup_range (n := n))
    intro a b _ _ hab
    simp only [Function.onFun, List.disjoint_left, List.mem_map]
    rintro x ⟨y, -, rfl⟩ ⟨z, -, h⟩
    simp at h
    exact hab h.1.symm

theorem length_indices (s : List Nat) : (indices s).length = s.foldr (· * ·) 1 := by
  induction s with
  | nil => rfl
  | cons n s ih =>
    simp only [indices, List.length_flatMap, List.length_map, ih, List.foldr_cons]
    have : ∀ m n : Nat, ((List.range n).map fun _ => m).sum = n * m := by
      intro m n
      induction n with
      | zero => simp
      | succ n ih => rw [List.range_succ, List.map_append, List.sum_append, ih]; simp [Nat.succ_mul]
    exact this _ _

theorem length_entries (x : NArr V) : x.entries.length = x.size := by
  simp [entries, length_indices, size]

theorem bshapeRev_spec : ∀ {s t r : List Nat}, bshapeRev s t = some r →
    r.length = max s.length t.length ∧ ∀ k, k < r.length →
      ((s[k]? = none ∧ r[k]? = t[k]?) ∨ (t[k]? = none ∧ r[k]? = s[k]?) ∨
        ∃ a b d, s[k]? = some a ∧ t[k]? = some b ∧ r[k]? = some d ∧ ((a = b ∧ d = a) ∨ (a = 1 ∧ d = b) ∨ (b = 1 ∧ d = a)))
  | [], t, r, h => by
    simp only [bshapeRev, Option.some.injEq] at h
    subst h
    exact ⟨by simp, fun k _ => .inl ⟨by simp, rfl⟩⟩
  | a :: s, [], r, h => by
    simp only [bshapeRev, Option.some.injEq] at h
    subst h
    exact ⟨by simp, fun k _ => .inr (.inl ⟨by simp, rfl⟩)⟩
  | a :: s, b :: t, r, h => by
    simp only [bshapeRev, Option.bind_eq_some_iff, Option.map_eq_some_iff] at h
    obtain ⟨d, hd, r', hr', rfl⟩ := h
    obtain ⟨h1, h2⟩ := bshapeRev_spec hr'
    refine ⟨by simp [h1], fun k hk => ?_⟩
    cases k with
    | zero =>
      refine .inr (.inr ⟨a, b, d, rfl, rfl, rfl, ?_⟩)
      unfold bdim at hd
      split at hd
      · exact .inl ⟨by assumption, by simpa using hd.symm⟩
      · split at hd
        · exact .inr (.inl ⟨by assumption, by simpa using hd.symm⟩)
        · split at hd
          · exact .inr (.inr ⟨by assumption, by simpa using hd.symm⟩)
          · cases hd
    | succ k => simpa using h2 k (by simpa using hk)

theorem bshape_spec {s t r : List Nat} (h : bshape s t = some r) : Broadcast s t r := by
  unfold bshape at h
  rw [Option.map_eq_some_iff] at h
  obtain ⟨r', hr, rfl⟩ := h
  obtain ⟨h1, h2⟩ := bshapeRev_spec hr
  refine ⟨by simpa using h1, fun k hk => ?_⟩
  rw [List.reverse_reverse]
  exact h2 k (by simpa using hk)

theorem bshapeRev_none : ∀ {s t : List Nat}, bshapeRev s t = none →
    ∃ (k a b : Nat), s[k]? = some a ∧ t[k]? = some b ∧ a ≠ b ∧ a ≠ 1 ∧ b ≠ 1
  | [], t, h => by simp [bshapeRev] at h
  | a :: s, [], h => by simp [bshapeRev] at h
  | a :: s, b :: t, h => by
    simp only [bshapeRev] at h
    cases hd : bdim a b with
    | none =>
      unfold bdim at hd
      split_ifs at hd
      exact ⟨0, a, b, rfl, rfl, by assumption, by assumption, by assumption⟩
    | some d =>
      rw [hd] at h
      simp only [Option.bind_some, Option.map_eq_none_iff] at h
      obtain ⟨k, x, y, h1⟩ := bshapeRev_none h
      exact ⟨k + 1, x, y, by simpa using h1⟩

theorem bshapeRev_self (s : List Nat) : bshapeRev s s = some s := by
  induction s with
  | nil => rfl
  | cons a s ih => simp [bshapeRev, bdim, ih]

theorem bshape_self (s : List Nat) : bshape s s = some s := by simp [bshape, bshapeRev_self]

theorem bidx_spec {s i : List Nat} (h : s.length ≤ i.length) : Reads s i (bidx s i) := by
  refine ⟨by simp [bidx]; omega, h, fun k d x hd hx => ?_⟩
  unfold bidx
  rw [List.getElem?_zipWith, hd, List.getElem?_drop, hx]

theorem bidx_self {s i : List Nat} (h : InB s i) : bidx s i = i := by
  unfold bidx
  rw [h.1, Nat.sub_self, List.drop_zero]
  apply List.ext_getElem?
  intro k
  rw [List.getElem?_zipWith]
  cases hs : s[k]? with
  | none =>
    have : s.length ≤ k := List.getElem?_eq_none_iff.1 hs
    rw [List.getElem?_eq_none (by rw [h.1]; exact this)]
  | some d =>
    cases hi : i[k]? with
    | none => rfl
    | some j =>
      have := h.2 k d j hs hi
      simp only [Option.some.injEq]
      split
      · omega
      · rfl

theorem reads_unique {s i j j' : List Nat} (h : Reads s i j) (h' : Reads s i j') : j = j' := by
  apply List.ext_getElem?
  intro k
  by_cases hk : k < s.length
  · have hi : i.length - s.length + k < i.length := by have := h.2.1; omega
    rw [h.2.2 k _ _ (List.getElem?_eq_getElem hk) (List.getElem?_eq_getElem hi),
      h'.2.2 k _ _ (List.getElem?_eq_getElem hk) (List.getElem?_eq_getElem hi)]
  · rw [List.getElem?_eq_none (by have := h.1; omega), List.getElem?_eq_none (by have := h'.1; omega)]

/-! ### The broadcasting order -/

/-- The reversed shape `s` can be stretched to `r`. -/
def BLeR : List Nat → List Nat → Prop
  | [], _ => True
  | _ :: _, [] => False
  | a :: s, d :: r => (a = d ∨ a = 1) ∧ BLeR s r

/-- The shape `s` can be stretched to `r`. -/
def BLe (s r : List Nat) : Prop := BLeR s.reverse r.reverse

theorem bleR_refl : ∀ s, BLeR s s
  | [] => trivial
  | _ :: s => ⟨.inl rfl, bleR_refl s⟩

theorem bleR_trans : ∀ {s t r : List Nat}, BLeR s t → BLeR t r → BLeR s r
  | [], _, _, _, _ => trivial
  | _ :: _, [], _, h, _ => h.elim
  | _ :: _, _ :: _, [], _, h => h.elim
  | a :: s, b :: t, d :: r, h1, h2 => by
    refine ⟨?_, bleR_trans h1.2 h2.2⟩
    rcases h1.1 with rfl | rfl
    · exact h2.1
    · exact .inr rfl

theorem bleR_antisymm : ∀ {s t : List Nat}, BLeR s t → BLeR t s → s = t
  | [], [], _, _ => rfl
  | [], _ :: _, _, h => h.elim
  | _ :: _, [], h, _ => h.elim
  | a :: s, b :: t, h1, h2 => by
    rw [bleR_antisymm h1.2 h2.2]
    rcases h1.1 with rfl | rfl
    · rfl
    · rcases h2.1 with rfl | rfl <;> rfl

theorem bshapeRev_le : ∀ {s t r : List Nat}, bshapeRev s t = some r → BLeR s r ∧ BLeR t r
  | [], t, r, h => by simp only [bshapeRev, Option.some.injEq] at h; subst h; exact ⟨trivial, bleR_refl _⟩
  | a :: s, [], r, h => by simp only [bshapeRev, Option.some.injEq] at h; subst h; exact ⟨bleR_refl _, trivial⟩
  | a :: s, b :: t, r, h => by
    simp only [bshapeRev, Option.bind_eq_some_iff, Option.map_eq_some_iff] at h
    obtain ⟨d, hd, r', hr', rfl⟩ := h
    obtain ⟨h1, h2⟩ := bshapeRev_le hr'
    unfold bdim at hd
    split_ifs at hd <;> simp only [Option.some.injEq] at hd <;> subst hd
    · rename_i hab; exact ⟨⟨.inl rfl, h1⟩, .inl hab.symm, h2⟩
    · rename_i hab; exact ⟨⟨.inr hab, h1⟩, .inl rfl, h2⟩
    · rename_i hab; exact ⟨⟨.inl rfl, h1⟩, .inr hab, h2⟩

theorem bshapeRev_of_le : ∀ {s r : List Nat}, BLeR s r → bshapeRev r s = some r
  | [], r, _ => by cases r <;> rfl
  | _ :: _, [], h => h.elim
  | a :: s, d :: r, h => by
    simp only [bshapeRev, bshapeRev_of_le h.2, Option.map_some]
    unfold bdim
    split_ifs with h1 h2
    · rfl
    · rcases h.1 with h3 | h3
      · exact absurd h3.symm h1
      · rw [h3, h2]; rfl
    · rfl
    · rcases h.1 with h3 | h3
      · exact absurd h3.symm h1
      · exact absurd h3 (by assumption)

theorem ble_refl (s : List Nat) : BLe s s := bleR_refl _
theorem ble_trans {s t r : List Nat} (h1 : BLe s t) (h2 : BLe t r) : BLe s r := bleR_trans h1 h2
theorem ble_antisymm {s t : List Nat} (h1 : BLe s t) (h2 : BLe t s) : s = t := List.reverse_injective (bleR_antisymm h1 h2)
theorem bshape_le {s t r : List Nat} (h : bshape s t = some r) : BLe s r ∧ BLe t r := by
  unfold bshape at h
  rw [Option.map_eq_some_iff] at h
  obtain ⟨r', hr, rfl⟩ := h
  unfold BLe
  rw [List.reverse_reverse]
  exact bshapeRev_le hr
theorem bshape_of_le {s r : List Nat} (h : BLe s r) : bshape r s = some r := by
  unfold bshape
  rw [bshapeRev_of_le h, Option.map_some, List.reverse_reverse]

theorem bshapeRev_sup : ∀ {s t r : List Nat}, BLeR s r → BLeR t r → ∃ q, bshapeRev s t = some q ∧ BLeR q r
  | [], t, r, _, h => ⟨t, by cases t <;> rfl, h⟩
  | _ :: _, [], _, h, _ => ⟨_, rfl, h⟩
  | _ :: _, _ :: _, [], h, _ => h.elim
  | a :: s, b :: t, d :: r, h, h' => by
    obtain ⟨q, hq, hl⟩ := bshapeRev_sup h.2 h'.2
    have : ∃ e, bdim a b = some e ∧ (e = d ∨ e = 1) := by
      unfold bdim
      rcases h.1 with h1 | h1 <;> rcases h'.1 with h2 | h2 <;> subst h1 <;> subst h2
      · exact ⟨_, if_pos rfl, .inl rfl⟩
      · by_cases e : a = 1
        · exact ⟨a, if_pos e, .inl rfl⟩
        · rw [if_neg e, if_neg e, if_pos rfl]; exact ⟨_, rfl, .inl rfl⟩
      · by_cases e : 1 = b
        · exact ⟨1, if_pos e, .inr rfl⟩
        · rw [if_neg e, if_pos rfl]; exact ⟨_, rfl, .inl rfl⟩
      · exact ⟨_, if_pos rfl, .inr rfl⟩
    obtain ⟨e, he, hd⟩ := this
    exact ⟨e :: q, by unfold bshapeRev; rw [he, hq]; rfl, hd, hl⟩

/-- Two shapes that can be stretched to a third have a broadcast shape, which can be stretched to it too. -/
theorem bshape_sup {s t r : List Nat} (h : BLe s r) (h' : BLe t r) : ∃ q, bshape s t = some q ∧ BLe q r := by
  obtain ⟨q, hq, hl⟩ := bshapeRev_sup h h'
  refine ⟨q.reverse, by unfold bshape; rw [hq]; rfl, ?_⟩
  unfold BLe
  rw [List.reverse_reverse]
  exact hl

theorem bleR_length : ∀ {s r : List Nat}, BLeR s r → s.length ≤ r.length
  | [], _, _ => by simp
  | _ :: _, [], h => h.elim
  | _ :: s, _ :: r, h => by have := bleR_length h.2; simp; omega

theorem ble_length {s r : List Nat} (h : BLe s r) : s.length ≤ r.length := by simpa using bleR_length h

theorem bleR_get : ∀ {s r : List Nat}, BLeR s r → ∀ (k : Nat) (a : Nat), s[k]? = some a → ∃ d, r[k]? = some d ∧ (a = d ∨ a = 1)
  | [], _, _, k, a, h => by simp at h
  | _ :: _, [], h, _, _, _ => h.elim
  | b :: s, d :: r, h, k, a, hk => by
    cases k with
    | zero => simp at hk; subst hk; exact ⟨d, rfl, h.1⟩
    | succ k => simpa using bleR_get h.2 k a (by simpa using hk)

/-- Reading through an intermediate shape. -/
theorem bidx_bidx {s t i : List Nat} (h : BLe s t) (hi : t.length ≤ i.length) : bidx s (bidx t i) = bidx s i := by
  have hst := ble_length h
  have ht : Reads t i (bidx t i) := bidx_spec hi
  have h1 : Reads s (bidx t i) (bidx s (bidx t i)) := bidx_spec (by rw [ht.1]; exact hst)
  refine reads_unique (i := i) ⟨h1.1, by omega, fun k d x hd hx => ?_⟩ (bidx_spec (by omega))
  have hk : k < s.length := (List.getElem?_eq_some_iff.1 hd).1
  -- the axis of `t` below axis `k` of `s`
  have hkt : t.length - s.length + k < t.length := by omega
  obtain ⟨e, he, hde⟩ := bleR_get h (s.length - 1 - k) d (by
    rw [List.getElem?_reverse (by omega), ← hd]; congr 1; omega)
  have he' : t[t.length - s.length + k]? = some e := by
    rw [List.getElem?_reverse (by omega)] at he
    rw [← he]; congr 1; omega
  have hx' : i[i.length - t.length + (t.length - s.length + k)]? = some x := by rw [← hx]; congr 1; omega
  have h2 := ht.2.2 _ e x he' hx'
  have h3 := h1.2.2 k d (if e = 1 then 0 else x) hd (by rw [ht.1]; exact h2)
  rw [h3]
  congr 1
  rcases hde with rfl | rfl
  · split <;> rfl
  · simp

/-- The index read is an index of the array. -/
theorem inB_bidx {s t i : List Nat} (h : BLe s t) (hi : InB t i) : InB s (bidx s i) := by
  have hl := ble_length h
  have hr : Reads s i (bidx s i) := bidx_spec (by rw [hi.1]; exact hl)
  refine ⟨hr.1, fun k d j hd hj => ?_⟩
  have hk : k < s.length := (List.getElem?_eq_some_iff.1 hd).1
  have hi1 := hi.1
  obtain ⟨e, he, hde⟩ := bleR_get h (s.length - 1 - k) d (by
    rw [List.getElem?_reverse (by omega), ← hd]; congr 1; omega)
  have hkt : t.length - s.length + k < t.length := by omega
  have he' : t[t.length - s.length + k]? = some e := by
    rw [List.getElem?_reverse (by omega)] at he
    rw [← he]; congr 1; omega
  have hx : ∃ x, i[i.length - s.length + k]? = some x := ⟨_, List.getElem?_eq_getElem (by omega)⟩
  obtain ⟨x, hx⟩ := hx
  have hj' := hr.2.2 k d x hd hx
  rw [hj] at hj'
  cases hj'
  by_cases h1 : d = 1
  · rw [if_pos h1]; omega
  · rw [if_neg h1]
    rw [hi.1] at hx
    have := hi.2 _ _ _ he' hx
    rcases hde with rfl | h'
    · exact this
    · exact absurd h' h1

end Verif.NArr
