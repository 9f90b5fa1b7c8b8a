import Verif.Model.OneHot
import Verif.Spec.OneHot
import Verif.Lemmas.NdArr
import Verif.Lemmas.TreeBack
import Mathlib.Algebra.BigOperators.Group.List.Basic

namespace Verif.OneHot
open Verif.NdSpec Verif.OneHotSpec Verif.NArr

variable {K : Type} [LinearOrder K] [Semiring K]

/-! ## Rows -/

omit [Semiring K] in
theorem lexLe_total : ∀ a b : List K, lexLe a b = true ∨ lexLe b a = true
  | [], _ => .inl rfl
  | _ :: _, [] => .inr rfl
  | a :: l, b :: m => by
    unfold lexLe
    rcases lt_trichotomy a b with h | h | h
    · exact .inl (by rw [if_pos h])
    · subst h; simpa using lexLe_total l m
    · exact .inr (by rw [if_pos h])

omit [Semiring K] in
theorem lexLe_trans : ∀ a b c : List K, lexLe a b = true → lexLe b c = true → lexLe a c = true
  | [], _, _, _, _ => rfl
  | _ :: _, [], _, h, _ => by simp [lexLe] at h
  | _ :: _, _ :: _, [], _, h => by simp [lexLe] at h
  | a :: l, b :: m, c :: q, h1, h2 => by
    unfold lexLe at h1 h2 ⊢
    rcases lt_trichotomy a b with hab | hab | hab
    · rcases lt_trichotomy b c with hbc | hbc | hbc
      · rw [if_pos (hab.trans hbc)]
      · subst hbc; rw [if_pos hab]
      · rw [if_neg hbc.not_gt, if_pos hbc] at h2; cases h2
    · subst hab
      rcases lt_trichotomy a c with hbc | hbc | hbc
      · rw [if_pos hbc]
      · subst hbc
        simp only [lt_irrefl, if_false] at h1 h2 ⊢
        exact lexLe_trans l m q h1 h2
      · rw [if_neg hbc.not_gt, if_pos hbc] at h2; cases h2
    · rw [if_neg hab.not_gt, if_pos hab] at h1; cases h1

omit [Semiring K] in
theorem lexLe_antisymm : ∀ a b : List K, lexLe a b = true → lexLe b a = true → a = b
  | [], [], _, _ => rfl
  | [], _ :: _, _, h => by simp [lexLe] at h
  | _ :: _, [], h, _ => by simp [lexLe] at h
  | a :: l, b :: m, h1, h2 => by
    unfold lexLe at h1 h2
    rcases lt_trichotomy a b with hab | hab | hab
    · rw [if_neg hab.not_gt, if_pos hab] at h2; cases h2
    · subst hab
      simp only [lt_irrefl, if_false] at h1 h2
      rw [lexLe_antisymm l m h1 h2]
    · rw [if_neg hab.not_gt, if_pos hab] at h1; cases h1

/-- Componentwise order of rows. -/
def Below (w : Nat) (a b : List K) : Prop := ∀ c < w, a.getD c 0 ≤ b.getD c 0

theorem lexLe_of_below : ∀ (w : Nat) (a b : List K), a.length = w → b.length = w → Below w a b → lexLe a b = true
  | 0, a, b, ha, hb, _ => by
    rw [List.length_eq_zero_iff] at ha
    subst ha; rfl
  | w + 1, a, b, ha, hb, h => by
    match a, b, ha, hb with
    | x :: a, y :: b, ha, hb =>
      unfold lexLe
      have h0 := h 0 (by omega)
      simp only [List.getD_cons_zero] at h0
      rcases lt_or_eq_of_le h0 with h1 | h1
      · rw [if_pos h1]
      · subst h1
        simp only [lt_irrefl, if_false]
        refine lexLe_of_below w a b (by simpa using ha) (by simpa using hb) fun c hc => ?_
        simpa using h (c + 1) (by omega)

theorem mem_uniq {R : List (List K)} {a : List K} : a ∈ uniq R ↔ a ∈ R := by
  unfold uniq
  rw [List.mem_insertionSort, List.mem_dedup]

theorem nodup_uniq (R : List (List K)) : (uniq R).Nodup :=
  (List.perm_insertionSort _ _).nodup_iff.2 (List.nodup_dedup R)

theorem uniq_sorted (R : List (List K)) : (uniq R).Pairwise fun a b => lexLe a b = true := by
  unfold uniq
  haveI : Std.Total fun a b : List K => lexLe a b = true := ⟨lexLe_total⟩
  haveI : IsTrans (List K) fun a b : List K => lexLe a b = true := ⟨lexLe_trans⟩
  exact List.pairwise_insertionSort _ _

theorem length_colSort (w : Nat) (R : List (List K)) : (colSort w R).length = R.length := by simp [colSort]

/-- Rows that are pairwise comparable survive the sorting of the columns. -/
theorem colSort_chain {w : Nat} {R : List (List K)} (hw : ∀ a ∈ R, a.length = w) (hs : R.Pairwise fun a b => lexLe a b = true)
    (hc : ∀ a ∈ R, ∀ b ∈ R, Below w a b ∨ Below w b a) : colSort w R = R := by
  have hp : R.Pairwise (Below w) := by
    refine (List.Pairwise.and_mem.1 hs).imp fun {a b} h => ?_
    obtain ⟨ha, hb, h⟩ := h
    rcases hc a ha b hb with h' | h'
    · exact h'
    · have := lexLe_antisymm a b h (lexLe_of_below w b a (hw b hb) (hw a ha) h')
      subst this
      exact h'
  have hcol : ∀ c < w, (R.map fun r => r.getD c 0).insertionSort (· ≤ ·) = R.map fun r => r.getD c 0 := by
    intro c hc'
    apply List.Pairwise.insertionSort_eq
    rw [List.pairwise_map]
    exact hp.imp fun h => h c hc'
  unfold colSort
  apply List.ext_getElem
  · simp
  · intro i h1 h2
    simp only [List.getElem_map, List.getElem_range]
    have hl := hw _ (List.getElem_mem h2)
    apply List.ext_getElem
    · simp [hl]
    · intro c h3 h4
      simp only [List.length_map, List.length_range] at h3
      simp only [List.getElem_map, List.getElem_range, hcol c h3]
      rw [List.getD_eq_getElem?_getD, List.getElem?_map, List.getElem?_eq_getElem h2, Option.map_some, Option.getD_some,
        List.getD_eq_getElem?_getD, List.getElem?_eq_getElem h4, Option.getD_some]

/-- The rows after sorting the columns are always pairwise comparable. -/
theorem colSort_below {w : Nat} {R : List (List K)} {a b : List K} (ha : a ∈ colSort w R) (hb : b ∈ colSort w R) :
    Below w a b ∨ Below w b a := by
  unfold colSort at ha hb
  obtain ⟨i, hi, rfl⟩ := List.mem_map.1 ha
  obtain ⟨i', hi', rfl⟩ := List.mem_map.1 hb
  rw [List.mem_range] at hi hi'
  have key : ∀ i i', i ≤ i' → i < R.length → i' < R.length → Below w
      ((List.range w).map fun c => ((R.map fun r => r.getD c 0).insertionSort (· ≤ ·)).getD i 0)
      ((List.range w).map fun c => ((R.map fun r => r.getD c 0).insertionSort (· ≤ ·)).getD i' 0) := by
    intro i i' hle hi hi' c hc
    have hg : ∀ f : Nat → K, ((List.range w).map f).getD c 0 = f c := by
      intro f
      rw [List.getD_eq_getElem?_getD, List.getElem?_map, List.getElem?_range hc]; rfl
    rw [hg, hg]
    have hsrt : ((R.map fun r => r.getD c 0).insertionSort (· ≤ ·)).Pairwise (· ≤ ·) := List.pairwise_insertionSort _ _
    have hlen : ((R.map fun r => r.getD c 0).insertionSort (· ≤ ·)).length = R.length := by simp
    rw [List.getD_eq_getElem?_getD, List.getD_eq_getElem?_getD, List.getElem?_eq_getElem (by omega), List.getElem?_eq_getElem (by omega),
      Option.getD_some, Option.getD_some]
    rcases Nat.lt_or_eq_of_le hle with h | h
    · exact List.pairwise_iff_getElem.1 hsrt i i' _ _ h
    · subst h; exact le_refl _
  rcases Nat.le_total i i' with h | h
  · exact .inl (key i i' h hi hi')
  · exact .inr (key i' i h hi' hi)

/-! ## Rows of arrays -/

omit [LinearOrder K] [Semiring K] in
theorem row_length (x : NArr K) (r : Nat) : (row x r).length = width x := by simp [row, width]

omit [LinearOrder K] in
theorem row_getD {x : NArr K} {r : Nat} {j : List Nat} (hj : InB x.shape.tail j) :
    (row x r).getD ((indices x.shape.tail).idxOf j) 0 = x.val (r :: j) := by
  unfold row
  rw [List.getD_eq_getElem?_getD, List.getElem?_map, List.getElem?_idxOf (mem_indices.2 hj)]
  rfl

omit [LinearOrder K] [Semiring K] in
theorem row_eq {x y : NArr K} {r q : Nat} (h : x.shape.tail = y.shape.tail) : row x r = row y q ↔ SameRow x r y q := by
  unfold row SameRow
  rw [← h]
  constructor
  · intro e j hj
    have := List.map_inj_left.1 e j (mem_indices.2 hj)
    exact this
  · intro e
    exact List.map_inj_left.2 fun j hj => e j (mem_indices.1 hj)

omit [LinearOrder K] [Semiring K] in
theorem mem_rows {x : NArr K} {a : List K} : a ∈ rows x ↔ ∃ r < x.shape.headD 0, row x r = a := by
  unfold rows
  simp

theorem below_row {x : NArr K} {r q : Nat} :
    Below (width x) (row x r) (row x q) ↔ ∀ j, InB x.shape.tail j → x.val (r :: j) ≤ x.val (q :: j) := by
  constructor
  · intro h j hj
    have hlt : (indices x.shape.tail).idxOf j < width x := List.idxOf_lt_length_iff.2 (mem_indices.2 hj)
    have := h _ hlt
    rwa [row_getD hj, row_getD hj] at this
  · intro h c hc
    unfold width at hc
    unfold row
    rw [List.getD_eq_getElem?_getD, List.getD_eq_getElem?_getD, List.getElem?_map, List.getElem?_map, List.getElem?_eq_getElem hc,
      Option.map_some, Option.map_some, Option.getD_some, Option.getD_some]
    exact h _ (mem_indices.1 (List.getElem_mem hc))

/-- The table of a fitted array whose rows form a chain is the list of its distinct rows. -/
theorem table_chain {x : NArr K} (h : Chain x (x.shape.headD 0)) : (fitLeaf x).table = uniq (rows x) := by
  refine colSort_chain (fun a ha => ?_) (uniq_sorted _) fun a ha b hb => ?_
  · obtain ⟨r, -, rfl⟩ := mem_rows.1 (mem_uniq.1 ha)
    exact row_length x r
  · obtain ⟨r, hr, rfl⟩ := mem_rows.1 (mem_uniq.1 ha)
    obtain ⟨q, hq, rfl⟩ := mem_rows.1 (mem_uniq.1 hb)
    exact (h r hr q hq).imp below_row.2 below_row.2

theorem eqRow_same {a b : List K} (h : a.length = b.length) : eqRow a b = true ↔ a = b := by
  unfold eqRow
  rw [if_pos h, decide_eq_true_eq]

open Classical in
/-- The number of columns of the encoding is the number of different samples. -/
theorem table_length (x : NArr K) : (fitLeaf x).table.length = (Samples x (x.shape.headD 0)).ncard := by
  let g : List K → List Nat → Option K := fun l j => if InB x.shape.tail j then l[(indices x.shape.tail).idxOf j]? else none
  have hg : ∀ r j, g (row x r) j = if InB x.shape.tail j then some (x.val (r :: j)) else none := by
    intro r j
    simp only [g]
    split
    · rename_i hj
      unfold row
      rw [List.getElem?_map, List.getElem?_idxOf (mem_indices.2 hj)]
      rfl
    · rfl
  have hS : Samples x (x.shape.headD 0) = g '' ((uniq (rows x)).toFinset : Set (List K)) := by
    ext f
    simp only [Samples, Set.mem_setOf_eq, Set.mem_image, SetLike.mem_coe, List.mem_toFinset, mem_uniq, mem_rows]
    constructor
    · rintro ⟨r, hr, hf⟩
      exact ⟨row x r, ⟨r, hr, rfl⟩, funext fun j => by rw [hg, hf]⟩
    · rintro ⟨_, ⟨r, hr, rfl⟩, rfl⟩
      exact ⟨r, hr, fun j => hg r j⟩
  have hinj : Set.InjOn g ((uniq (rows x)).toFinset : Set (List K)) := by
    intro a ha b hb hab
    simp only [SetLike.mem_coe, List.mem_toFinset, mem_uniq, mem_rows] at ha hb
    obtain ⟨r, -, rfl⟩ := ha
    obtain ⟨q, -, rfl⟩ := hb
    rw [row_eq rfl]
    intro j hj
    have := congrFun hab j
    rw [hg, hg, if_pos hj, if_pos hj, Option.some.injEq] at this
    exact this
  rw [hS, Set.ncard_image_of_injOn hinj, Set.ncard_coe_finset, List.toFinset_card_of_nodup (nodup_uniq _)]
  exact length_colSort _ _

end Verif.OneHot
