import Verif.Lemmas.Batch

namespace Verif.Batch
open BatchSpec

variable {α : Type}

theorem filterMap_get {x : List α} {l : List Nat} (h : ∀ i ∈ l, i < x.length) :
    (l.filterMap fun i => x[i]?).length = l.length ∧
    ∀ j : Nat, (l.filterMap fun i => x[i]?)[j]? = (l[j]?).bind fun i => x[i]? := by
  induction l with
  | nil => simp
  | cons a l ih =>
    obtain ⟨h1, h2⟩ := ih (fun i hi => h i (List.mem_cons_of_mem _ hi))
    have hal := h a (by simp)
    have ha : x[a]? = some x[a] := List.getElem?_eq_getElem hal
    rw [List.filterMap_cons_some ha]
    refine ⟨by simp [h1], fun j => ?_⟩
    cases j with
    | zero => simp [ha]
    | succ j => simp [h2 j]

theorem permuteLeaf_get {K : Type} {perm : K → Nat → List Nat} (hperm : ∀ k n, (perm k n).Perm (List.range n)) (key : K)
    {n : Nat} {x : List α} (hx : x.length = n) :
    (permuteLeaf perm key x).length = n ∧
    ∀ j : Nat, (permuteLeaf perm key x)[j]? = ((perm key n)[j]?).bind fun i => x[i]? := by
  unfold permuteLeaf
  rw [hx]
  have := filterMap_get (x := x) (l := perm key n) (fun i hi => by
    have := (hperm key n).subset hi
    rw [hx]; exact List.mem_range.1 this)
  refine ⟨by rw [this.1, (hperm key n).length_eq, List.length_range], this.2⟩

theorem permute_sample {K : Type} {perm : K → Nat → List Nat} (hperm : ∀ k n, (perm k n).Perm (List.range n))
    (split : K → Nat → List K) (key : K) {n : Nat} {X : Leaves α} (hX : ∀ x ∈ X, x.length = n) (j i : Nat)
    (hj : (perm key n)[j]? = some i) : sampleAt (permuteLeaves perm split X key false) j = sampleAt X i := by
  unfold sampleAt permuteLeaves
  simp only [Bool.false_eq_true, if_false, List.map_map]
  refine List.map_congr_left fun x hx => ?_
  simp only [Function.comp]
  rw [(permuteLeaf_get hperm key (hX x hx)).2 j, hj]
  rfl

theorem permute_uniform {K : Type} {perm : K → Nat → List Nat} (hperm : ∀ k n, (perm k n).Perm (List.range n))
    (split : K → Nat → List K) (key : K) {n : Nat} {X : Leaves α} (hX : Uniform n X) :
    Uniform n (permuteLeaves perm split X key false) := by
  unfold permuteLeaves
  simp only [Bool.false_eq_true, if_false]
  exact uniform_map hX _ fun x hx => (permuteLeaf_get hperm key (hX.2 x hx)).1

theorem map_range_perm {B : Type} {n : Nat} {l : List Nat} (hl : l.Perm (List.range n)) {f g : Nat → B}
    (h : ∀ (j i : Nat), l[j]? = some i → f j = g i) : ((List.range n).map f).Perm ((List.range n).map g) := by
  have e : (List.range n).map f = l.map g := by
    have hlen : l.length = n := by rw [hl.length_eq, List.length_range]
    refine List.ext_getElem (by simp [hlen]) fun j h1 h2 => ?_
    simp only [List.getElem_map, List.getElem_range]
    have hj : j < l.length := by simpa using h2
    exact h j _ (List.getElem?_eq_getElem hj)
  rw [e]
  exact hl.map g

end Verif.Batch
