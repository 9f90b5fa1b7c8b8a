import Verif.Spec.Einsum
import Verif.Lemmas.SamplewiseArr

/-!
# Contractions, sample by sample
-/

namespace Verif
namespace Samplewise
open NdSpec EinsumSpec NArr

variable {K : Type}

theorem valueOf_lt {g : Char → Nat} : ∀ {cs : List Char} {w : List Nat}, InB (cs.map g) w → ∀ {c}, c ∈ cs → valueOf cs w c < g c
  | [], _, _, _, h => by cases h
  | a :: cs, [], h, _, _ => by have := h.1; simp at this
  | a :: cs, k :: w, h, c, hc => by
    rw [List.map_cons, inB_cons] at h
    unfold valueOf
    rw [List.zip_cons_cons, List.lookup_cons]
    by_cases e : c = a
    · subst e; simpa using h.1
    · have : (c == a) = false := by simpa using e
      rw [this]
      exact valueOf_lt h.2 ((List.mem_cons.1 hc).resolve_left e)

theorem inB_append {s t i j : List Nat} (h1 : InB s i) (h2 : InB t j) : InB (s ++ t) (i ++ j) := by
  refine ⟨by rw [List.length_append, List.length_append, h1.1, h2.1], fun q d e hd he => ?_⟩
  by_cases hq : q < s.length
  · rw [List.getElem?_append_left hq] at hd
    rw [List.getElem?_append_left (by rw [h1.1]; exact hq)] at he
    exact h1.2 q d e hd he
  · rw [List.getElem?_append_right (by omega)] at hd
    rw [List.getElem?_append_right (by rw [h1.1]; omega), h1.1] at he
    exact h2.2 _ d e hd he

/-- The entry of a contraction depends on the arrays within their bounds only. -/
theorem entry_congr [CommSemiring K] {g : Char → Nat} {ops ops' : List (List Char × (List Nat → K))}
    (h : List.Forall₂ (fun p p' => p.1 = p'.1 ∧ ∀ i, InB (p.1.map g) i → p.2 i = p'.2 i) ops ops') {out : List Char} {j : List Nat} (hj : InB (out.map g) j) :
    entry g ops out j = entry g ops' out j := by
  have hfst : ops.map Prod.fst = ops'.map Prod.fst := by
    clear hj
    induction h with
    | nil => rfl
    | cons h1 _ ih => rw [List.map_cons, List.map_cons, ih, h1.1]
  unfold entry
  rw [← hfst]
  simp only
  refine congrArg List.sum (List.map_congr_left fun v hv => congrArg List.prod ?_)
  have hw : InB ((out ++ summed (ops.map Prod.fst) out).map g) (j ++ v) := by
    rw [List.map_append]
    exact inB_append hj (NArr.mem_indices.1 hv)
  have hmem : ∀ p ∈ ops, ∀ c ∈ p.1, c ∈ out ++ summed (ops.map Prod.fst) out := by
    intro p hp c hc
    rw [List.mem_append]
    by_cases ho : c ∈ out
    · exact .inl ho
    · right
      unfold summed
      rw [List.mem_filter, List.mem_dedup, List.mem_flatten]
      exact ⟨⟨p.1, List.mem_map_of_mem hp, hc⟩, by simpa using ho⟩
  generalize out ++ summed (ops.map Prod.fst) out = cs at hw hmem
  clear hfst hv
  induction h with
  | nil => rfl
  | @cons p p' ps ps' h1 _ ih =>
    rw [List.map_cons, List.map_cons, ih fun q hq => hmem q (List.mem_cons_of_mem _ hq)]
    refine congrArg (· :: _) ?_
    rw [← h1.1]
    refine h1.2 _ ⟨by simp, fun q d e hd he => ?_⟩
    rw [List.getElem?_map, Option.map_eq_some_iff] at hd he
    obtain ⟨c, hc, rfl⟩ := hd
    obtain ⟨c', hc', rfl⟩ := he
    rw [hc] at hc'
    cases hc'
    exact valueOf_lt hw (hmem p (List.mem_cons_self ..) c (List.mem_of_getElem? hc))

end Samplewise
end Verif
