import Verif.Lemmas.EinsumCall
import Verif.Spec.Matmul

/-! Contractions of chains of matrices. -/

namespace Verif.Einsum
open EinsumSpec MatmulSpec

variable {K : Type} [CommSemiring K]

/-- The product of the entries. -/
def prodAt (ops : List (Str × (List Nat → K))) (σ : Char → Nat) : K := (ops.map fun p => p.2 (p.1.map σ)).prod

theorem entry_sumOver {f : Char → Nat} {ops : List (Str × (List Nat → K))} {out : Str} {i : List Nat} (hi : i.length = out.length) :
    entry f ops out i = sumOver ((summed (ops.map Prod.fst) out).map fun c => (c, f c)) (prodAt ops) (assign out i) := by
  rw [sumOver_lists (nodup_summed _ _)]
  unfold entry
  refine congrArg List.sum (List.map_congr_left fun v _ => ?_)
  unfold prodAt
  refine congrArg List.prod (List.map_congr_left fun p _ => congrArg _ (List.map_congr_left fun c _ => ?_))
  unfold valueOf
  rw [List.zip_append hi.symm, lookup_append, assign_lookup]
  by_cases hco : c ∈ out
  · rw [lookup_zip_none (l := summed (ops.map Prod.fst) out) (fun h => (mem_summed.1 h).2 hco)]
    simp
  · rw [lookup_zip_none hco]
    cases ((summed (ops.map Prod.fst) out).zip v).lookup c <;> simp

theorem prodAt_perm {ops ops' : List (Str × (List Nat → K))} (h : ops.Perm ops') : prodAt ops = prodAt ops' := by
  funext σ
  exact (h.map _).prod_eq

theorem entry_perm {f : Char → Nat} {ops ops' : List (Str × (List Nat → K))} (h : ops.Perm ops') {out : Str} {i : List Nat} (hi : i.length = out.length) :
    entry f ops out i = entry f ops' out i := by
  rw [entry_sumOver hi, entry_sumOver hi, prodAt_perm h]
  have hp : (summed (ops.map Prod.fst) out).Perm (summed (ops'.map Prod.fst) out) := by
    refine (List.perm_ext_iff_of_nodup (nodup_summed _ _) (nodup_summed _ _)).2 fun c => ?_
    rw [mem_summed, mem_summed, ((h.map Prod.fst).flatten).mem_iff]
  refine sumOver_perm (hp.map _) ?_ _
  rw [List.map_map]
  show (List.map id _).Nodup
  rw [List.map_id]
  exact nodup_summed _ _

theorem sumOver_mul_left {h F : (Char → Nat) → K} : ∀ {l : List (Char × Nat)} {σ : Char → Nat}, (∀ p ∈ l, ∀ τ k, h (Function.update τ p.1 k) = h τ) →
    sumOver l (fun τ => h τ * F τ) σ = h σ * sumOver l F σ
  | [], _, _ => rfl
  | (c, d) :: l, σ, hl => by
    unfold sumOver
    rw [Finset.mul_sum]
    refine Finset.sum_congr rfl fun k _ => ?_
    rw [sumOver_mul_left fun p hp => hl p (by simp [hp]), hl (c, d) (by simp)]

/-- Subscripts of a chain: `ab,bc,cd`, the last one followed by `e`. -/
def chainSubs (e : Str) : List Char → List Str
  | [] => []
  | [c] => [c :: e]
  | c :: c' :: cs => [c, c'] :: chainSubs e (c' :: cs)

theorem chainSubs_length (e : Str) : ∀ cs, (chainSubs e cs).length = cs.length
  | [] => rfl
  | [_] => rfl
  | c :: c' :: cs => by rw [chainSubs, List.length_cons, chainSubs_length e (c' :: cs)]; rfl

theorem chain_sum {e : Str} {f : Char → Nat} : ∀ {cs : List Char} {c : Char} {xs : List (NArr K)}, (c :: cs).Nodup → (∀ x ∈ e, x ∉ c :: cs) →
    xs.map NArr.shape = (chainSubs e (c :: cs)).map (fun s => s.map f) → ∀ σ,
    sumOver (cs.map fun c => (c, f c)) (prodAt ((chainSubs e (c :: cs)).zip (xs.map NArr.val))) σ = prodEntry xs (σ c :: e.map σ)
  | [], c, xs, _, _, hx, σ => by
    obtain ⟨x, rfl⟩ : ∃ x, xs = [x] := List.length_eq_one_iff.1 (by simpa [chainSubs] using congrArg List.length hx)
    simp [sumOver, chainSubs, prodAt, prodEntry]
  | c' :: cs, c, xs, hn, he, hx, σ => by
    obtain ⟨x, y, ys, rfl⟩ : ∃ x y ys, xs = x :: y :: ys := by
      have := congrArg List.length hx
      rw [List.length_map, List.length_map, chainSubs_length] at this
      match xs, this with
      | x :: y :: ys, _ => exact ⟨x, y, ys, rfl⟩
    obtain ⟨hc, hn'⟩ := List.nodup_cons.1 hn
    obtain ⟨hc', hn''⟩ := List.nodup_cons.1 hn'
    have hx := List.cons.inj (show x.shape :: (y :: ys).map NArr.shape = [f c, f c'] :: (chainSubs e (c' :: cs)).map (fun s => s.map f) from hx)
    have hx1 : x.shape = [f c, f c'] := hx.1
    simp only [List.map_cons, sumOver, prodEntry, hx1, List.getD_cons_succ, List.getD_cons_zero]
    refine Finset.sum_congr rfl fun k _ => ?_
    have hF : prodAt ((chainSubs e (c :: c' :: cs)).zip (x.val :: y.val :: ys.map NArr.val)) =
        fun τ => x.val [τ c, τ c'] * prodAt ((chainSubs e (c' :: cs)).zip ((y :: ys).map NArr.val)) τ := by
      funext τ
      simp [prodAt, chainSubs]
    rw [hF, sumOver_mul_left (h := fun τ => x.val [τ c, τ c']), chain_sum hn' (fun x hx => fun h => he x hx (List.mem_cons_of_mem _ h)) hx.2]
    · have hcc : c ≠ c' := fun h => hc (by simp [h])
      rw [Function.update_self, Function.update_of_ne hcc]
      refine congrArg (x.val [σ c, k] * ·) (congrArg (prodEntry _) (congrArg _ (List.map_congr_left fun z hz => ?_)))
      exact Function.update_of_ne (by rintro rfl; exact he _ hz (by simp)) _ _
    · intro p hp τ k
      obtain ⟨z, hz, rfl⟩ := List.mem_map.1 hp
      simp only
      rw [Function.update_of_ne (by rintro rfl; exact hc (by simp [hz])), Function.update_of_ne (by rintro rfl; exact hc' hz)]

theorem chain_count {e : Str} (hen : e.Nodup) (x : Char) : ∀ {cs : List Char} {c : Char}, (c :: cs).Nodup → (∀ x ∈ e, x ∉ c :: cs) →
    (chainSubs e (c :: cs)).flatten.count x = if x = c then 1 else if x ∈ cs then 2 else if x ∈ e then 1 else 0
  | [], c, _, he => by
    have hce : c ∉ e := fun h => he c h (by simp)
    simp only [chainSubs, List.flatten_cons, List.flatten_nil, List.append_nil, List.not_mem_nil, if_false]
    by_cases h : x = c
    · subst h
      rw [if_pos rfl, List.count_cons_self, List.count_eq_zero_of_not_mem hce]
    · rw [if_neg h, List.count_cons_of_ne (fun e => h e.symm)]
      by_cases hx : x ∈ e
      · rw [if_pos hx, List.count_eq_one_of_mem hen hx]
      · rw [if_neg hx, List.count_eq_zero_of_not_mem hx]
  | c' :: cs, c, hn, he => by
    obtain ⟨hc, hn'⟩ := List.nodup_cons.1 hn
    obtain ⟨hc', hn''⟩ := List.nodup_cons.1 hn'
    have hcc : c ≠ c' := fun h => hc (by simp [h])
    rw [chainSubs, List.flatten_cons, List.count_append, chain_count hen x hn' (fun x hx h => he x hx (List.mem_cons_of_mem _ h))]
    by_cases h : x = c
    · subst h
      have h1 : x ∉ cs := fun h => hc (by simp [h])
      have h2 : x ∉ e := fun h => he x h (by simp)
      rw [if_pos rfl, if_neg hcc, if_neg h1, if_neg h2, List.count_cons_self, List.count_cons_of_ne (fun e => hcc e.symm)]
      rfl
    · rw [if_neg h, List.count_cons_of_ne (fun e => h e.symm)]
      by_cases h' : x = c'
      · subst h'
        rw [if_pos rfl, if_pos (by simp), List.count_cons_self]
        rfl
      · rw [if_neg h', List.count_cons_of_ne (fun e => h' e.symm)]
        by_cases h'' : x ∈ cs
        · simp [h'']
        · simp [h'', h']

/-- The contraction of a chain is the product of the matrices. -/
theorem chain_entry {e : Str} (hen : e.Nodup) {f : Char → Nat} {cs : List Char} {c : Char} {xs : List (NArr K)} (hn : (c :: cs).Nodup) (he : ∀ x ∈ e, x ∉ c :: cs)
    (hx : xs.map NArr.shape = (chainSubs e (c :: cs)).map (fun s => s.map f)) {out : Str} (hout : out.Perm (c :: e)) {i : List Nat} (hi : i.length = out.length) :
    entry f ((chainSubs e (c :: cs)).zip (xs.map NArr.val)) out i = prodEntry xs (assign out i c :: e.map (assign out i)) := by
  have hlen : (chainSubs e (c :: cs)).length ≤ (xs.map NArr.val).length := by
    have := congrArg List.length hx
    simp only [List.length_map] at this
    rw [List.length_map, this]
  rw [entry_sumOver hi, List.map_fst_zip hlen, ← chain_sum hn he hx]
  have hp : (summed (chainSubs e (c :: cs)) out).Perm cs := by
    refine (List.perm_ext_iff_of_nodup (nodup_summed _ _) (List.nodup_cons.1 hn).2).2 fun x => ?_
    rw [mem_summed, hout.mem_iff, ← List.count_pos_iff, chain_count hen x hn he]
    have hc := (List.nodup_cons.1 hn).1
    by_cases h1 : x = c
    · subst h1; simp [hc]
    · by_cases h2 : x ∈ cs
      · have : x ∉ e := fun h => he x h (by simp [h2])
        simp [h1, h2, this]
      · by_cases h3 : x ∈ e <;> simp [h1, h2, h3]
  refine sumOver_perm (hp.map _) ?_ _
  rw [List.map_map]
  show (List.map id _).Nodup
  rw [List.map_id]
  exact nodup_summed _ _

end Verif.Einsum
