import Verif.Lemmas.Matmul
import Verif.Lemmas.Chain
import Verif.Lemmas.EinsumParse
import Mathlib.Tactic.IntervalCases

/-! The subscripts of a matrix product. -/

namespace Verif.Matmul
open Tree Einsum MatmulSpec

/-- The last index, if the last factor is a matrix. -/
def lastIndex (i : Nat) (full : List (List Nat)) : Str := if (full.getLastD []).length = 2 then [letters.getD (i + full.length) 'a'] else []

theorem terms_length : ∀ {i : Nat} {full : List (List Nat)} {ts : List Str}, terms i full = .ok ts → ts.length = full.length
  | _, [], _, h => by cases h; rfl
  | i, sh :: l, ts, h => by
    unfold terms at h
    split at h
    · cases h
    · split at h
      · cases h
      · next hts => cases h; rw [List.length_cons, List.length_cons, terms_length hts]

theorem term_ok {i : Nat} {sh : List Nat} {t : Str} (h : term i sh = .ok t) :
    (sh.length = 2 ∧ i + 1 < letters.length ∧ t = [letters.getD i 'a', letters.getD (i + 1) 'a']) ∨ (sh.length ≠ 2 ∧ i < letters.length ∧ t = [letters.getD i 'a']) := by
  unfold term at h
  split at h
  · next h2 =>
    split at h
    · next a b ha hb =>
      cases h
      exact .inl ⟨h2, (List.getElem?_eq_some_iff.1 hb).1, by rw [List.getD_eq_getElem?_getD, List.getD_eq_getElem?_getD, ha, hb]; rfl⟩
    · cases h
  · next h2 =>
    split at h
    · next a ha =>
      cases h
      exact .inr ⟨h2, (List.getElem?_eq_some_iff.1 ha).1, by rw [List.getD_eq_getElem?_getD, ha]; rfl⟩
    · cases h

theorem terms_get : ∀ {i : Nat} {full : List (List Nat)} {ts : List Str}, terms i full = .ok ts → ∀ {j : Nat} {sh : List Nat}, full[j]? = some sh →
    ∃ t, ts[j]? = some t ∧ term (i + j) sh = .ok t
  | _, [], _, h, j, sh, hj => by cases hj
  | i, s :: l, ts, h, j, sh, hj => by
    unfold terms at h
    split at h
    · cases h
    · next t ht =>
      split at h
      · cases h
      · next ts' hts =>
        cases h
        cases j with
        | zero => cases hj; exact ⟨t, rfl, ht⟩
        | succ j =>
          obtain ⟨t', h1, h2⟩ := terms_get hts (j := j) hj
          exact ⟨t', h1, by rw [show i + (j + 1) = i + 1 + j by omega]; exact h2⟩

/-- The subscripts of matrices, the last of them perhaps a vector. -/
theorem terms_chain : ∀ {full : List (List Nat)} {i : Nat} {ts : List Str}, full ≠ [] → terms i full = .ok ts → (∀ sh ∈ full.dropLast, sh.length = 2) →
    ts = chainSubs (lastIndex i full) ((letters.drop i).take full.length)
  | [], _, _, h, _, _ => absurd rfl h
  | [sh], i, ts, _, h, _ => by
    unfold terms at h
    split at h
    · cases h
    · next t ht =>
      cases h
      rcases term_ok ht with ⟨h1, h2, rfl⟩ | ⟨h1, h2, rfl⟩
      · rw [List.drop_eq_getElem_cons (by omega)]
        have e1 : letters.getD i 'a' = letters[i]'(by omega) := by rw [List.getD_eq_getElem?_getD, List.getElem?_eq_getElem (by omega)]; rfl
        rw [e1]
        simp only [List.length_singleton, List.take_succ_cons, List.take_zero, chainSubs, lastIndex, List.getLastD_cons, List.getLastD_nil, h1, if_true]
      · rw [List.drop_eq_getElem_cons h2]
        have e1 : letters.getD i 'a' = letters[i] := by rw [List.getD_eq_getElem?_getD, List.getElem?_eq_getElem h2]; rfl
        rw [e1]
        simp only [List.length_singleton, List.take_succ_cons, List.take_zero, chainSubs, lastIndex, List.getLastD_cons, List.getLastD_nil, h1, if_false]
  | sh :: sh' :: l, i, ts, _, h, hd => by
    unfold terms at h
    split at h
    · cases h
    · next t ht =>
      split at h
      · cases h
      · next ts' hts =>
        cases h
        have hsh : sh.length = 2 := hd sh (by simp [List.dropLast])
        have ih := terms_chain (by simp) hts fun s hs => hd s (by
          rw [List.dropLast_cons_of_ne_nil (by simp)]
          exact List.mem_cons_of_mem _ hs)
        have hl : lastIndex (i + 1) (sh' :: l) = lastIndex i (sh :: sh' :: l) := by
          have : i + 1 + (sh' :: l).length = i + (sh :: sh' :: l).length := by simp only [List.length_cons]; omega
          unfold lastIndex
          rw [this]
          rfl
        rcases term_ok ht with ⟨h1, h2, rfl⟩ | ⟨h1, h2, rfl⟩
        · have e1 : letters.getD i 'a' = letters[i]'(by omega) := by rw [List.getD_eq_getElem?_getD, List.getElem?_eq_getElem (by omega)]; rfl
          have e2 : letters.getD (i + 1) 'a' = letters[i + 1] := by rw [List.getD_eq_getElem?_getD, List.getElem?_eq_getElem h2]; rfl
          rw [ih, hl, e1, e2, List.drop_eq_getElem_cons (i := i) (by omega), List.drop_eq_getElem_cons h2]
          simp only [List.length_cons, List.take_succ_cons, chainSubs]
        · exact absurd hsh h1

theorem terms_mem {i : Nat} {full : List (List Nat)} {ts : List Str} (h : terms i full = .ok ts) : ∀ c ∈ ts.flatten, c ∈ letters.take (i + full.length + 1) := by
  intro c hc
  obtain ⟨t, ht, hct⟩ := List.mem_flatten.1 hc
  obtain ⟨j, hj⟩ := List.mem_iff_getElem?.1 ht
  have hjl : j < full.length := by rw [← terms_length h]; exact (List.getElem?_eq_some_iff.1 hj).1
  obtain ⟨t', h1, h2⟩ := terms_get h (List.getElem?_eq_getElem hjl)
  rw [hj] at h1
  cases h1
  have key : ∀ m, m < letters.length → m < i + full.length + 1 → letters.getD m 'a' ∈ letters.take (i + full.length + 1) := by
    intro m hm hm'
    rw [List.getD_eq_getElem?_getD, List.getElem?_eq_getElem hm]
    exact List.mem_take_iff_getElem.2 ⟨m, by omega, rfl⟩
  rcases term_ok h2 with ⟨_, h3, rfl⟩ | ⟨_, h3, rfl⟩
  · simp only [List.mem_cons, List.not_mem_nil, or_false] at hct
    rcases hct with rfl | rfl
    · exact key _ (by omega) (by omega)
    · exact key _ (by omega) (by omega)
  · simp only [List.mem_cons, List.not_mem_nil, or_false] at hct
    subst hct
    exact key _ (by omega) (by omega)

theorem chain_shapes {e : Str} (he : e.length ≤ 1) {f : Char → Nat} : ∀ {cs : List Char} {c : Char}, Chain ((chainSubs e (c :: cs)).map fun s => s.map f)
  | [], c => by
    simp only [chainSubs, List.map_cons, List.map_nil, Chain, List.length_cons, List.length_map]
    omega
  | c' :: cs, c => by
    have ih := chain_shapes he (f := f) (cs := cs) (c := c')
    cases cs with
    | nil => exact ⟨rfl, rfl, ih⟩
    | cons c'' cs => exact ⟨rfl, rfl, ih⟩

theorem chain_prodShape {e : Str} {f : Char → Nat} : ∀ {cs : List Char} {c : Char}, prodShape ((chainSubs e (c :: cs)).map fun s => s.map f) = f c :: e.map f
  | [], c => by simp [chainSubs, prodShape]
  | c' :: cs, c => by
    have ih := chain_prodShape (e := e) (f := f) (cs := cs) (c := c')
    unfold prodShape at ih ⊢
    have h1 : ((chainSubs e (c :: c' :: cs)).map fun s => s.map f).headD [] = [f c, f c'] := rfl
    have h2 : ((chainSubs e (c :: c' :: cs)).map fun s => s.map f).getLastD [] = ((chainSubs e (c' :: cs)).map fun s => s.map f).getLastD [] := by
      cases cs <;> rfl
    have h3 : (((chainSubs e (c' :: cs)).map fun s => s.map f).headD []).take 1 = [f c'] := by
      cases cs <;> rfl
    rw [h3] at ih
    rw [h1, h2]
    simp only [List.cons_append, List.nil_append, List.cons.injEq, true_and] at ih
    simp only [List.take_succ_cons, List.take_zero, List.cons_append, List.nil_append]
    rw [ih]

theorem letters_nodup : letters.Nodup := by decide +kernel

theorem sizes_lookup {k : Nat} {sh : List Nat} {t : Str} (h : term k sh = .ok t) (hl : sh.length = 1 ∨ sh.length = 2) {f : Char → Nat}
    (hf : ∀ c d, (sizes (some (k, sh))).lookup c = some d → d = f c) : sh = t.map f := by
  rcases term_ok h with ⟨h1, h2, rfl⟩ | ⟨h1, h2, rfl⟩
  · obtain ⟨a, b, rfl⟩ := List.length_eq_two.1 h1
    have hne : letters.getD (k + 1) 'a' ≠ letters.getD k 'a' := by
      rw [List.getD_eq_getElem?_getD, List.getD_eq_getElem?_getD, List.getElem?_eq_getElem h2, List.getElem?_eq_getElem (by omega)]
      intro e
      have := (List.Nodup.getElem_inj_iff letters_nodup).1 (show letters[k + 1] = letters[k]'(by omega) from e)
      omega
    have e1 := hf (letters.getD k 'a') a (by simp [sizes, List.lookup_cons])
    have e2 := hf (letters.getD (k + 1) 'a') b (by
      have : (letters.getD (k + 1) 'a' == letters.getD k 'a') = false := by simpa using hne
      simp only [sizes, List.lookup_cons, this]
      simp)
    simp only [List.map_cons, List.map_nil]
    rw [← e1, ← e2]
  · obtain ⟨a, rfl⟩ := List.length_eq_one_iff.1 (hl.resolve_right h1)
    have e1 := hf (letters.getD k 'a') a (by simp [sizes, List.lookup_cons])
    simp only [List.map_cons, List.map_nil]
    rw [← e1]

theorem paramShape_length {out : OutShape} {sl : List (Option (List Nat))} {k : Nat} {sh : List Nat} (h : paramShape out sl k = .ok sh) : sh.length = 1 ∨ sh.length = 2 := by
  have key : ∀ {x : Except PyErr Nat} {g : Nat → List Nat}, (∀ d, (g d).length = 1 ∨ (g d).length = 2) → x.map g = .ok sh → sh.length = 1 ∨ sh.length = 2 := by
    intro x g hg h
    cases x with
    | error e => cases h
    | ok d => cases h; exact hg d
  unfold paramShape at h
  split at h
  · split at h
    · cases h
    · exact key (fun _ => .inr rfl) h
    · cases h
    · cases h
    · exact key (fun _ => .inr rfl) h
  · split at h
    · split at h
      · exact key (fun _ => .inl rfl) h
      · split at h
        · cases h
        · split at h
          · cases h
          · exact key (fun _ => .inl rfl) h
      · cases h
      · split at h
        · cases h
        · split at h
          · cases h
          · split at h
            · cases h
            · cases h
            · cases h
            · cases h; exact .inr rfl
    · split at h
      · cases h; exact .inr rfl
      · cases h
      · cases h

end Verif.Matmul
