import Verif.Model.Eigen
import Verif.Props.Observables
import Verif.Props.OptState
import Verif.Lemmas.TreeBack
import Verif.Lemmas.TreeDec
import Mathlib.Data.List.Range
import Mathlib.Data.List.Nodup
import Mathlib.Tactic.ByContra

/-! # Properties of eigenpair selection (C58) -/

namespace Verif.Props
open Verif.Eigen Verif.Tree Verif.ForwardSpec

variable {α γ : Type} [AddCommGroup α] [LinearOrder α]

/-- Which indices a mode should select: `key` orders the `n` eigenvalues and `idx` are the `k` selected ones. -/
def Chosen (p : Part) (key : Nat → α) (n k : Nat) (idx : List Nat) : Prop := match p with
  | .smallest => ∀ i ∈ idx, ∀ j < n, j ∉ idx → key i ≤ key j
  | .largest => ∀ i ∈ idx, ∀ j < n, j ∉ idx → key j ≤ key i
  | .exterior => ∃ lo hi, idx = lo ++ hi ∧ lo.length = k / 2 ∧ hi.length = k - k / 2 ∧
      ∀ j < n, j ∉ idx → (∀ i ∈ lo, key i ≤ key j) ∧ ∀ i ∈ hi, key j ≤ key i
  | .interior => ∃ below above, (below ++ idx ++ above).Perm (List.range n) ∧ below.length = n / 2 - k / 2 ∧
      above.length = n - n / 2 - (k - k / 2) ∧ ∀ i ∈ idx, (∀ j ∈ below, key j ≤ key i) ∧ ∀ j ∈ above, key i ≤ key j

theorem pySlice_nat {β : Type} (l : List β) (a b : Nat) : pySlice l a b = (l.take b).drop a := by
  have h1 : ¬ ((a : Int) < 0) := by omega
  have h2 : ¬ ((b : Int) < 0) := by omega
  simp only [pySlice, h1, h2, if_false, Int.toNat_natCast]

theorem pySlice_zero {β : Type} (l : List β) (b : Nat) : pySlice l 0 b = l.take b := by
  simpa using pySlice_nat l 0 b

theorem pyFrom_neg {β : Type} (l : List β) (k : Nat) (hk : 0 < k) (h : k ≤ l.length) : pyFrom l (-(k : Int)) = l.drop (l.length - k) := by
  have h1 : (-(k : Int)) < 0 := by omega
  have h2 : (-(k : Int) + (l.length : Int)).toNat = l.length - k := by omega
  simp only [pyFrom, pySlice, h1, if_true, h2]
  have h3 : ¬ ((l.length : Int) < 0) := by omega
  simp only [h3, if_false, Int.toNat_natCast, List.take_length]

theorem argsort_perm (o : Order) (E : List α) : (argsort o E).Perm (List.range E.length) := List.perm_insertionSort _ _

theorem argsort_length (o : Order) (E : List α) : (argsort o E).length = E.length := by
  rw [(argsort_perm o E).length_eq, List.length_range]

theorem argsort_sorted (o : Order) (E : List α) :
    (argsort o E).Pairwise fun i j => key o (E.getD i 0) ≤ key o (E.getD j 0) := by
  have : IsTrans Nat fun i j => key o (E.getD i 0) ≤ key o (E.getD j 0) := ⟨fun _ _ _ h1 h2 => le_trans h1 h2⟩
  have : Std.Total fun i j : Nat => key o (E.getD i 0) ≤ key o (E.getD j 0) := ⟨fun _ _ => le_total _ _⟩
  exact List.pairwise_insertionSort _ _

theorem filterMap_get {β : Type} (l : List β) : ∀ idx : List Nat, (∀ i ∈ idx, i < l.length) →
    (idx.filterMap (l[·]?)).map some = idx.map (l[·]?)
  | [], _ => rfl
  | i :: idx, h => by
    have hi : l[i]? = some (l[i]'(h i (by simp))) := List.getElem?_eq_getElem _
    rw [List.filterMap_cons, hi]
    simp only [List.map_cons, hi]
    rw [filterMap_get l idx fun j hj => h j (by simp [hj])]

/-- The indices kept at the end: the selection cut to `k`. -/
theorem idxFn_spec (p : Part) (o : Order) (E : List α) (k : Nat) (hk : k ≤ E.length) :
    ∃ idx, idx = (idxFn p o E k).take k ∧ idx.Nodup ∧ idx.length = k ∧ (∀ i ∈ idx, i < E.length) ∧
      (idx.Pairwise fun i j => key o (E.getD i 0) ≤ key o (E.getD j 0)) ∧
      Chosen p (fun i => key o (E.getD i 0)) E.length k idx ∧ ∀ i ∈ idxFn p o E k, i < E.length := by
  unfold idxFn
  simp only
  have hs := argsort_sorted o E
  have hp := argsort_perm o E
  have hl := argsort_length o E
  have hnd : (argsort o E).Nodup := hp.nodup_iff.2 List.nodup_range
  have hmem : ∀ i, i ∈ argsort o E ↔ i < E.length := fun i => by rw [hp.mem_iff, List.mem_range]
  generalize argsort o E = s at hs hp hl hnd hmem ⊢
  have finish : ∀ idx : List Nat, idx.Sublist s → idx.length = k → Chosen p (fun i => key o (E.getD i 0)) E.length k idx →
      (∀ idx', idx' = idx → ∃ idx, idx = idx'.take k ∧ idx.Nodup ∧ idx.length = k ∧ (∀ i ∈ idx, i < E.length) ∧
      (idx.Pairwise fun i j => key o (E.getD i 0) ≤ key o (E.getD j 0)) ∧
      Chosen p (fun i => key o (E.getD i 0)) E.length k idx ∧ ∀ i ∈ idx', i < E.length) := by
    intro idx hsub hlen hch idx' e
    subst e
    refine ⟨idx', by rw [← hlen, List.take_length], hnd.sublist hsub, hlen, fun i hi => (hmem i).1 (hsub.subset hi),
      hs.sublist hsub, hch, fun i hi => (hmem i).1 (hsub.subset hi)⟩
  cases p with
  | smallest =>
    refine finish (s.take k) (List.take_sublist _ _) (by simp; omega) ?_ _ (pySlice_zero s k)
    intro i hi j hj hn
    rw [← List.take_append_drop k s] at hs
    refine (List.pairwise_append.1 hs).2.2 i hi j ?_
    have := (hmem j).2 hj
    rw [← List.take_append_drop k s, List.mem_append] at this
    exact this.resolve_left hn
  | largest =>
    rcases Nat.eq_zero_or_pos k with rfl | hpos
    · refine ⟨[], by simp, by simp, rfl, by simp, by simp, by simp [Chosen], fun i hi => (hmem i).1 ?_⟩
      have hz : ¬ ((s.length : Int) < 0) := by omega
      simpa [pyFrom, pySlice, hz] using hi
    · refine finish (s.drop (s.length - k)) (List.drop_sublist _ _) (by simp; omega) ?_ _ (pyFrom_neg s k hpos (by omega))
      intro i hi j hj hn
      rw [← List.take_append_drop (s.length - k) s] at hs
      refine (List.pairwise_append.1 hs).2.2 j ?_ i hi
      have := (hmem j).2 hj
      rw [← List.take_append_drop (s.length - k) s, List.mem_append] at this
      exact this.resolve_right hn
  | exterior =>
    rcases Nat.eq_zero_or_pos k with rfl | hpos
    · refine ⟨[], by simp, by simp, rfl, by simp, by simp, ⟨[], [], by simp⟩, fun i hi => (hmem i).1 ?_⟩
      have hz : ¬ ((s.length : Int) < 0) := by omega
      simpa [pyFrom, pySlice, hz] using hi
    · have e : s = s.take (k / 2) ++ (((s.drop (k / 2)).take (s.length - (k - k / 2) - k / 2)) ++ s.drop (s.length - (k - k / 2))) := by
        have e1 := List.take_append_drop (k / 2) s
        have e2 := List.take_append_drop (s.length - (k - k / 2) - k / 2) (s.drop (k / 2))
        rw [List.drop_drop, show k / 2 + (s.length - (k - k / 2) - k / 2) = s.length - (k - k / 2) by omega] at e2
        rw [e2, e1]
      have hlo : (s.take (k / 2)).length = k / 2 := by simp; omega
      have hhi : (s.drop (s.length - (k - k / 2))).length = k - k / 2 := by simp; omega
      generalize hA : s.take (k / 2) = A at e hlo
      generalize hM : (s.drop (k / 2)).take (s.length - (k - k / 2) - k / 2) = M at e
      generalize hC : s.drop (s.length - (k - k / 2)) = C at e hhi
      refine finish (A ++ C) ?_ (by simp; omega) ⟨A, C, rfl, hlo, hhi, fun j hj hn => ?_⟩ _ ?_
      · rw [e]
        exact List.Sublist.append_left (List.sublist_append_right _ _) _
      · have hjM : j ∈ M := by
          have := (hmem j).2 hj
          rw [e] at this
          simp only [List.mem_append, not_or] at this hn
          rcases this with h | h | h
          · exact absurd h hn.1
          · exact h
          · exact absurd h hn.2
        rw [e] at hs
        obtain ⟨-, h2, h3⟩ := List.pairwise_append.1 hs
        exact ⟨fun i hi => h3 i hi j (List.mem_append_left _ hjM), fun i hi => (List.pairwise_append.1 h2).2.2 j hjM i hi⟩
      · simp only
        rw [pySlice_zero, pyFrom_neg s _ (by omega) (by omega), hA, hC]
  | interior =>
    have e : s = s.take (E.length / 2 - k / 2) ++ ((s.drop (E.length / 2 - k / 2)).take k ++ s.drop (E.length / 2 - k / 2 + k)) := by
      rw [← List.drop_drop, List.take_append_drop, List.take_append_drop]
    have e1 : pySlice s ((E.length / 2 : Nat) - (k / 2 : Nat) : Int) (E.length / 2 : Nat) ++
        pySlice s (E.length / 2 : Nat) ((E.length / 2 : Nat) + (k - k / 2 : Nat) : Int) = (s.drop (E.length / 2 - k / 2)).take k := by
      rw [show ((E.length / 2 : Nat) - (k / 2 : Nat) : Int) = ((E.length / 2 - k / 2 : Nat) : Int) by omega,
        show ((E.length / 2 : Nat) + (k - k / 2 : Nat) : Int) = ((E.length / 2 + (k - k / 2) : Nat) : Int) by omega,
        pySlice_nat, pySlice_nat, List.drop_take, List.drop_take]
      have a1 : E.length / 2 - (E.length / 2 - k / 2) = k / 2 := by omega
      have a2 : E.length / 2 + (k - k / 2) - E.length / 2 = k - k / 2 := by omega
      rw [a1, a2]
      have a3 : ∀ l : List Nat, l.take k = l.take (k / 2) ++ (l.drop (k / 2)).take (k - k / 2) := by
        intro l
        rw [← List.take_add, show k / 2 + (k - k / 2) = k by omega]
      rw [a3, List.drop_drop, show E.length / 2 - k / 2 + k / 2 = E.length / 2 by omega]
    refine finish ((s.drop (E.length / 2 - k / 2)).take k) ((List.take_sublist _ _).trans (List.drop_sublist _ _)) (by simp; omega)
      ⟨s.take (E.length / 2 - k / 2), s.drop (E.length / 2 - k / 2 + k), ?_, by simp; omega, by simp; omega, ?_⟩ _ e1
    · rw [List.append_assoc, ← e]
      exact hp
    · rw [e] at hs
      obtain ⟨-, h2, h3⟩ := List.pairwise_append.1 hs
      intro i hi
      exact ⟨fun j hj => h3 j hj i (List.mem_append_left _ hi), fun j hj => (List.pairwise_append.1 h2).2.2 i hi j hj⟩

/-- `E'`, `V'` are a correct selection of `k` eigenpairs (all of them if `k` is absent) from `E`, `V`: `k` distinct eigenpairs, each
eigenvalue together with its own vector, in ascending order (of the absolute values for the magnitude modes), those the mode asks for. -/
def Selected (E : List α) (V : List γ) (k : Option Nat) (p : Part) (o : Order) (E' : List α) (V' : List γ) : Prop :=
  ∃ idx : List Nat, idx.Nodup ∧ idx.length = k.getD E.length ∧ (∀ i ∈ idx, i < E.length) ∧
    E'.map some = idx.map (E[·]?) ∧ V'.map some = idx.map (V[·]?) ∧
    ((E'.map (key o)).Pairwise (· ≤ ·)) ∧ Chosen p (fun i => key o (E.getD i 0)) E.length (k.getD E.length) idx

/-- **C58** Selecting `k` of `n` eigenpairs returns a correct selection, and the same eigenvalues with or without vectors. -/
theorem C58_select (E : List α) (V : List γ) (hV : V.length = E.length) (k : Option Nat) (hk : k.getD E.length ≤ E.length) (w : Str)
    (p : Part) (o : Order) (hw : parseWhich w = .ok (p, o)) :
    ∃ E' V', selectPairs E (some V) k w = .ok (E', some V') ∧ selectValues E k w = .ok E' ∧ Selected E V k p o E' V' := by
  obtain ⟨idx, h1, h2, h3, h4, h5, h6, h7⟩ := idxFn_spec p o E (k.getD E.length) hk
  have hE := filterMap_get E _ h7
  have hV' := filterMap_get V (idxFn p o E (k.getD E.length)) fun i hi => by rw [hV]; exact h7 i hi
  have hE1 : (((idxFn p o E (k.getD E.length)).filterMap (E[·]?)).take (k.getD E.length)).map some = idx.map (E[·]?) := by
    rw [List.map_take, hE, ← List.map_take, ← h1]
  refine ⟨_, _, by simp only [selectPairs, hw, selectByFn, Option.map_some, Option.getD_some]; rfl,
    by simp only [selectValues, selectPairs, hw, selectByFn, Option.map_none, Option.getD_some], idx, h2, h3, h4, hE1, ?_, ?_, h6⟩
  · rw [List.map_take, hV', ← List.map_take, ← h1]
  · have e : (((idxFn p o E (k.getD E.length)).filterMap (E[·]?)).take (k.getD E.length)) = idx.map (E.getD · 0) := by
      have inj : Function.Injective (List.map (some : α → Option α)) := List.map_injective_iff.2 (Option.some_injective _)
      apply inj
      rw [hE1, List.map_map]
      refine List.map_congr_left fun i hi => ?_
      simp [List.getD_eq_getElem?_getD, List.getElem?_eq_getElem (h4 i hi)]
    rw [e, List.map_map, List.pairwise_map]
    exact h5

/-- Of five eigenvalues the three exterior ones by magnitude, with their vectors. -/
example : selectPairs [(-4 : Int), -1, 0, 2, 3] (some ["a", "b", "c", "d", "e"]) (some 3) "Em".toList =
    .ok ([0, 3, -4], some ["c", "e", "a"]) := by decide +kernel

/-- What each of the eight names asks for. -/
def meaning : List (Str × Part × Order) :=
  [("sa".toList, .smallest, .algebraic), ("sm".toList, .smallest, .magnitude), ("la".toList, .largest, .algebraic),
   ("lm".toList, .largest, .magnitude), ("ea".toList, .exterior, .algebraic), ("em".toList, .exterior, .magnitude),
   ("ia".toList, .interior, .algebraic), ("im".toList, .interior, .magnitude)]

/-- **C58** The modules accept exactly the eight names, in any case, with a positive number or none; and a name means what it says. -/
theorem C58_modes (k : Option Int) (w : Str) :
    ((∃ c, mkCfg k w = .ok c) ↔ (∀ n, k = some n → 0 < n) ∧ ∃ m ∈ meaning, w.map Char.toLower = m.1) ∧
    ∀ c, mkCfg k w = .ok c → c.numEig = k.map Int.toNat ∧ ∀ m ∈ meaning, w.map Char.toLower = m.1 → parseWhich c.which = .ok m.2 := by
  have hopt : ∀ w : Str, w ∈ options ↔ ∃ m ∈ meaning, w = m.1 := by
    intro w
    simp only [options, meaning, List.mem_cons, List.not_mem_nil, or_false, exists_eq_or_imp, exists_eq_left]
    tauto
  have hpos : k.any (fun k => decide (k ≤ 0)) = true ↔ ¬ ∀ n, k = some n → 0 < n := by
    cases k with
    | none => simp
    | some k => simp
  unfold mkCfg
  by_cases h1 : k.any (fun k => decide (k ≤ 0)) = true
  · rw [if_pos h1]
    refine ⟨⟨fun ⟨c, hc⟩ => (by cases hc), fun h => absurd h.1 (hpos.1 h1)⟩, fun c hc => by cases hc⟩
  · rw [if_neg h1]
    have h1' : ∀ n, k = some n → 0 < n := by by_contra hn; exact h1 (hpos.2 hn)
    by_cases h2 : w.map Char.toLower ∈ options
    · rw [if_neg (not_not.2 h2)]
      refine ⟨⟨fun _ => ⟨h1', (hopt _).1 h2⟩, fun _ => ⟨_, rfl⟩⟩, fun c hc => ?_⟩
      cases hc
      refine ⟨rfl, fun m hm e => ?_⟩
      simp only [e]
      simp only [meaning, List.mem_cons, List.not_mem_nil, or_false] at hm
      rcases hm with rfl | rfl | rfl | rfl | rfl | rfl | rfl | rfl <;> decide
    · rw [if_pos h2]
      refine ⟨⟨fun ⟨c, hc⟩ => (by cases hc), fun h => absurd ((hopt _).2 h.2) h2⟩, fun c hc => by cases hc⟩

mutual
theorem flat_map {β δ : Type} (f : β → δ) : ∀ t : Tree β, flat (map f t) = (flat t).map f
  | .leaf _ => rfl
  | .none => rfl
  | .list ts => by simp only [map, flat]; exact flatL_map f ts
  | .tuple ts => by simp only [map, flat]; exact flatL_map f ts
  | .dict kvs => by simp only [map, flat]; exact flatD_map f kvs
theorem flatL_map {β δ : Type} (f : β → δ) : ∀ ts : List (Tree β), flatL (mapL f ts) = (flatL ts).map f
  | [] => rfl
  | t :: ts => by simp only [mapL, flatL, List.map_append]; rw [flat_map f t, flatL_map f ts]
theorem flatD_map {β δ : Type} (f : β → δ) : ∀ ts : List (Str × Tree β), flatD (mapD f ts) = (flatD ts).map f
  | [] => rfl
  | (k, t) :: ts => by simp only [mapD, flatD, List.map_append]; rw [flat_map f t, flatD_map f ts]
end

theorem evens_interleave {β δ : Type} : ∀ l : List (β × δ), evens (interleave l) = l.map fun x => .inl x.1
  | [] => rfl
  | x :: l => by
    have := evens_interleave l
    simp only [interleave] at this
    simp [interleave, evens, this]

theorem odds_interleave {β δ : Type} : ∀ l : List (β × δ), odds (interleave l) = l.map fun x => .inr x.2
  | [] => rfl
  | x :: l => by
    have := odds_interleave l
    simp only [interleave] at this
    simp [interleave, odds, this]

theorem unflatten_map {β δ : Type} (data : Tree β) (t : Tree δ) (h : map (fun _ => ()) data.norm = map (fun _ => ()) t) :
    unflatten data (flat t) = .ok t := by
  unfold unflatten
  have := unflat_flat data.norm t [] ((sameStruct_iff _ _).2 h)
  rw [List.append_nil] at this
  rw [this]

theorem list_mapM_total {β δ ε : Type} {f : β → Except ε δ} : ∀ {l : List β}, (∀ a ∈ l, ∃ b, f a = .ok b) → ∃ r, l.mapM f = .ok r
  | [], _ => ⟨[], rfl⟩
  | a :: l, h => by
    obtain ⟨b, hb⟩ := h a (by simp)
    obtain ⟨r, hr⟩ := list_mapM_total (l := l) fun x hx => h x (by simp [hx])
    exact ⟨b :: r, by rw [List.mapM_cons, hb, hr]; rfl⟩

variable {μ : Type}

/-- The data can be decomposed: `eigh` gives as many vectors as values, and at least as many as are asked for. -/
def Decomposes (eigh : μ → List α × List γ) (k : Option Nat) (data : Tree (List μ)) : Prop :=
  ∀ p As, At data p As → ∀ A ∈ As, (eigh A).2.length = (eigh A).1.length ∧ k.getD (eigh A).1.length ≤ (eigh A).1.length

theorem pairsOf_ok (eigh : μ → List α × List γ) (c : Cfg) (p : Part) (o : Order) (hw : parseWhich c.which = .ok (p, o)) (A : μ)
    (h1 : (eigh A).2.length = (eigh A).1.length) (h2 : c.numEig.getD (eigh A).1.length ≤ (eigh A).1.length) :
    ∃ E' V', pairsOf eigh c A = .ok (E', V') ∧ selectValues (eigh A).1 c.numEig c.which = .ok E' ∧
      Selected (eigh A).1 (eigh A).2 c.numEig p o E' V' := by
  obtain ⟨E', V', e1, e2, h⟩ := C58_select (eigh A).1 (eigh A).2 h1 c.numEig h2 c.which p o hw
  exact ⟨E', V', by rw [pairsOf, e1], e2, h⟩

/-- **C58** Applied to data, `Eigensystem` returns a dictionary with two trees of the structure of the data: at every place the selected
eigenvalues and eigenvectors of every matrix of the batch. -/
theorem C58_system (eigh : μ → List α × List γ) (c : Cfg) (p : Part) (o : Order) (hw : parseWhich c.which = .ok (p, o))
    (data : Tree (List μ)) (hd : Decomposes eigh c.numEig data) :
    ∃ a b, systemCallable eigh c data = .ok (.dict [("eigenvalues".toList, a), ("eigenvectors".toList, b)]) ∧
      map (fun _ => ()) a = map (fun _ => ()) data.norm ∧ map (fun _ => ()) b = map (fun _ => ()) data.norm ∧
      ∀ q As, At data q As → ∃ r : List (List α × List γ), At a q (.inl (r.map Prod.fst)) ∧ At b q (.inr (r.map Prod.snd)) ∧
        List.Forall₂ (fun A EV => Selected (eigh A).1 (eigh A).2 c.numEig p o EV.1 EV.2) As r := by
  have hd' : ∀ As ∈ flat data.norm, ∀ A ∈ As, (eigh A).2.length = (eigh A).1.length ∧ c.numEig.getD (eigh A).1.length ≤ (eigh A).1.length := by
    intro As hAs
    obtain ⟨q, hq⟩ := mem_flat_at.1 hAs
    exact hd q As (at_norm.1 hq)
  have hok : ∀ As ∈ flat data.norm, ∃ r, As.mapM (pairsOf eigh c) = .ok r := by
    intro As hAs
    refine list_mapM_total fun A hA => ?_
    obtain ⟨E', V', e, -⟩ := pairsOf_ok eigh c p o hw A (hd' As hAs A hA).1 (hd' As hAs A hA).2
    exact ⟨_, e⟩
  obtain ⟨t, ht⟩ := mapM_total (systemLeaf eigh c) data.norm fun As hAs => by
    obtain ⟨r, hr⟩ := hok As hAs
    exact ⟨_, by rw [systemLeaf, hr]⟩
  have hleaf : ∀ As w, systemLeaf eigh c As = .ok w → ∃ b, w = .leaf b := by
    intro As w h
    unfold systemLeaf at h
    split at h
    · cases h; exact ⟨_, rfl⟩
    · cases h
  obtain ⟨z, hz1, hz2, -⟩ := mapM_graph hleaf _ ht
  have hst : map (fun _ => ()) data.norm = map (fun _ => ()) t := by rw [← hz1, ← hz2, map_map, map_map]
  have e1 : unflatten data (evens (interleave (flat t))) = .ok (map (fun x => .inl x.1) t : Tree (List (List α) ⊕ List (List γ))) := by
    rw [evens_interleave, ← flat_map]
    exact unflatten_map _ _ (by rw [map_map]; exact hst)
  have e2 : unflatten data (odds (interleave (flat t))) = .ok (map (fun x => .inr x.2) t : Tree (List (List α) ⊕ List (List γ))) := by
    rw [odds_interleave, ← flat_map]
    exact unflatten_map _ _ (by rw [map_map]; exact hst)
  refine ⟨_, _, by simp only [systemCallable, ht, e1, e2]; rfl, by rw [map_map]; exact hst.symm, by rw [map_map]; exact hst.symm, ?_⟩
  intro q As hq
  obtain ⟨w, hw1, hw2⟩ := mapM_at ht (at_norm.2 hq)
  obtain ⟨r, hr⟩ := hok As (mem_flat_at.2 ⟨q, at_norm.2 hq⟩)
  simp only [systemLeaf, hr] at hw1
  cases hw1
  have hw3 := sub_leaf.1 hw2
  refine ⟨r, at_map.2 ⟨_, hw3, rfl⟩, at_map.2 ⟨_, hw3, rfl⟩, ?_⟩
  have h2 := mapM_forall₂ hr
  have h3 : ∀ A ∈ As, _ := hd q As hq
  clear hr hw2 hw3 hq
  induction h2 with
  | nil => exact List.Forall₂.nil
  | @cons A0 _ _ _ hA _ ih =>
    refine List.Forall₂.cons ?_ (ih fun A' hA' => h3 A' (by simp [hA']))
    obtain ⟨E', V', e, -, hS⟩ := pairsOf_ok eigh c p o hw _ (h3 A0 (by simp)).1 (h3 A0 (by simp)).2
    rw [e] at hA
    cases hA
    exact hS

/-- **C58** `Eigenvectors` and `Eigenvalues` return the same vectors and values, as one tree each. -/
theorem C58_parts (eigh : μ → List α × List γ) (c : Cfg) (p : Part) (o : Order) (hw : parseWhich c.which = .ok (p, o))
    (data : Tree (List μ)) (hd : Decomposes eigh c.numEig data) :
    ∃ a b, valuesCallable (fun A => (eigh A).1) c data = .ok a ∧ vectorsCallable eigh c data = .ok b ∧
      systemCallable eigh c data = .ok (.dict [("eigenvalues".toList, map .inl a), ("eigenvectors".toList, map .inr b)]) := by
  have hd' : ∀ As ∈ flat data.norm, ∀ A ∈ As, (eigh A).2.length = (eigh A).1.length ∧ c.numEig.getD (eigh A).1.length ≤ (eigh A).1.length := by
    intro As hAs
    obtain ⟨q, hq⟩ := mem_flat_at.1 hAs
    exact hd q As (at_norm.1 hq)
  have hok : ∀ As ∈ flat data.norm, ∃ r, As.mapM (pairsOf eigh c) = .ok r ∧
      As.mapM (fun A => selectValues (eigh A).1 c.numEig c.which) = .ok (r.map Prod.fst) := by
    intro As hAs
    have h := hd' As hAs
    clear hAs
    induction As with
    | nil => exact ⟨[], rfl, rfl⟩
    | cons A As ih =>
      obtain ⟨E', V', e1, e2, -⟩ := pairsOf_ok eigh c p o hw A (h A (by simp)).1 (h A (by simp)).2
      obtain ⟨r, h1, h2⟩ := ih fun A' hA' => h A' (by simp [hA'])
      exact ⟨(E', V') :: r, by rw [List.mapM_cons, e1, h1]; rfl, by rw [List.mapM_cons, e2, h2]; rfl⟩
  let g : List μ → List (List α × List γ) := fun As => match As.mapM (pairsOf eigh c) with
    | .ok r => r
    | .error _ => []
  have hg : ∀ As ∈ flat data.norm, As.mapM (pairsOf eigh c) = .ok (g As) ∧
      As.mapM (fun A => selectValues (eigh A).1 c.numEig c.which) = .ok ((g As).map Prod.fst) := by
    intro As hAs
    obtain ⟨r, hr1, hr2⟩ := hok As hAs
    simp only [g, hr1, hr2, and_self]
  have ht : mapM (systemLeaf eigh c) data.norm = .ok (map (fun As => ((g As).map Prod.fst, (g As).map Prod.snd)) data.norm) := by
    refine mapM_leaf _ _ _ fun As hAs => ?_
    rw [systemLeaf, (hg As hAs).1]
  refine ⟨map (fun As => (g As).map Prod.fst) data.norm, map (fun As => (g As).map Prod.snd) data.norm, ?_, ?_, ?_⟩
  · refine mapM_leaf _ _ _ fun As hAs => ?_
    rw [(hg As hAs).2]
  · refine mapM_leaf _ _ _ fun As hAs => ?_
    rw [(hg As hAs).1]
  · simp only [systemCallable, ht]
    rw [evens_interleave, odds_interleave, ← flat_map, ← flat_map, unflatten_map _ _ (by simp only [map_map]),
      unflatten_map _ _ (by simp only [map_map]), map_map, map_map, map_map, map_map]

/-- **C58** If `eigh` returns eigenpairs of a matrix, so does every selection; in particular every returned vector belongs to the returned
eigenvalue at the same position. -/
theorem C58_eigenpairs {n : Nat} (eigh : Matrix (Fin n) (Fin n) ℂ → List ℝ × List (Fin n → ℂ)) (A : Matrix (Fin n) (Fin n) ℂ)
    (hE : ∀ (i : Nat) (e : ℝ) (v : Fin n → ℂ), (eigh A).1[i]? = some e → (eigh A).2[i]? = some v → A.mulVec v = (e : ℂ) • v)
    (k : Option Nat) (p : Part) (o : Order) (E' : List ℝ) (V' : List (Fin n → ℂ)) (hS : Selected (eigh A).1 (eigh A).2 k p o E' V')
    (i : Nat) (e : ℝ) (v : Fin n → ℂ) (he : E'[i]? = some e) (hv : V'[i]? = some v) : A.mulVec v = (e : ℂ) • v := by
  obtain ⟨idx, -, -, -, h1, h2, -, -⟩ := hS
  have g1 : (E'.map some)[i]? = some (some e) := by rw [List.getElem?_map, he]; rfl
  have g2 : (V'.map some)[i]? = some (some v) := by rw [List.getElem?_map, hv]; rfl
  rw [h1, List.getElem?_map] at g1
  rw [h2, List.getElem?_map] at g2
  obtain ⟨j, hj, g1⟩ := Option.map_eq_some_iff.1 g1
  rw [hj] at g2
  exact hE j e v g1 (by simpa using g2)

/-- Shape of the output for a batch: every sample has `n` values (or vectors) as declared. -/
def HasShape (k : Option Nat) (n : Nat) {β : Type} (out : List (List β)) : Prop := ∀ x ∈ out, x.length = k.getD n

theorem selected_length {E : List α} {V : List γ} {k : Option Nat} {p : Part} {o : Order} {E' : List α} {V' : List γ}
    (h : Selected E V k p o E' V') : E'.length = k.getD E.length ∧ V'.length = k.getD E.length := by
  obtain ⟨idx, -, hl, -, h1, h2, -, -⟩ := h
  have g1 := congrArg List.length h1
  have g2 := congrArg List.length h2
  rw [List.length_map, List.length_map, hl] at g1 g2
  exact ⟨g1, g2⟩

theorem validate_at {s : Shapes} {k : Option Nat} (h : validate s k = .ok ()) {q : List ForwardSpec.Step} {sh : List Nat} (hs : At s q sh) :
    ∃ n, sh = [n, n] ∧ k.getD n ≤ n := by
  unfold validate at h
  split at h
  · rename_i hall
    have hm : sh ∈ flat s.norm := mem_flat_at.2 ⟨q, at_norm.2 hs⟩
    have := List.all_eq_true.1 hall sh hm
    match sh, this with
    | [a, b], this =>
      simp only [validShape, Bool.and_eq_true, beq_iff_eq] at this
      obtain ⟨rfl, hk⟩ := this
      refine ⟨a, rfl, ?_⟩
      cases k with
      | none => exact le_refl _
      | some k => simpa using hk
    | [], this => simp [validShape] at this
    | [_], this => simp [validShape] at this
    | _ :: _ :: _ :: _, this => simp [validShape] at this
  · cases h

/-- **C58** Declared output shapes: for square inputs (large enough) `Eigenvectors` declares `(n, k)` and `Eigensystem` `(k,)` and `(n, k)` at
every place, where `k` is the number actually returned for an `n × n` matrix; other shapes are refused. -/
theorem C58_shapes (c : Cfg) (s : Shapes) :
    ((∃ out, vectorsShape c s = .ok out) ↔ ∀ q sh, At s q sh → ∃ n, sh = [n, n] ∧ c.numEig.getD n ≤ n) ∧
    (∀ out, vectorsShape c s = .ok out → ∀ q n, At s q [n, n] → At out q [n, c.numEig.getD n]) ∧
    (∀ out, systemShape c s = .ok out → ∀ q n, At s q [n, n] →
      At out (.key "eigenvalues".toList :: q) [c.numEig.getD n] ∧ At out (.key "eigenvectors".toList :: q) [n, c.numEig.getD n]) := by
  refine ⟨⟨?_, fun h => ?_⟩, ?_, ?_⟩
  · rintro ⟨out, h⟩ q sh hs
    unfold vectorsShape at h
    split at h
    · cases h
    · rename_i hv; exact validate_at hv hs
  · have hv : validate s c.numEig = .ok () := by
      unfold validate
      rw [if_pos]
      refine List.all_eq_true.2 fun sh hsh => ?_
      obtain ⟨q, hq⟩ := mem_flat_at.1 hsh
      obtain ⟨n, rfl, hk⟩ := h q sh (at_norm.1 hq)
      cases hc : c.numEig with
      | none => simp [validShape]
      | some k => simpa [validShape, hc] using hk
    exact ⟨_, by rw [vectorsShape, hv]⟩
  · intro out h q n hs
    unfold vectorsShape at h
    split at h
    · cases h
    · cases h
      exact map_norm_at.2 ⟨_, hs, rfl⟩
  · intro out h q n hs
    unfold systemShape at h
    split at h
    · cases h
    · cases h
      exact ⟨At.dict (List.mem_cons_self) (map_norm_at.2 ⟨_, hs, rfl⟩),
        At.dict (List.mem_cons_of_mem _ List.mem_cons_self) (map_norm_at.2 ⟨_, hs, rfl⟩)⟩

/-- **C58** The lengths of the lists returned are the declared ones. -/
theorem C58_shapes_met (E : List α) (V : List γ) (hV : V.length = E.length) (k : Option Nat) (hk : k.getD E.length ≤ E.length) (w : Str)
    (p : Part) (o : Order) (hw : parseWhich w = .ok (p, o)) (E' : List α) (V' : Option (List γ))
    (h : selectPairs E (some V) k w = .ok (E', V')) : E'.length = k.getD E.length ∧ V'.map List.length = some (k.getD E.length) := by
  obtain ⟨E1, V1, e1, -, hS⟩ := C58_select E V hV k hk w p o hw
  rw [e1] at h
  cases h
  exact ⟨(selected_length hS).1, by simp [(selected_length hS).2]⟩

/-- **C58** `Eigenvalues` declares `(k,)` at every place if `k` is given or the input is a single array. -/
theorem C58_values_shape (c : Cfg) (s : Shapes) (h : c.numEig ≠ Option.none ∨ ∃ sh, s = .leaf sh) (out : Tree (List (Nat ⊕ Shapes)))
    (ho : valuesShape c s = .ok out) (q : List ForwardSpec.Step) (n : Nat) (hs : At s q [n, n]) : At out q [.inl (c.numEig.getD n)] := by
  have hne : (flat s.norm).isEmpty = false := by
    have : [n, n] ∈ flat s.norm := mem_flat_at.2 ⟨q, at_norm.2 hs⟩
    cases hf : flat s.norm with
    | nil => rw [hf] at this; cases this
    | cons _ _ => rfl
  unfold valuesShape at ho
  split at ho
  · cases ho
  · simp only [hne, Bool.false_eq_true, if_false] at ho
    cases hk : c.numEig with
    | some k =>
      rw [hk] at ho
      cases ho
      exact map_norm_at.2 ⟨_, hs, rfl⟩
    | none =>
      obtain ⟨sh, rfl⟩ := h.resolve_left (by simp [hk])
      cases hs
      rw [hk] at ho
      cases ho
      exact At.leaf _

/-- **C58** Without `k`, data in containers gets a wrong declaration or none at all: a list of two square matrices is declared to give
lists of shapes instead of numbers, and a dictionary raises. -/
theorem C58_values_shape_refuted : ∃ c : Cfg, mkCfg Option.none "sa".toList = .ok c ∧
    valuesShape c (.list [.leaf [2, 2], .leaf [3, 3]]) = .ok (.list [.leaf [.inr (.leaf [2, 2])], .leaf [.inr (.leaf [2, 2])]]) ∧
    ∀ kvs, validate (.dict kvs) Option.none = .ok () → flat (Tree.dict kvs).norm ≠ [] → valuesShape c (.dict kvs) = .error .keyError := by
  refine ⟨⟨Option.none, "sa".toList⟩, rfl, rfl, fun kvs hv hne => ?_⟩
  have hne' : (flat (Tree.dict kvs).norm).isEmpty = false := by
    cases hf : flat (Tree.dict kvs).norm with
    | nil => exact absurd hf hne
    | cons _ _ => rfl
  simp only [valuesShape, hv, hne', Bool.false_eq_true, if_false]

/-- Two batches in a dictionary of two samples each, with a decomposition of diagonal matrices given by their diagonals. -/
example : systemCallable (fun d : List Int => (d, d.zipIdx.map Prod.snd)) ⟨some 1, "la".toList⟩
    (.dict [("x".toList, .leaf [[3, 1], [2, 5]]), ("a".toList, .leaf [[0, 7]])]) =
    .ok (.dict [("eigenvalues".toList, .dict [("a".toList, .leaf (.inl [[7]])), ("x".toList, .leaf (.inl [[3], [5]]))]),
      ("eigenvectors".toList, .dict [("a".toList, .leaf (.inr [[1]])), ("x".toList, .leaf (.inr [[0], [1]]))])]) := by decide +kernel

end Verif.Props
