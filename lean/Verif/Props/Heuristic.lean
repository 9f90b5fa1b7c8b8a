import Verif.Model.Heuristic
import Verif.Spec.Heuristic
import Verif.Lemmas.Sensitivity
import Verif.Props.Sensitivity
import Verif.Props.TreeArith
import Verif.Props.ConformalInterval

/-!
# C82: the uncertainty heuristic

Property C82.
-/

namespace Verif.Props
open Tree NArr Heur Loss
open ForwardSpec (At KeysOk)
open NdSpec

theorem bin_norm {A B C : Type} (f : A → B → C) {t : Tree (NArr A)} {u : Tree (NArr B)} (ht : KeysOk t) (hu : KeysOk u) :
    TreeArith.bin f t.norm u.norm = TreeArith.bin f t u := by
  unfold TreeArith.bin
  rw [norm_norm ht, norm_norm hu]
  split
  · rw [jaxMap_normal ht]
    refine Tree.jaxMap_norm ?_ t [u] (by simpa using hu)
    intro a vs
    match vs with
    | [] => rfl
    | [.leaf _] => rfl
    | [.none] => rfl
    | [.list _] => rfl
    | [.tuple _] => rfl
    | [.dict _] => rfl
    | a :: b :: l =>
      simp only [List.map_cons]
      generalize a.norm = a'
      cases a' <;> rfl
  · rfl

theorem bin_run {δ A B C : Type} (f : A → B → C) {D : Tree δ} (hD : KeysOk D) (hn : D.norm = D) (a : δ → NArr A) (b : δ → NArr B) (Q : δ → NArr C → Prop)
    [Inhabited C] (h : ∀ d ∈ flat D, ∃ z, bop f (a d) (b d) = .ok z ∧ Q d z) :
    ∃ Z : δ → NArr C, TreeArith.bin f (map a D) (map b D) = .ok (map Z D) ∧ ∀ d ∈ flat D, Q d (Z d) := by
  classical
  have key : ∀ d, ∃ z, d ∈ flat D → bop f (a d) (b d) = .ok z ∧ Q d z := fun d => by
    by_cases hd : d ∈ flat D
    · obtain ⟨z, h⟩ := h d hd
      exact ⟨z, fun _ => h⟩
    · exact ⟨⟨[], fun _ => default⟩, fun h => absurd h hd⟩
  choose Z hZ using key
  refine ⟨Z, ?_, fun d hd => (hZ d hd).2⟩
  unfold TreeArith.bin
  rw [if_pos]
  · rw [← bind_leaf b, jaxMap_bind _ _ hD hn]
    refine mapM_leaf _ _ _ fun d hd => ?_
    simp only [(hZ d hd).1]
  · rw [sameStruct_iff, Tree.norm_map, Tree.norm_map, Tree.map_map, Tree.map_map]

theorem divide_usable {x : ℝ} {e : Norm.Ext} (h : Usable e) : Norm.Ext.divide x e = some (quotient x e) := by
  cases e with
  | fin v => exact if_neg (ne_of_gt h)
  | inf => rfl
  | nan => exact absurd h id

theorem quotient_nonneg {x : ℝ} {e : Norm.Ext} (hx : 0 ≤ x) (h : Usable e) : 0 ≤ quotient x e := by
  cases e with
  | fin v => exact div_nonneg hx (le_of_lt h)
  | inf => exact le_refl _
  | nan => exact le_refl _

/-- All entries are given numbers. -/
def Filled (n : Nat) (o : Out) (v : Nat → List Nat → ℝ) (x : NArr (Option ℝ)) : Prop :=
  x.shape = n :: o.shape ∧ ∀ k < n, ∀ i, InB o.shape i → x.val (k :: i) = some (v k i)

theorem addTerm_run {D : Tree Out} (hD : KeysOk D) {n : Nat} (S : Out → NArr ℝ) (N : Out → NArr Norm.Ext) (used : Bool)
    (hS : ∀ o ∈ flat D, (S o).shape = n :: o.shape ∧ (N o).shape = o.shape ∧ ∀ i, InB o.shape i → Usable ((N o).val i))
    (Z : Out → NArr (Option ℝ)) (v : Out → Nat → List Nat → ℝ) (hZ : ∀ o ∈ flat D, Filled n o (v o) (Z o)) :
    ∃ Z' : Out → NArr (Option ℝ), addTerm (map Z D.norm) (if used then some (map S D, map N D) else Option.none) = .ok (map Z' D.norm) ∧
      ∀ o ∈ flat D, Filled n o (fun k i => v o k i + if used then quotient ((S o).val (k :: i)) ((N o).val i) else 0) (Z' o) := by
  cases used with
  | false => exact ⟨Z, rfl, fun o ho => by simpa using hZ o ho⟩
  | true =>
    have hE := keysOk_norm' hD
    have hEn := norm_norm hD
    obtain ⟨W, hW, hQ⟩ := bin_run (C := Option ℝ) Norm.Ext.divide hE hEn S N
      (fun o w => Filled n o (fun k i => quotient ((S o).val (k :: i)) ((N o).val i)) w) fun o ho => by
        obtain ⟨h1, h2, h3⟩ := hS o (mem_flat_norm.1 ho)
        obtain ⟨z, e1, e2, e3⟩ := bop_rows Norm.Ext.divide (S o) (N o) (Or.inl h1) (Or.inr h2) (Or.inl h1)
        refine ⟨z, e1, e2, fun k hk i hi => ?_⟩
        have hne : n :: o.shape ≠ o.shape := fun e => by have := congrArg List.length e; simp at this
        rw [e3 k i (inB_cons.2 ⟨hk, hi⟩)]
        unfold entryAt
        rw [if_neg (by rw [h1]; exact hne), if_pos h2]
        exact divide_usable (h3 i hi)
    have hW' : normalise (map S D) (map N D) = .ok (map W D.norm) := by
      unfold normalise
      rw [← bin_norm _ ((keysOk_map _ _).2 hD) ((keysOk_map _ _).2 hD), Tree.norm_map, Tree.norm_map]
      exact hW
    obtain ⟨Z', hZ', hQ'⟩ := bin_run (C := Option ℝ) (lift2 (· + ·)) hE hEn Z W
      (fun o w => Filled n o (fun k i => v o k i + quotient ((S o).val (k :: i)) ((N o).val i)) w) fun o ho => by
        obtain ⟨a1, a2⟩ := hZ o (mem_flat_norm.1 ho)
        obtain ⟨b1, b2⟩ := hQ o ho
        obtain ⟨z, e1, e2, e3⟩ := bop_rows (lift2 (· + ·)) (Z o) (W o) (Or.inl a1) (Or.inl b1) (Or.inl a1)
        refine ⟨z, e1, e2, fun k hk i hi => ?_⟩
        have hne : n :: o.shape ≠ o.shape := fun e => by have := congrArg List.length e; simp at this
        rw [e3 k i (inB_cons.2 ⟨hk, hi⟩)]
        unfold entryAt
        rw [if_neg (by rw [a1]; exact hne), if_neg (by rw [b1]; exact hne), a2 k hk i hi, b2 k hk i hi]
        rfl
    refine ⟨Z', ?_, fun o ho => by simpa using hQ' o (mem_flat_norm.2 ho)⟩
    simp only [if_true, addTerm, hW', Bind.bind, Except.bind]
    exact hZ'

theorem column_run {d : NArr ℝ} {N : NArr Norm.Ext} {n : Nat} (hd : d.shape = [n]) (hN : N.shape = [1]) (hU : Usable (N.val [0])) :
    ∃ c, Heur.column d N = .ok c ∧ c.shape = [n, 1] ∧ ∀ k < n, c.val [k, 0] = some (quotient (d.val [k]) (N.val [0])) := by
  have hb : bshape [n] [1] = some [n] := bshape_of_le (by simp [BLe, BLeR])
  have hs : bop Norm.Ext.divide d N = .ok ⟨[n], fun i => Norm.Ext.divide (d.val (bidx [n] i)) (N.val (bidx [1] i))⟩ := by
    unfold bop
    rw [hd, hN, hb]
  refine ⟨⟨[n, 1], fun i => Norm.Ext.divide (d.val (bidx [n] (i.headD 0 :: i.drop 2))) (N.val (bidx [1] (i.headD 0 :: i.drop 2)))⟩,
    by simp only [Heur.column, hs, Bind.bind, Except.bind], rfl, fun k hk => ?_⟩
  have h1 : bidx [n] [k] = [k] := bidx_self (inB_cons.2 ⟨hk, rfl, by simp⟩)
  simp only [List.headD_cons, List.drop_succ_cons, List.drop_nil, h1]
  rw [show bidx [1] [k] = [0] by simp [bidx]]
  exact divide_usable hU

theorem addDist_run {D : Tree Out} (hD : KeysOk D) {n : Nat} (dist : Option (NArr ℝ × NArr Norm.Ext))
    (hd : ∀ d N, dist = some (d, N) → d.shape = [n] ∧ N.shape = [1] ∧ Usable (N.val [0]) ∧ ∀ o ∈ flat D, o.shape.length = 1)
    (Z : Out → NArr (Option ℝ)) (v : Out → Nat → List Nat → ℝ) (hZ : ∀ o ∈ flat D, Filled n o (v o) (Z o)) :
    ∃ Z' : Out → NArr (Option ℝ), addDist (map Z D.norm) dist = .ok (map Z' D.norm) ∧
      ∀ o ∈ flat D, Filled n o (fun k i => v o k i + distTerm k dist) (Z' o) := by
  cases dist with
  | none => exact ⟨Z, rfl, fun o ho => by simpa [distTerm] using hZ o ho⟩
  | some p =>
    obtain ⟨d, N⟩ := p
    obtain ⟨h1, h2, h3, h4⟩ := hd d N rfl
    obtain ⟨c, hc, hcs, hcv⟩ := column_run h1 h2 h3
    classical
    have key : ∀ o, ∃ z, o ∈ flat D → addLeaf c (Z o) [] = .ok (.leaf z) ∧ Filled n o (fun k i => v o k i + quotient (d.val [k]) (N.val [0])) z := by
      intro o
      by_cases ho : o ∈ flat D
      · obtain ⟨a1, a2⟩ := hZ o ho
        obtain ⟨w, hw⟩ := List.length_eq_one_iff.1 (h4 o ho)
        have hb : bshape [n, w] [n, 1] = some [n, w] := bshape_of_le (by simp [BLe, BLeR])
        refine ⟨⟨[n, w], fun i => lift2 (· + ·) ((Z o).val (bidx [n, w] i)) (c.val (bidx [n, 1] i))⟩, fun _ => ⟨?_, by rw [hw], fun k hk i hi => ?_⟩⟩
        · unfold addLeaf bop
          rw [a1, hcs, hw, hb]
          rfl
        · have hi' : InB [n, w] (k :: i) := inB_cons.2 ⟨hk, by rw [hw] at hi; exact hi⟩
          rw [hw] at hi
          obtain ⟨j, rfl⟩ : ∃ j, i = [j] := List.length_eq_one_iff.1 hi.1
          simp only [bidx_self hi']
          have hb : bidx [n, 1] [k, j] = [k, 0] := by
            simp only [bidx, List.length_cons, List.length_nil, Nat.sub_self, List.drop_zero, List.zipWith_cons_cons, List.zipWith_nil_right]
            by_cases e : n = 1
            · have : k = 0 := by omega
              simp [e, this]
            · simp [e]
          rw [a2 k hk [j] (by rw [hw]; exact hi), hb, hcv k hk]
          rfl
      · exact ⟨⟨[], fun _ => Option.none⟩, fun h => absurd h ho⟩
    choose Z' hZ' using key
    refine ⟨Z', ?_, fun o ho => (hZ' o ho).2⟩
    simp only [addDist, hc, Bind.bind, Except.bind]
    have hE : (map Z D.norm).norm = map Z D.norm := by rw [Tree.norm_map, norm_norm hD]
    unfold jaxMap
    rw [hE, Tree.map_map]
    simp only [zipAll]
    rw [Tree.mapM_comp]
    refine mapM_leaf _ _ _ fun o ho => ?_
    exact (hZ' o (mem_flat_norm.1 ho)).1

/-- C82: the heuristic has the structure of the outputs with one axis for the samples, and every entry is the sum of the used normalised
sensitivities of this entry and of the normalised distance of the sample; it is not negative if these are not. (With distances: for outputs
with one axis.) -/
theorem C82_sum {D : Tree Out} (hD : KeysOk D) {n : Nat} (hr : ∀ o ∈ flat D, o.Ok n) (useP useI : Bool) (dist : Option (NArr ℝ × NArr Norm.Ext))
    (hd : ∀ d N, dist = some (d, N) → d.shape = [n] ∧ N.shape = [1] ∧ Usable (N.val [0]) ∧ ∀ o ∈ flat D, o.shape.length = 1) :
    ∃ U, heuristic (map Out.shape D) n (if useP then some (map Out.sp D, map Out.np D) else Option.none)
        (if useI then some (map Out.si D, map Out.ni D) else Option.none) dist = .ok U ∧
      map (fun _ => ()) U = map (fun _ => ()) D.norm ∧
      ∀ p o, At D p o → ∃ u, At U p u ∧ u.shape = n :: o.shape ∧ ∀ k < n, ∀ i, InB o.shape i → ∃ v,
        u.val (k :: i) = some v ∧
        v = (if useP then quotient (o.sp.val (k :: i)) (o.np.val i) else 0) + (if useI then quotient (o.si.val (k :: i)) (o.ni.val i) else 0) + distTerm k dist ∧
        (0 ≤ o.sp.val (k :: i) → 0 ≤ o.si.val (k :: i) → (∀ d, dist = some d → 0 ≤ d.1.val [k]) → 0 ≤ v) := by
  obtain ⟨Z1, h1, q1⟩ := addTerm_run hD Out.sp Out.np useP (fun o ho => ⟨(hr o ho).sp, (hr o ho).np, fun i hi => ((hr o ho).pos i hi).1⟩)
    (fun o => ⟨n :: o.shape, fun _ => some 0⟩) (fun _ _ _ => 0) (fun o _ => ⟨rfl, fun _ _ _ _ => rfl⟩)
  obtain ⟨Z2, h2, q2⟩ := addTerm_run hD Out.si Out.ni useI (fun o ho => ⟨(hr o ho).si, (hr o ho).ni, fun i hi => ((hr o ho).pos i hi).2⟩) Z1 _ q1
  obtain ⟨Z3, h3, q3⟩ := addDist_run hD dist hd Z2 _ q2
  refine ⟨map Z3 D.norm, ?_, by rw [Tree.map_map], fun p o hp => ?_⟩
  · unfold heuristic
    rw [Tree.norm_map, Tree.map_map]
    simp only [h1, h2, h3, Bind.bind, Except.bind]
  · have ho : o ∈ flat D := mem_flat_at.2 ⟨p, hp⟩
    obtain ⟨a1, a2⟩ := q3 o ho
    refine ⟨Z3 o, at_map.2 ⟨o, at_norm.2 hp, rfl⟩, a1, fun k hk i hi => ⟨_, a2 k hk i hi, by simp, fun b1 b2 b3 => ?_⟩⟩
    have hp := (hr o ho).pos i hi
    have c1 : 0 ≤ (if useP then quotient (o.sp.val (k :: i)) (o.np.val i) else 0) := by
      split
      · exact quotient_nonneg b1 hp.1
      · exact le_refl _
    have c2 : 0 ≤ (if useI then quotient (o.si.val (k :: i)) (o.ni.val i) else 0) := by
      split
      · exact quotient_nonneg b2 hp.2
      · exact le_refl _
    have c3 : 0 ≤ distTerm k dist := by
      cases dist with
      | none => exact le_refl _
      | some d => exact quotient_nonneg (b3 d rfl) (hd d.1 d.2 rfl).2.2.1
    simp only
    linarith

/-- C82 does not hold for positivity: where all used normalisations have fallen back to infinity, the heuristic is zero for every sample, so
that scores are not finite. -/
theorem C82_positive_refuted {D : Tree Out} (hD : KeysOk D) {n : Nat} (hr : ∀ o ∈ flat D, o.Ok n) (useP useI : Bool) (p : List ForwardSpec.Step) (o : Out)
    (hp : At D p o) (hinf : ∀ i, InB o.shape i → o.np.val i = .inf ∧ o.ni.val i = .inf) :
    ∃ U u, heuristic (map Out.shape D) n (if useP then some (map Out.sp D, map Out.np D) else Option.none)
        (if useI then some (map Out.si D, map Out.ni D) else Option.none) Option.none = .ok U ∧ At U p u ∧
      ∀ k < n, ∀ i, InB o.shape i → u.val (k :: i) = some 0 := by
  obtain ⟨U, h1, -, h2⟩ := C82_sum hD hr useP useI Option.none (fun _ _ h => by cases h)
  obtain ⟨u, h3, -, h4⟩ := h2 p o hp
  refine ⟨U, u, h1, h3, fun k hk i hi => ?_⟩
  obtain ⟨v, e, rfl, -⟩ := h4 k hk i hi
  rw [e, (hinf i hi).1, (hinf i hi).2]
  simp [quotient, distTerm]

/-- The heuristic of one output without the distances. -/
noncomputable def base (o : Out) (useP useI : Bool) (k : Nat) (i : List Nat) : ℝ :=
  (if useP then quotient (o.sp.val (k :: i)) (o.np.val i) else 0) + (if useI then quotient (o.si.val (k :: i)) (o.ni.val i) else 0)

theorem heuristic_leaf {o : Out} {n : Nat} (hr : o.Ok n) (useP useI : Bool) (dist : NArr ℝ × NArr Norm.Ext) :
    ∃ z, Filled n o (base o useP useI) z ∧ heuristic (.leaf o.shape) n (if useP then some (.leaf o.sp, .leaf o.np) else Option.none)
        (if useI then some (.leaf o.si, .leaf o.ni) else Option.none) (some dist) = addDist (.leaf z) (some dist) := by
  have hD : KeysOk (.leaf o) := trivial
  have ho : ∀ o' ∈ flat (.leaf o), o' = o := fun o' h => List.mem_singleton.1 h
  obtain ⟨Z1, h1, q1⟩ := addTerm_run hD Out.sp Out.np useP (fun o' h => by rw [ho o' h]; exact ⟨hr.sp, hr.np, fun i hi => (hr.pos i hi).1⟩)
    (fun o => ⟨n :: o.shape, fun _ => some 0⟩) (fun _ _ _ => 0) (fun o _ => ⟨rfl, fun _ _ _ _ => rfl⟩)
  obtain ⟨Z2, h2, q2⟩ := addTerm_run hD Out.si Out.ni useI (fun o' h => by rw [ho o' h]; exact ⟨hr.si, hr.ni, fun i hi => (hr.pos i hi).2⟩) Z1 _ q1
  refine ⟨Z2 o, ?_, ?_⟩
  · have := q2 o (by simp [flat])
    refine ⟨this.1, fun k hk i hi => ?_⟩
    rw [this.2 k hk i hi]
    simp [base]
  · unfold heuristic
    have h1' : addTerm (map (fun s => (⟨n :: s, fun _ => some 0⟩ : NArr (Option ℝ))) (Tree.leaf o.shape).norm) (if useP then some (.leaf o.sp, .leaf o.np) else Option.none) =
      .ok (.leaf (Z1 o)) := h1
    have h2' : addTerm (.leaf (Z1 o)) (if useI then some (.leaf o.si, .leaf o.ni) else Option.none) = .ok (.leaf (Z2 o)) := h2
    simp only [h1', h2', Bind.bind, Except.bind]

theorem addDist_leaf {z : NArr (Option ℝ)} {d : NArr ℝ} {N : NArr Norm.Ext} {c : NArr (Option ℝ)} (hc : Heur.column d N = .ok c) :
    addDist (.leaf z) (some (d, N)) = (bop (lift2 (· + ·)) z c).map .leaf := by
  simp only [addDist, hc, Bind.bind, Except.bind, jaxMap, zipAll, Tree.norm, map, mapM, addLeaf]

/-- C82 does not hold with distances for models with a scalar output: instead of one number per sample the heuristic is a square array, in
which entry `(r, k)` combines the sensitivities of sample `k` with the distance of sample `r`. -/
theorem C82_scalar_refuted {o : Out} {n : Nat} (hr : o.Ok n) (ho : o.shape = []) (useP useI : Bool) {d : NArr ℝ} {N : NArr Norm.Ext} (hd : d.shape = [n])
    (hN : N.shape = [1]) (hU : Usable (N.val [0])) :
    ∃ u, heuristic (.leaf o.shape) n (if useP then some (.leaf o.sp, .leaf o.np) else Option.none)
        (if useI then some (.leaf o.si, .leaf o.ni) else Option.none) (some (d, N)) = .ok (.leaf u) ∧ u.shape = [n, n] ∧
      ∀ r < n, ∀ k < n, u.val [r, k] = some (base o useP useI k [] + quotient (d.val [r]) (N.val [0])) := by
  obtain ⟨z, ⟨h1, h2⟩, h3⟩ := heuristic_leaf hr useP useI (d, N)
  obtain ⟨c, hc, hcs, hcv⟩ := column_run hd hN hU
  rw [h3, addDist_leaf hc]
  rw [ho] at h1 h2
  have hb : bshape [n] [n, 1] = some [n, n] := by
    by_cases e : n = 1 <;> simp [bshape, bshapeRev, bdim, e]
  refine ⟨⟨[n, n], fun i => lift2 (· + ·) (z.val (bidx [n] i)) (c.val (bidx [n, 1] i))⟩, ?_, rfl, fun r hr k hk => ?_⟩
  · unfold bop
    rw [h1, hcs, hb]
    rfl
  · have e1 : bidx [n] [r, k] = [k] := by
      by_cases e : n = 1
      · have : k = 0 := by omega
        simp [bidx, e, this]
      · simp [bidx, e]
    have e2 : bidx [n, 1] [r, k] = [r, 0] := by
      by_cases e : n = 1
      · have : r = 0 := by omega
        simp [bidx, e, this]
      · simp [bidx, e]
    simp only [e1, e2]
    rw [h2 k hk [] ⟨rfl, by simp⟩, hcv r hr]
    rfl

/-- C82 does not hold with distances for outputs with two axes: unless an extent happens to fit, the call raises; and if the first extent
is the number of samples, the entries of row `r` of every sample get the distance of sample `r`. -/
theorem C82_matrix_refuted {o : Out} {n a b : Nat} (hr : o.Ok n) (ho : o.shape = [a, b]) (useP useI : Bool) {d : NArr ℝ} {N : NArr Norm.Ext} (hd : d.shape = [n])
    (hN : N.shape = [1]) (hU : Usable (N.val [0])) :
    (n ≠ 1 → a ≠ 1 → a ≠ n → heuristic (.leaf o.shape) n (if useP then some (.leaf o.sp, .leaf o.np) else Option.none)
        (if useI then some (.leaf o.si, .leaf o.ni) else Option.none) (some (d, N)) = .error .typeError) ∧
    (a = n → ∃ u, heuristic (.leaf o.shape) n (if useP then some (.leaf o.sp, .leaf o.np) else Option.none)
        (if useI then some (.leaf o.si, .leaf o.ni) else Option.none) (some (d, N)) = .ok (.leaf u) ∧
      ∀ k < n, ∀ r < n, ∀ j < b, u.val [k, r, j] = some (base o useP useI k [r, j] + quotient (d.val [r]) (N.val [0]))) := by
  obtain ⟨z, ⟨h1, h2⟩, h3⟩ := heuristic_leaf hr useP useI (d, N)
  obtain ⟨c, hc, hcs, hcv⟩ := column_run hd hN hU
  rw [h3, addDist_leaf hc]
  rw [ho] at h1 h2
  constructor
  · intro hn ha han
    have hb : bshape [n, a, b] [n, 1] = Option.none := by
      by_cases e : b = 1 <;> simp [bshape, bshapeRev, bdim, e, ha, hn, han]
    unfold bop
    rw [h1, hcs, hb]
    rfl
  · rintro rfl
    have hb : bshape [a, a, b] [a, 1] = some [a, a, b] := bshape_of_le (by simp [BLe, BLeR])
    refine ⟨⟨[a, a, b], fun i => lift2 (· + ·) (z.val (bidx [a, a, b] i)) (c.val (bidx [a, 1] i))⟩, ?_, fun k hk r hr j hj => ?_⟩
    · unfold bop
      rw [h1, hcs, hb]
      rfl
    · have hj' : InB [b] [j] := inB_cons.2 ⟨hj, rfl, by simp⟩
      have e2 : bidx [a, 1] [k, r, j] = [r, 0] := by
        by_cases e : a = 1
        · have : r = 0 := by omega
          simp [bidx, e, this]
        · simp [bidx, e]
      simp only [bidx_self (inB_cons.2 ⟨hk, inB_cons.2 ⟨hr, hj'⟩⟩), e2]
      rw [h2 k hk [r, j] (inB_cons.2 ⟨hr, hj'⟩), hcv r hr]
      rfl

/-! ### A concrete case -/

/-- Two samples, one output with three components: sensitivities 4 and 6 with the normalisations 2 and infinity. -/
noncomputable def hOut (s : List Nat) : Out := ⟨s, ⟨2 :: s, fun _ => 4⟩, ⟨s, fun _ => .fin 2⟩, ⟨2 :: s, fun _ => 6⟩, ⟨s, fun _ => .inf⟩⟩

theorem hOut_ok (s : List Nat) : (hOut s).Ok 2 := ⟨rfl, rfl, rfl, rfl, fun _ _ => ⟨by simp [hOut, Usable], by simp [hOut, Usable]⟩⟩

/-- C82, concretely: `4/2 + 0 + 9/3`. -/
example : ∃ U u, heuristic (.list [.leaf [3]]) 2 (some (.list [.leaf (hOut [3]).sp], .list [.leaf (hOut [3]).np]))
      (some (.list [.leaf (hOut [3]).si], .list [.leaf (hOut [3]).ni])) (some (⟨[2], fun _ => 9⟩, ⟨[1], fun _ => .fin 3⟩)) = .ok U ∧
    At U [.idx 0] u ∧ u.shape = [2, 3] ∧ u.val [1, 2] = some 5 := by
  obtain ⟨U, h1, -, h2⟩ := C82_sum (D := .list [.leaf (hOut [3])]) (n := 2) ⟨trivial, trivial⟩
    (fun o ho => by rw [show o = hOut [3] by simpa [flat, flatL] using ho]; exact hOut_ok [3]) true true (some (⟨[2], fun _ => 9⟩, ⟨[1], fun _ => .fin 3⟩))
    (fun d N e => by cases e; exact ⟨rfl, rfl, by simp [Usable], fun o ho => by rw [show o = hOut [3] by simpa [flat, flatL] using ho]; rfl⟩)
  obtain ⟨u, h3, h4, h5⟩ := h2 [.idx 0] (hOut [3]) (.list rfl (.leaf _))
  obtain ⟨v, h6, rfl, -⟩ := h5 1 (by norm_num) [2] (inB_cons.2 ⟨by norm_num, rfl, by simp⟩)
  refine ⟨U, u, h1, h3, h4, ?_⟩
  rw [h6]
  simp [quotient, distTerm, hOut]
  norm_num

/-- C82, concretely: with infinite normalisations the heuristic vanishes. -/
example : ∃ U u, heuristic (.leaf [3]) 2 Option.none (some (.leaf (hOut [3]).si, .leaf (hOut [3]).ni)) Option.none = .ok U ∧ At U [] u ∧
    u.val [1, 2] = some 0 := by
  obtain ⟨U, u, h1, h2, h3⟩ := C82_positive_refuted (D := .leaf { hOut [3] with np := (hOut [3]).ni }) (n := 2) trivial
    (fun o ho => by rw [List.mem_singleton.1 ho]; exact ⟨rfl, rfl, rfl, rfl, fun _ _ => ⟨by simp [hOut, Usable], by simp [hOut, Usable]⟩⟩) false true [] _ (.leaf _)
    (fun i _ => ⟨rfl, rfl⟩)
  exact ⟨U, u, h1, h2, h3 1 (by norm_num) [2] (inB_cons.2 ⟨by norm_num, rfl, by simp⟩)⟩

/-- C82, concretely: a scalar output gives a square array, a 3 by 3 output raises. -/
example : ∃ u, heuristic (.leaf []) 2 (some (.leaf (hOut []).sp, .leaf (hOut []).np)) Option.none (some (⟨[2], fun _ => 9⟩, ⟨[1], fun _ => .fin 3⟩)) =
    .ok (.leaf u) ∧ u.shape = [2, 2] := by
  obtain ⟨u, h1, h2, -⟩ := C82_scalar_refuted (hOut_ok []) rfl true false (d := ⟨[2], fun _ => 9⟩) (N := ⟨[1], fun _ => .fin 3⟩) rfl rfl (by simp [Usable])
  exact ⟨u, h1, h2⟩

example : heuristic (.leaf [3, 3]) 2 (some (.leaf (hOut [3, 3]).sp, .leaf (hOut [3, 3]).np)) Option.none (some (⟨[2], fun _ => 9⟩, ⟨[1], fun _ => .fin 3⟩)) =
    .error .typeError :=
  (C82_matrix_refuted (hOut_ok [3, 3]) rfl true false (d := ⟨[2], fun _ => 9⟩) (N := ⟨[1], fun _ => .fin 3⟩) rfl rfl (by simp [Usable])).1
    (by norm_num) (by norm_num) (by norm_num)

end Verif.Props
