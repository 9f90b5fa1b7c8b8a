import Verif.Spec.ConfStrata
import Verif.Lemmas.ConfUnits
import Verif.Props.ConformalStrata

namespace Verif.ConfUnits
open Verif.Tree Verif.Conformal Verif.NdSpec Verif.ForwardSpec Verif.Props NArr

theorem inB_one {N : Nat} {i : List Nat} (h : InB [N, 1] i) : ∃ k < N, i = [k, 0] := by
  match i, h with
  | [], h => have := h.1; simp at this
  | [_], h => have := h.1; simp at this
  | [k, j], h =>
    obtain ⟨h1, h2⟩ := inB_cons.1 h
    obtain ⟨h2, -⟩ := inB_cons.1 h2
    exact ⟨k, h1, by rw [Nat.lt_one_iff.1 h2]⟩
  | _ :: _ :: _ :: _, h => have := h.1; simp at this

open scoped Classical in
/-- The stratified correction, whatever the entries. -/
theorem strata_holds {flags : Tree Bool} {Xc X : Tree (NArr ℝ)} {r t : Arrs} {n N : Nat} (hc : Stratifiable flags Xc n) (h : Stratifiable flags X N)
    (hsh : ∀ p xc x, At Xc p xc → At X p x → x.shape.tail = xc.shape.tail) {S : Tree Unit} {y z v : List ForwardSpec.Step → List Nat → Option ℝ}
    (hr : Holds S r (fun _ => [n, 1]) fun p i => op2 (· - ·) (y p i) (z p i)) (ht : Holds S t (fun _ => [N, 1]) v) :
    ∃ st c, fitStrata flags Xc r = .ok st ∧ applyStrata flags st X t = .ok c ∧
      Holds S c (fun _ => [N, 1]) fun p i => op2 (· + ·) (v p i) (shiftS n (fun c => SameStratum flags Xc X c (i.headD 0)) (fun c => y p [c, 0]) fun c => z p [c, 0]) := by
  obtain ⟨tc, tc1, tc2, tc3⟩ := strataRows_spec hc
  obtain ⟨tx, t1, t2, t3⟩ := strataRows_spec h
  have hrow := strataRow_eq hc h hsh tc2 t2 tc3 t3
  set rowsC := (List.range n).map (strataRow (jaxLeaves tc)) with eC
  set table := OneHot.uniq rowsC with eT
  have hmem : ∀ {r}, r ∈ table ↔ r ∈ rowsC := OneHot.mem_uniq
  set strata := rowsC.map (stratum table) with eS
  set g : NArr (Option ℝ) → NArr (Option ℝ) := fun y => ⟨[table.length + 1, 1], fun i =>
      if i.headD 0 < table.length then medianOf y ((List.range n).filter fun k => decide (strata.getD k table.length = i.headD 0)) i.tail else some 0⟩ with eg
  have hfit : fitStrata flags Xc r = .ok ⟨table, map g r.norm⟩ := by
    unfold fitStrata
    rw [tc1]
    simp only [← eT, ← eS]
    rw [mapM_leaf _ g r.norm]
    intro a ha
    obtain ⟨p, hp⟩ := mem_flat_at.1 ha
    have e := (hr.arr p a (at_norm.1 hp)).1
    simp only [strataBias, e, eg]
  set idxs := ((List.range N).map (strataRow (jaxLeaves tx))).map (stratum table) with eI
  have hlen : idxs.length = N := by simp [eI]
  have hg : Holds S (map g r.norm) (fun _ => [table.length + 1, 1]) fun p i =>
      if i.headD 0 < table.length then quantO (((List.range n).filter fun k => decide (strata.getD k table.length = i.headD 0)).map fun c =>
        op2 (· - ·) (y p [c, 0]) (z p [c, 0])) (1 / 2) else some 0 := by
    refine map_holds g hr fun p x hx => ⟨rfl, fun i hi => ?_⟩
    obtain ⟨k, -, rfl⟩ := inB_one hi
    simp only [eg, medianOf, List.headD_cons, List.tail_cons]
    refine if_congr Iff.rfl ?_ rfl
    congr 1
    refine List.map_congr_left fun c hc' => (hr.arr p x hx).2 [c, 0] ?_
    exact inB_cons.2 ⟨List.mem_range.1 (List.mem_filter.1 hc').1, inB_cons.2 ⟨Nat.zero_lt_one, rfl, by simp⟩⟩
  have hb : Holds S (map (takeRows idxs) (map g r.norm).norm) (fun _ => [N, 1]) fun p i =>
      shiftS n (fun c => SameStratum flags Xc X c (i.headD 0)) (fun c => y p [c, 0]) fun c => z p [c, 0] := by
    refine map_holds _ hg fun p x hx => ?_
    obtain ⟨x1, x2⟩ := hg.arr p x hx
    refine ⟨by simp [takeRows, hlen, x1], fun i hi => ?_⟩
    obtain ⟨k, hk, rfl⟩ := inB_one hi
    have hidx : idxs.getD k 0 = stratum table (strataRow (jaxLeaves tx) k) := by
      rw [eI, List.getD_eq_getElem?_getD, List.getElem?_map, List.getElem?_map, List.getElem?_range hk]
      rfl
    have seen : strataRow (jaxLeaves tx) k ∈ table ↔ ∃ c < n, SameStratum flags Xc X c k := by
      rw [hmem, eC, List.mem_map]
      constructor
      · rintro ⟨c, hc', e⟩
        exact ⟨c, List.mem_range.1 hc', (hrow c k).1 e⟩
      · rintro ⟨c, hc', e⟩
        exact ⟨c, List.mem_range.2 hc', (hrow c k).2 e⟩
    have hle : stratum table (strataRow (jaxLeaves tx) k) < table.length + 1 := by
      by_cases hm : strataRow (jaxLeaves tx) k ∈ table
      · exact Nat.lt_succ_of_lt (stratum_of_mem hm).1
      · rw [stratum_of_not_mem hm]; exact Nat.lt_succ_self _
    simp only [takeRows, List.headD_cons, List.tail_cons, hidx]
    rw [x2 _ (inB_cons.2 ⟨hle, inB_cons.2 ⟨Nat.zero_lt_one, rfl, by simp⟩⟩)]
    simp only [List.headD_cons, shiftS]
    by_cases hex : ∃ c < n, SameStratum flags Xc X c k
    · have hmt := seen.2 hex
      refine (if_pos (stratum_of_mem hmt).1).trans ?_
      rw [if_pos hex]
      congr 2
      refine List.filter_congr fun c hc' => ?_
      have hc' := List.mem_range.1 hc'
      have es : strata.getD c table.length = stratum table (strataRow (jaxLeaves tc) c) := by
        rw [eS, eC, List.getD_eq_getElem?_getD, List.getElem?_map, List.getElem?_map, List.getElem?_range hc']
        rfl
      refine decide_eq_decide.2 ?_
      rw [es, ← hrow c k]
      refine ⟨fun e => stratum_inj (hmem.2 ?_) hmt e, fun e => by rw [e]⟩
      rw [eC]
      exact List.mem_map.2 ⟨c, List.mem_range.2 hc', rfl⟩
    · rw [stratum_of_not_mem fun hm => hex (seen.1 hm), if_neg hex]
      exact if_neg (lt_irrefl _)
  obtain ⟨c, c1, c2⟩ := bin_full (Loss.lift2 ((· + ·) : ℝ → ℝ → ℝ)) (b := N) (s := fun _ => [1]) ht hb
  refine ⟨_, c, hfit, ?_, c2⟩
  unfold applyStrata
  rw [t1]
  exact c1

/-- From corrected predictions to the interval. -/
theorem answer {S : Tree Unit} {Y c u e v : Arrs} {n m : Nat} {s : List ForwardSpec.Step → List Nat} {y vc w ve d : List ForwardSpec.Step → List Nat → Option ℝ}
    (hY : Holds S Y (fun p => n :: s p) y) (hc : Holds S c (fun p => n :: s p) vc) (hu : Holds S u (fun p => n :: s p) w)
    (he : Holds S e (fun p => m :: s p) ve) (hv : Holds S v (fun p => m :: s p) d) (hne : ∃ p x, At Y p x) {α : ℝ} (hα : 0 < α ∧ α < 1) :
    ∃ sc q st lo hi, scoresOf Y c u = .ok sc ∧ getQhat (fresh sc) [α] = .ok ([q], st) ∧ interval e v q = .ok (lo, hi) ∧
      Holds S lo (fun p => m :: s p) (fun p i => op2 (· - ·) (ve p i) (op2 (· * ·) (quantO ((List.range n).map fun k =>
        Loss.fdiv ((op2 (· - ·) (y p (k :: i.tail)) (vc p (k :: i.tail))).map fun x => |x|) (w p (k :: i.tail))) (⌈((n : ℝ) + 1) * (1 - α)⌉ / n)) (d p i))) ∧
      Holds S hi (fun p => m :: s p) (fun p i => op2 (· + ·) (ve p i) (op2 (· * ·) (quantO ((List.range n).map fun k =>
        Loss.fdiv ((op2 (· - ·) (y p (k :: i.tail)) (vc p (k :: i.tail))).map fun x => |x|) (w p (k :: i.tail))) (⌈((n : ℝ) + 1) * (1 - α)⌉ / n)) (d p i))) := by
  obtain ⟨r, d1, d2⟩ := bin_full (Loss.lift2 (· - ·)) hY hc
  have a2 : Holds S (TreeArith.abs r) (fun p => n :: s p) fun p i => (op2 (· - ·) (y p i) (vc p i)).map fun x => |x| :=
    map_holds _ d2 fun p x hx => ⟨(d2.arr p x hx).1, fun i hi => by
      show (x.val i).map _ = _
      rw [(d2.arr p x hx).2 i hi]
      rfl⟩
  obtain ⟨sc, s1, s2⟩ := bin_full (Loss.fdiv (𝕜 := ℝ)) a2 hu
  have hsc : scoresOf Y c u = .ok sc := by
    unfold scoresOf TreeArith.sub TreeArith.div
    rw [d1]
    exact s1
  have hn : samples sc = .ok n := by
    obtain ⟨p, x, hx⟩ := hne
    exact samples_holds s2 (by obtain ⟨x, hx⟩ := place hY.struct s2.struct hx; exact ⟨p, x, hx⟩)
  obtain ⟨st, g⟩ := getQhat_fresh hn (alphas := [α]) (by intro a ha; rw [List.mem_singleton] at ha; subst ha; exact hα)
  have q2 := quantLeaf_holds (level n α) s2
  obtain ⟨w', w1, w2⟩ := bin_left (Loss.lift2 (· * ·)) q2 hv
  obtain ⟨lo, l1, l2⟩ := bin_full (Loss.lift2 (· - ·)) he w2
  obtain ⟨hi, u1, u2⟩ := bin_full (Loss.lift2 (· + ·)) he w2
  refine ⟨sc, quantTree sc n α, st, lo, hi, hsc, g, ?_, l2.congr fun p i _ => rfl, u2.congr fun p i _ => rfl⟩
  unfold interval TreeArith.mul TreeArith.sub TreeArith.add
  have : TreeArith.bin (Loss.lift2 (· * ·)) (quantTree sc n α) v = .ok w' := w1
  simp only [this, l1, u1]

theorem any_iff {flags : Tree Bool} : (jaxLeaves flags).any id = true ↔ ∃ p, At flags p true := by
  rw [List.any_eq_true]
  constructor
  · rintro ⟨b, hb, e⟩
    have e : b = true := e
    subst e
    unfold jaxLeaves at hb
    obtain ⟨p, hp⟩ := mem_flat_at.1 hb
    exact ⟨p, at_norm.1 hp⟩
  · rintro ⟨p, hp⟩
    exact ⟨true, by unfold jaxLeaves; exact mem_flat_at.2 ⟨p, at_norm.2 hp⟩, rfl⟩

theorem shiftS_congr {n : Nat} {sel sel' : Nat → Prop} (h : ∀ c, sel c ↔ sel' c) (y z : Nat → Option ℝ) : shiftS n sel y z = shiftS n sel' y z := by
  rw [show sel = sel' from funext fun c => propext (h c)]

theorem shiftS_none {n : Nat} {sel : Nat → Prop} (h : ∀ c, ¬ sel c) (y z : Nat → Option ℝ) : shiftS n sel y z = some 0 := by
  unfold shiftS
  rw [if_neg]
  rintro ⟨c, -, hc⟩
  exact h c hc

/-- What calibrated wrappers with stratified corrections answer. -/
theorem whole_strata {flags : Tree Bool} {Xc X : Tree (NArr ℝ)} {n m : Nat} {Y Yp u Z v : Arrs} (h : Together n m Y Yp u Z v) (hY1 : ∀ p y, At Y p y → y.shape = [n, 1])
    (hXc : Stratifiable flags Xc n) (hX : Stratifiable flags X m) (hsh : ∀ p xc x, At Xc p xc → At X p x → x.shape.tail = xc.shape.tail) {α : ℝ} (hα : 0 < α ∧ α < 1) :
    ∃ c lo hi, calibrateStrata flags Xc Y Yp u = .ok c ∧ predictStrata flags c X Z v α = .ok (lo, hi) ∧ ∃ S,
      (∀ f : ℝ → ℝ → ℝ, ∀ b : Arrs, (f = (· - ·) ∧ b = lo ∨ f = (· + ·) ∧ b = hi) → Holds S b (fun _ => [m, 1]) fun p i =>
        boundS f n (fun c k => (∃ q, At flags q true) ∧ SameStratum flags Xc Xc c k) (fun c => (∃ q, At flags q true) ∧ SameStratum flags Xc X c (i.headD 0))
          (fun k => valOf Y p [k, 0]) (fun k => valOf Yp p [k, 0]) (fun k => valOf u p [k, 0]) α (valOf Z p i) (valOf v p i)) ∧
      Holds S Z (fun _ => [m, 1]) (valOf Z) ∧ S = map (fun _ => ()) Y.norm := by
  obtain ⟨kY, kYp, ku, kZ, kv⟩ := h.keys
  have cal : ∀ t ∈ [Yp, u], ∀ p x, At t p x → x.shape = [n, 1] := by
    intro t ht p x hx
    obtain ⟨y, hy⟩ := place (S := map (fun _ => ()) Y.norm) (h.struct t (by simp at ht ⊢; tauto)) rfl hx
    obtain ⟨s, e1, e2, -⟩ := h.shapes p y hy
    rw [e2 t ht x hx, ← e1, hY1 p y hy]
  have new : ∀ t ∈ [Z, v], ∀ p x, At t p x → x.shape = [m, 1] := by
    intro t ht p x hx
    obtain ⟨y, hy⟩ := place (S := map (fun _ => ()) Y.norm) (h.struct t (by simp at ht ⊢; tauto)) rfl hx
    obtain ⟨s, e1, -, e3⟩ := h.shapes p y hy
    have := hY1 p y hy
    rw [e1] at this
    rw [e3 t ht x hx, (List.cons.inj this).2]
  have hY := holds_of (sh := fun _ => [n, 1]) kY rfl hY1
  have hYp := holds_of (sh := fun _ => [n, 1]) kYp (h.struct Yp (by simp)) (cal Yp (by simp))
  have hu := holds_of (sh := fun _ => [n, 1]) ku (h.struct u (by simp)) (cal u (by simp))
  have hZ := holds_of (sh := fun _ => [m, 1]) kZ (h.struct Z (by simp)) (new Z (by simp))
  have hv := holds_of (sh := fun _ => [m, 1]) kv (h.struct v (by simp)) (new v (by simp))
  by_cases ha : ∃ q, At flags q true
  · obtain ⟨r, r1, r2⟩ := bin_full (Loss.lift2 (· - ·)) (b := n) (s := fun _ => [1]) hY hYp
    obtain ⟨st, c, c0, c1, c2⟩ := strata_holds hXc hXc (fun p xc x h1 h2 => by rw [at_unique hXc.keysX h1 h2]) r2 hYp
    obtain ⟨st', e, e0, e1, e2⟩ := strata_holds hXc hX hsh r2 hZ
    rw [c0] at e0
    cases e0
    obtain ⟨sc, q, st', lo, hi, g1, g2, g3, g4, g5⟩ := answer (s := fun _ => [1]) hY c2 hu e2 hv h.some hα
    refine ⟨(some st, fresh sc), lo, hi, ?_, ?_, _, ?_, hZ, rfl⟩
    · unfold calibrateStrata TreeArith.sub
      rw [if_pos (any_iff.2 ha), r1]
      simp only [c0, c1, g1]
      rfl
    · unfold predictStrata
      simp only [e1, g2, g3]
    · have key : ∀ (f : ℝ → ℝ → ℝ) (p : List ForwardSpec.Step) (i : List Nat), InB [m, 1] i →
          op2 f (op2 (· + ·) (valOf Z p i) (shiftS n (fun c => SameStratum flags Xc X c (i.headD 0)) (fun c => valOf Y p [c, 0]) fun c => valOf Yp p [c, 0]))
            (op2 (· * ·) (quantO ((List.range n).map fun k => Loss.fdiv ((op2 (· - ·) (valOf Y p (k :: i.tail)) (op2 (· + ·) (valOf Yp p (k :: i.tail))
              (shiftS n (fun c => SameStratum flags Xc Xc c ((k :: i.tail).headD 0)) (fun c => valOf Y p [c, 0]) fun c => valOf Yp p [c, 0]))).map fun x => |x|)
                (valOf u p (k :: i.tail))) (⌈((n : ℝ) + 1) * (1 - α)⌉ / n)) (valOf v p i)) =
          boundS f n (fun c k => (∃ q, At flags q true) ∧ SameStratum flags Xc Xc c k) (fun c => (∃ q, At flags q true) ∧ SameStratum flags Xc X c (i.headD 0))
            (fun k => valOf Y p [k, 0]) (fun k => valOf Yp p [k, 0]) (fun k => valOf u p [k, 0]) α (valOf Z p i) (valOf v p i) := by
        intro f p i hi
        obtain ⟨k, -, rfl⟩ := inB_one hi
        unfold boundS widthS scoreS
        simp only [List.headD_cons, List.tail_cons, ha, true_and]
      rintro f b (⟨rfl, rfl⟩ | ⟨rfl, rfl⟩)
      · exact g4.congr fun p i hi => key _ p i hi
      · exact g5.congr fun p i hi => key _ p i hi
  · obtain ⟨sc, q, st', lo, hi, g1, g2, g3, g4, g5⟩ := answer (s := fun _ => [1]) hY hYp hu hZ hv h.some hα
    have hf : ¬ (jaxLeaves flags).any id = true := fun h => ha (any_iff.1 h)
    refine ⟨(Option.none, fresh sc), lo, hi, ?_, ?_, _, ?_, hZ, rfl⟩
    · unfold calibrateStrata
      rw [if_neg hf, g1]
      rfl
    · unfold predictStrata
      simp only [if_neg hf, g2, g3]
    · have key : ∀ (f : ℝ → ℝ → ℝ) (p : List ForwardSpec.Step) (i : List Nat), InB [m, 1] i →
          op2 f (valOf Z p i) (op2 (· * ·) (quantO ((List.range n).map fun k => Loss.fdiv ((op2 (· - ·) (valOf Y p (k :: i.tail)) (valOf Yp p (k :: i.tail))).map fun x => |x|)
                (valOf u p (k :: i.tail))) (⌈((n : ℝ) + 1) * (1 - α)⌉ / n)) (valOf v p i)) =
          boundS f n (fun c k => (∃ q, At flags q true) ∧ SameStratum flags Xc Xc c k) (fun c => (∃ q, At flags q true) ∧ SameStratum flags Xc X c (i.headD 0))
            (fun k => valOf Y p [k, 0]) (fun k => valOf Yp p [k, 0]) (fun k => valOf u p [k, 0]) α (valOf Z p i) (valOf v p i) := by
        intro f p i hi
        obtain ⟨k, -, rfl⟩ := inB_one hi
        unfold boundS widthS scoreS
        rw [shiftS_none fun c hc => ha hc.1]
        simp only [List.tail_cons, op2_zero]
        congr 4
        funext k
        rw [shiftS_none fun c hc => ha hc.1, op2_zero]
      rintro f b (⟨rfl, rfl⟩ | ⟨rfl, rfl⟩)
      · exact g4.congr fun p i hi => key _ p i hi
      · exact g5.congr fun p i hi => key _ p i hi

/-! ## Other units, another order -/

theorem perm_filter {n : Nat} {σ : Nat → Nat} (hσ : UnitsSpec.Rearranges n σ) (sel sel' : Nat → Bool) (F F' : Nat → Option ℝ) (g : Option ℝ → Option ℝ)
    (hs : ∀ k < n, sel' k = sel (σ k)) (h : ∀ k < n, F' k = g (F (σ k))) :
    (((List.range n).filter sel').map F').Perm ((((List.range n).filter sel).map F).map g) := by
  have e : ((List.range n).filter sel').map F' = (((((List.range n).map σ)).filter sel).map F).map g := by
    rw [List.filter_map, List.map_map, List.map_map, List.filter_congr (q := sel ∘ σ) fun k hk => hs k (List.mem_range.1 hk)]
    exact List.map_congr_left fun k hk => h k (List.mem_range.1 (List.mem_filter.1 hk).1)
  rw [e]
  exact (((Units.range_perm hσ).filter sel).map F).map g

section
variable {n : Nat} {σ : Nat → Nat} (hσ : UnitsSpec.Rearranges n σ) {a b c : ℝ} (ha : 0 < a) (hc : 0 < c) {y z w y' z' w' : Nat → Option ℝ}
  (hy : ∀ k < n, y' k = (y (σ k)).map fun v => a * v + b) (hz : ∀ k < n, z' k = (z (σ k)).map fun v => a * v + b)
  (hw : ∀ k < n, w' k = (w (σ k)).map fun v => c * v + 0)
include hσ ha hy hz

theorem shiftS_follows {sel sel' : Nat → Prop} (hs : ∀ k < n, sel' k ↔ sel (σ k)) : shiftS n sel' y' z' = (shiftS n sel y z).map fun v => a * v + 0 := by
  have hex : (∃ k < n, sel' k) ↔ ∃ k < n, sel k := by
    constructor
    · rintro ⟨k, hk, h⟩
      exact ⟨σ k, hσ.below k hk, (hs k hk).1 h⟩
    · rintro ⟨k, hk, h⟩
      obtain ⟨j, hj, rfl⟩ := List.mem_map.1 ((Units.range_perm hσ).mem_iff.2 (List.mem_range.2 hk))
      exact ⟨j, List.mem_range.1 hj, (hs j (List.mem_range.1 hj)).2 h⟩
  unfold shiftS
  by_cases h : ∃ k < n, sel k
  · rw [if_pos h, if_pos (hex.2 h)]
    refine quantO_follows ha _ (perm_filter hσ _ _ _ _ _ (fun k hk => decide_eq_decide.2 (hs k hk)) fun k hk => ?_)
    rw [hy k hk, hz k hk]
    cases y (σ k) <;> cases z (σ k) <;> simp [op2]
    ring
  · rw [if_neg h, if_neg fun h' => h (hex.1 h')]
    simp

include hc hw

theorem widthS_follows {R R' : Nat → Nat → Prop} (hR : ∀ k < n, ∀ j < n, R' k j ↔ R (σ k) (σ j)) (α : ℝ) :
    widthS n R' y' z' w' α = (widthS n R y z w α).map fun v => a / c * v + 0 := by
  unfold widthS
  refine quantO_follows (div_pos ha hc) _ (perm_range hσ _ _ _ fun k hk => ?_)
  unfold scoreS
  rw [shiftS_follows hσ ha hy hz (sel := fun c => R c (σ k)) (sel' := fun c => R' c k) fun j hj => hR j hj k hk, hy k hk, hz k hk, hw k hk]
  cases y (σ k) with
  | none => rfl
  | some p =>
    cases z (σ k) with
    | none => rfl
    | some q =>
      cases shiftS n (fun c => R c (σ k)) y z with
      | none => rfl
      | some t =>
        cases w (σ k) with
        | none => rfl
        | some x =>
          by_cases hx : x = 0
          · simp [op2, Loss.fdiv, hx]
          · have hcx : c * x ≠ 0 := mul_ne_zero hc.ne' hx
            simp only [op2, Loss.fdiv, Option.map_some, Option.bind_some, add_zero, if_neg hx, if_neg hcx]
            rw [show a * p + b - (a * q + b + a * t) = a * (p - (q + t)) by ring, abs_mul, abs_of_pos ha]
            congr 1
            field_simp

theorem boundS_follows (f : ℝ → ℝ → ℝ) (hf : ∀ x t, f (a * x + b) (a * t) = a * f x t + b) {R R' : Nat → Nat → Prop} (hR : ∀ k < n, ∀ j < n, R' k j ↔ R (σ k) (σ j))
    {sel sel' : Nat → Prop} (hs : ∀ k < n, sel' k ↔ sel (σ k)) (α : ℝ) (p q : Option ℝ) :
    boundS f n R' sel' y' z' w' α (p.map fun v => a * v + b) (q.map fun v => c * v + 0) = (boundS f n R sel y z w α p q).map fun v => a * v + b := by
  unfold boundS
  rw [shiftS_follows hσ ha hy hz hs, widthS_follows hσ ha hc hy hz hw hR α]
  cases p <;> cases shiftS n sel y z <;> cases widthS n R y z w α <;> cases q <;> try rfl
  rename_i p t x q
  simp only [op2, Option.map_some, Option.bind_some, add_zero]
  rw [show a * p + b + a * t = a * (p + t) + b by ring, show a / c * x * (c * q) = a * (x * q) by field_simp, hf]

end

end Verif.ConfUnits
