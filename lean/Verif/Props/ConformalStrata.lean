import Verif.Props.ConformalInterval
import Verif.Props.OneHot

/-!
# C53: stratified bias correction
-/

namespace Verif.Props
open Verif.Tree Verif.ForwardSpec Verif.NdSpec Verif.Conformal Verif.Quantile NArr

/-- `m` is the median of `l`: the average of the two middle numbers after sorting (the same number twice if their count is odd). -/
def IsMedian (l : List ℝ) (m : ℝ) : Prop :=
  ∃ s : List ℝ, s.Perm l ∧ s.Pairwise (· ≤ ·) ∧ ∃ a b, s[(s.length - 1) / 2]? = some a ∧ s[s.length / 2]? = some b ∧ m = (a + b) / 2

theorem quant_median {l : List ℝ} (h : l ≠ []) : ∃ m, quant l (1 / 2) = some m ∧ IsMedian l m := by
  have hn : 0 < l.length := List.length_pos_iff.2 h
  have hl : (l.insertionSort (· ≤ ·)).length = l.length := List.length_insertionSort _ _
  refine ⟨_, quant_eq h _, l.insertionSort (· ≤ ·), List.perm_insertionSort _ _, List.pairwise_insertionSort _ _, ?_⟩
  have key : ∀ k : Nat, k < l.length → (l.insertionSort (· ≤ ·))[k]? = some (seq l k) := by
    intro k hk
    unfold seq
    rw [clamp_of (by omega) (by omega), Int.toNat_natCast, List.getD_eq_getElem?_getD, List.getElem?_eq_getElem (by omega)]
    rfl
  refine ⟨seq l ((l.length - 1) / 2 : ℕ), seq l (l.length / 2 : ℕ), by rw [hl]; exact key _ (by omega), by rw [hl]; exact key _ (by omega), ?_⟩
  obtain ⟨k, e | e⟩ : ∃ k, l.length = 2 * k + 1 ∨ l.length = 2 * k + 2 := ⟨(l.length - 1) / 2, by omega⟩
  · rw [e, show (2 * k + 1 - 1) / 2 = k by omega, show (2 * k + 1) / 2 = k by omega]
    have : (1 / 2 : ℝ) * (((2 * k + 1 : ℕ) : ℝ) - 1) = ((k : ℤ) : ℝ) := by push_cast; ring
    rw [this]
    unfold interp
    rw [Int.floor_intCast, Int.fract_intCast]
    ring
  · rw [e, show (2 * k + 2 - 1) / 2 = k by omega, show (2 * k + 2) / 2 = k + 1 by omega]
    have e1 : (1 / 2 : ℝ) * (((2 * k + 2 : ℕ) : ℝ) - 1) = (k : ℤ) + 1 / 2 := by push_cast; ring
    have e2 : ⌊(((k : ℤ) : ℝ) + 1 / 2)⌋ = k := by
      rw [Int.floor_intCast_add]
      norm_num
    rw [e1]
    unfold interp
    rw [Int.fract, e2]
    push_cast
    ring

theorem flatMap_eq_iff {α β γ : Type} {f : α → List γ} {g : β → List γ} {l : List α} {m : List β} (h : List.Forall₂ (fun a b => (f a).length = (g b).length) l m) :
    l.flatMap f = m.flatMap g ↔ List.Forall₂ (fun a b => f a = g b) l m := by
  induction h with
  | nil => simp
  | cons hab _ ih =>
    rw [List.flatMap_cons, List.flatMap_cons, List.forall₂_cons, ← ih]
    exact ⟨fun e => List.append_inj e hab, fun e => by rw [e.1, e.2]⟩

theorem forall₂_mem {α β : Type} {R : α → β → Prop} {l : List α} {m : List β} (h : List.Forall₂ R l m) :
    List.Forall₂ (fun a b => R a b ∧ a ∈ l ∧ b ∈ m) l m := by
  induction h with
  | nil => exact .nil
  | cons hab _ ih =>
    refine .cons ⟨hab, by simp, by simp⟩ (ih.imp fun a b h => ⟨h.1, List.mem_cons_of_mem _ h.2.1, List.mem_cons_of_mem _ h.2.2⟩)

theorem forall₂_fst {α β γ : Type} : ∀ {l : List (α × β)} {m : List (α × γ)}, l.map Prod.fst = m.map Prod.fst → List.Forall₂ (fun a b => a.1 = b.1) l m
  | [], [], _ => .nil
  | [], _ :: _, h => by simp at h
  | _ :: _, [], h => by simp at h
  | _ :: _, _ :: _, h => by
    simp only [List.map_cons, List.cons.injEq] at h
    exact .cons h.1 (forall₂_fst h.2)

/-- Stratification data: one flag per array, all arrays have `n` samples, and there is at least one array. -/
structure Stratifiable (flags : Tree Bool) (X : Tree (NArr ℝ)) (n : Nat) : Prop where
  keysF : KeysOk flags
  keysX : KeysOk X
  struct : map (fun _ => ()) X.norm = map (fun _ => ()) flags.norm
  count : ∀ p x, At X p x → ∃ s, x.shape = n :: s
  nonempty : ∃ p x, At X p x

/-- Sample `c` of `Xc` and sample `k` of `X` have the same values in all flagged arrays. -/
def SameStratum (flags : Tree Bool) (Xc X : Tree (NArr ℝ)) (c k : Nat) : Prop :=
  ∀ p xc x, At flags p true → At Xc p xc → At X p x → ∀ i, InB xc.shape.tail i → xc.val (c :: i) = x.val (k :: i)

theorem strataRows_spec {flags : Tree Bool} {X : Tree (NArr ℝ)} {n : Nat} (h : Stratifiable flags X n) :
    ∃ t, strataRows flags X = .ok ((List.range n).map (strataRow (jaxLeaves t))) ∧ map (fun _ => ()) t = map (fun _ => ()) X.norm ∧
      ∀ p x f, At X p x → At flags p f → At t p (x, f) := by
  obtain ⟨t, t1, t2, t3⟩ := jaxMap_two (F := flagLeaf) (R := fun _ (x : NArr ℝ) (f : Bool) (c : NArr ℝ × Bool) => c = (x, f)) h.keysF h.struct
    (fun a vs w hw => by
      unfold flagLeaf at hw
      split at hw
      · cases hw; exact ⟨_, rfl⟩
      · cases hw)
    (fun p a b _ _ => ⟨_, rfl, rfl⟩)
  have at_t : ∀ p c, At t p c → At X p c.1 := by
    intro p c hc
    obtain ⟨x, hx⟩ := Scalers.at_of_struct t2 hc
    have hx := at_norm.1 hx
    obtain ⟨f, hf⟩ := Scalers.at_of_struct h.struct (at_norm.2 hx)
    obtain ⟨c', hc', e⟩ := t3 p x f hx (at_norm.1 hf)
    have : KeysOk t := keysOk_of_struct t2 (keysOk_norm' h.keysX)
    rw [at_unique this hc hc', e]
    exact hx
  refine ⟨t, ?_, t2, fun p x f hx hf => by obtain ⟨c, hc, rfl⟩ := t3 p x f hx hf; exact hc⟩
  unfold strataRows
  rw [t1]
  simp only
  have hall : ∀ c ∈ jaxLeaves t, ∃ s, c.1.shape = n :: s := fun c hc => by
    obtain ⟨p, hp⟩ := mem_jaxLeaves.1 hc
    exact h.count p _ (at_t p c hp)
  cases hL : jaxLeaves t with
  | nil =>
    obtain ⟨p, x, hx⟩ := h.nonempty
    obtain ⟨f, hf⟩ := Scalers.at_of_struct h.struct (at_norm.2 hx)
    obtain ⟨c, hc, -⟩ := t3 p x f hx (at_norm.1 hf)
    have := mem_jaxLeaves.2 ⟨p, hc⟩
    rw [hL] at this
    cases this
  | cons a l =>
    rw [hL] at hall
    obtain ⟨s, hs⟩ := hall a (by simp)
    simp only
    rw [if_pos, hs, List.headD_cons]
    rw [List.all_eq_true]
    intro c hc
    obtain ⟨s', hs'⟩ := hall c hc
    rw [hs, hs']
    simp

theorem strataRow_eq {flags : Tree Bool} {Xc X : Tree (NArr ℝ)} {n N : Nat} (hc : Stratifiable flags Xc n) (h : Stratifiable flags X N)
    (hsh : ∀ p xc x, At Xc p xc → At X p x → x.shape.tail = xc.shape.tail) {tc t : Tree (NArr ℝ × Bool)} (sc : map (fun _ => ()) tc = map (fun _ => ()) Xc.norm)
    (s : map (fun _ => ()) t = map (fun _ => ()) X.norm) (ac : ∀ p x f, At Xc p x → At flags p f → At tc p (x, f))
    (a : ∀ p x f, At X p x → At flags p f → At t p (x, f)) (c k : Nat) :
    strataRow (jaxLeaves tc) c = strataRow (jaxLeaves t) k ↔ SameStratum flags Xc X c k := by
  have kc : KeysOk tc := keysOk_of_struct sc (keysOk_norm' hc.keysX)
  have kt : KeysOk t := keysOk_of_struct s (keysOk_norm' h.keysX)
  have hst : map (fun _ => ()) tc.norm = map (fun _ => ()) t.norm := by
    rw [← Tree.norm_map, ← Tree.norm_map, sc, s, hc.struct, h.struct]
  have he := sameStruct_entries tc.norm t.norm ((sameStruct_iff _ _).2 (by rw [hst]))
  have hF : List.Forall₂ (fun a b => a.1 = b.1) (entries tc.norm) (entries t.norm) := by
    exact forall₂_fst he
  have info : List.Forall₂ (fun a b => ∃ p xc x f, At Xc p xc ∧ At X p x ∧ At flags p f ∧ a = (p, (xc, f)) ∧ b = (p, (x, f))) (entries tc.norm) (entries t.norm) := by
    refine (forall₂_mem hF).imp fun u v huv => ?_
    obtain ⟨e, hu, hv⟩ := huv
    obtain ⟨p, cu⟩ := u
    obtain ⟨p', cv⟩ := v
    cases e
    have hu := at_norm.1 ((mem_entries _ _ _).1 hu)
    have hv := at_norm.1 ((mem_entries _ _ _).1 hv)
    obtain ⟨xc, hxc⟩ := Scalers.at_of_struct sc hu
    have hxc := at_norm.1 hxc
    obtain ⟨x, hx⟩ := Scalers.at_of_struct s hv
    have hx := at_norm.1 hx
    obtain ⟨f, hf⟩ := Scalers.at_of_struct h.struct (at_norm.2 hx)
    have hf := at_norm.1 hf
    exact ⟨p, xc, x, f, hxc, hx, hf, by rw [at_unique kc hu (ac p xc f hxc hf)], by rw [at_unique kt hv (a p x f hx hf)]⟩
  have lhs : ∀ (t : Tree (NArr ℝ × Bool)) (k : Nat), strataRow (jaxLeaves t) k = (entries t.norm).flatMap fun e => if e.2.2 then OneHot.row e.2.1 k else [] := by
    intro t k
    unfold strataRow
    have : jaxLeaves t = (entries t.norm).map Prod.snd := (entries_snd _).symm
    rw [this, List.flatMap_map]
  have hrow : ∀ xc x : NArr ℝ, x.shape.tail = xc.shape.tail → (OneHot.row xc c = OneHot.row x k ↔ ∀ i, InB xc.shape.tail i → xc.val (c :: i) = x.val (k :: i)) := by
    intro xc x e
    unfold OneHot.row
    rw [e, List.map_inj_left]
    exact forall_congr' fun i => by rw [mem_indices]
  rw [lhs, lhs, flatMap_eq_iff (info.imp fun u v huv => ?_)]
  · constructor
    · intro hR p xc x hf hxc hx
      have hm : (p, (xc, true)) ∈ entries tc.norm := (mem_entries _ _ _).2 (at_norm.2 (ac p xc true hxc hf))
      have hm' : (p, (x, true)) ∈ entries t.norm := (mem_entries _ _ _).2 (at_norm.2 (a p x true hx hf))
      have both : List.Forall₂ (fun (a b : List ForwardSpec.Step × (NArr ℝ × Bool)) => (if a.2.2 then OneHot.row a.2.1 c else []) = (if b.2.2 then OneHot.row b.2.1 k else []) ∧
          ∃ p xc x f, At Xc p xc ∧ At X p x ∧ At flags p f ∧ a = (p, (xc, f)) ∧ b = (p, (x, f))) (entries tc.norm) (entries t.norm) := by
        clear hm hm' he hF
        revert hR info
        generalize entries tc.norm = l
        generalize entries t.norm = m
        intro info hR
        induction info with
        | nil => exact .nil
        | cons hab _ ih => cases hR with
          | cons h1 h2 => exact .cons ⟨h1, hab⟩ (ih h2)
      obtain ⟨j, hj, ej⟩ := List.getElem_of_mem hm
      have hjl : j < (entries t.norm).length := by rw [← both.length_eq]; exact hj
      obtain ⟨e1, p', xc', x', f', a1, a2, a3, a4, a5⟩ := both.get hj hjl
      simp only [List.get_eq_getElem] at e1 a4 a5
      rw [ej] at a4 e1
      cases a4
      have hx' := at_unique h.keysX a2 hx
      subst hx'
      rw [a5] at e1
      simp only [if_true] at e1
      exact (hrow _ _ (hsh p xc x' hxc a2)).1 e1
    · intro hS
      refine info.imp fun u v huv => ?_
      obtain ⟨p, xc, x, f, a1, a2, a3, rfl, rfl⟩ := huv
      cases f
      · rfl
      · simp only [if_true]
        exact (hrow _ _ (hsh p xc x a1 a2)).2 (hS p xc x a3 a1 a2)
  · obtain ⟨p, xc, x, f, a1, a2, a3, rfl, rfl⟩ := huv
    cases f
    · rfl
    · simp only [if_true]
      unfold OneHot.row
      rw [List.length_map, List.length_map, hsh p xc x a1 a2]

theorem stratum_of_mem {table : List (List ℝ)} {r : List ℝ} (h : r ∈ table) : stratum table r < table.length ∧ table.getD (stratum table r) [] = r := by
  classical
  have h1 : stratum table r < table.length := List.findIdx_lt_length_of_exists ⟨r, h, by simp⟩
  refine ⟨h1, ?_⟩
  rw [List.getD_eq_getElem?_getD, List.getElem?_eq_getElem h1]
  unfold stratum at h1 ⊢
  have := List.findIdx_getElem (w := h1)
  simpa using this

theorem stratum_of_not_mem {table : List (List ℝ)} {r : List ℝ} (h : r ∉ table) : stratum table r = table.length := by
  classical
  exact List.findIdx_eq_length_of_false fun v hv => by
    simp only [decide_eq_false_iff_not]
    rintro rfl
    exact h hv

theorem stratum_inj {table : List (List ℝ)} {r r' : List ℝ} (h : r ∈ table) (h' : r' ∈ table) (e : stratum table r = stratum table r') : r = r' := by
  rw [← (stratum_of_mem h).2, ← (stratum_of_mem h').2, e]

open scoped Classical in
/-- **C53 (stratified correction).** `Xc` and `residuals` are the calibration data and their residuals, `X` the data to predict and `Y` the predictions; outputs have
sample shape `(1,)`. Calibration and correction succeed and keep the structure of the predictions. If some calibration sample has the flagged features of sample `k`, its
prediction is shifted by the median of the residuals of exactly those calibration samples; otherwise it is unchanged. -/
theorem C53_correction_partial (flags : Tree Bool) (Xc X : Tree (NArr ℝ)) (residuals Y : Arrs) (n N : Nat) (hc : Stratifiable flags Xc n) (h : Stratifiable flags X N)
    (hsh : ∀ p xc x, At Xc p xc → At X p x → x.shape.tail = xc.shape.tail) (hkr : KeysOk residuals) (hkY : KeysOk Y)
    (hs : map (fun _ => ()) Y.norm = map (fun _ => ()) residuals.norm) (hr : ∀ p r, At residuals p r → r.shape = [n, 1]) (hY : ∀ p y, At Y p y → y.shape = [N, 1]) :
    ∃ st Y', fitStrata flags Xc residuals = .ok st ∧ applyStrata flags st X Y = .ok Y' ∧ map (fun _ => ()) Y' = map (fun _ => ()) Y.norm ∧
      ∀ p r y, At residuals p r → At Y p y → ∃ y', At Y' p y' ∧ y'.shape = [N, 1] ∧ ∀ ρ : Nat → ℝ, (∀ c < n, r.val [c, 0] = some (ρ c)) →
        ∀ k < N, ∀ v, y.val [k, 0] = some v →
          ((∃ c < n, SameStratum flags Xc X c k) →
            ∃ m, IsMedian (((List.range n).filter fun c => decide (SameStratum flags Xc X c k)).map ρ) m ∧ y'.val [k, 0] = some (v + m)) ∧
          ((¬∃ c < n, SameStratum flags Xc X c k) → y'.val [k, 0] = some v) := by
  obtain ⟨tc, tc1, tc2, tc3⟩ := strataRows_spec hc
  obtain ⟨t, t1, t2, t3⟩ := strataRows_spec h
  have hrow := strataRow_eq hc h hsh tc2 t2 tc3 t3
  set rowsC := (List.range n).map (strataRow (jaxLeaves tc)) with eC
  set table := OneHot.uniq rowsC with eT
  have hmem : ∀ {r}, r ∈ table ↔ r ∈ rowsC := OneHot.mem_uniq
  set strata := rowsC.map (stratum table) with eS
  set g : NArr (Option ℝ) → NArr (Option ℝ) := fun y => ⟨[table.length + 1, 1], fun i =>
      if i.headD 0 < table.length then medianOf y ((List.range n).filter fun k => decide (strata.getD k table.length = i.headD 0)) i.tail else some 0⟩ with eg
  have hfit : fitStrata flags Xc residuals = .ok ⟨table, map g residuals.norm⟩ := by
    unfold fitStrata
    rw [tc1]
    simp only [← eT, ← eS]
    rw [mapM_leaf _ g residuals.norm]
    intro r hr'
    obtain ⟨p, hp⟩ := mem_flat_at.1 hr'
    have e := hr p r (at_norm.1 hp)
    simp only [strataBias, e, eg]
  set idxs := ((List.range N).map (strataRow (jaxLeaves t))).map (stratum table) with eI
  have hlen : idxs.length = N := by simp [eI]
  have kb : KeysOk (map (takeRows idxs) (map g residuals.norm).norm) := (keysOk_map _ _).2 (keysOk_norm' ((keysOk_map _ _).2 (keysOk_norm' hkr)))
  have hsb : map (fun _ => ()) Y.norm = map (fun _ => ()) (map (takeRows idxs) (map g residuals.norm).norm).norm := by
    rw [hs, Tree.norm_map, Tree.norm_map, Tree.norm_map, norm_norm (keysOk_norm' hkr), norm_norm hkr, map_map, map_map]
  have at_b : ∀ p b, At (map (takeRows idxs) (map g residuals.norm).norm) p b → ∃ r, At residuals p r ∧ b = takeRows idxs (g r) := by
    intro p b hb
    obtain ⟨b1, h1, rfl⟩ := at_map.1 hb
    obtain ⟨r, h2, rfl⟩ := at_map.1 (at_norm.1 h1)
    exact ⟨r, at_norm.1 h2, rfl⟩
  have hbop : ∀ p y b, At Y p y → At (map (takeRows idxs) (map g residuals.norm).norm) p b →
      ∃ z, bop (Loss.lift2 ((· + ·) : ℝ → ℝ → ℝ)) y b = .ok z ∧ z.shape = [N, 1] ∧ ∀ k < N, z.val [k, 0] = Loss.lift2 ((· + ·) : ℝ → ℝ → ℝ) (y.val [k, 0]) (b.val [k, 0]) := by
    intro p y b hy hb
    obtain ⟨r, -, rfl⟩ := at_b p b hb
    have e1 := hY p y hy
    have e2 : (takeRows idxs (g r)).shape = [N, 1] := by simp [takeRows, hlen, eg]
    obtain ⟨z, z1, z2, z3⟩ := bop_rows (Loss.lift2 ((· + ·) : ℝ → ℝ → ℝ)) y (takeRows idxs (g r)) (.inl e1) (.inl e2) (.inl e1)
    refine ⟨z, z1, z2, fun k hk => ?_⟩
    rw [z3 k [0] (inB_cons.2 ⟨hk, inB_cons.2 ⟨Nat.zero_lt_one, rfl, by simp⟩⟩)]
    unfold entryAt
    rw [e1, e2, if_neg (by simp), if_neg (by simp)]
  obtain ⟨Y', y1, y2, y3⟩ := bin_total (Loss.lift2 ((· + ·) : ℝ → ℝ → ℝ)) kb hsb (fun p y b hy hb => by
    obtain ⟨z, hz, -⟩ := hbop p y b hy hb
    exact ⟨z, hz⟩)
  refine ⟨_, Y', hfit, ?_, y2, ?_⟩
  · unfold applyStrata
    rw [t1]
    exact y1
  intro p r y hr' hy
  have hb : At (map (takeRows idxs) (map g residuals.norm).norm) p (takeRows idxs (g r)) :=
    at_map.2 ⟨_, at_norm.2 (at_map.2 ⟨_, at_norm.2 hr', rfl⟩), rfl⟩
  obtain ⟨z, hz, hz'⟩ := y3 p y _ hy hb
  obtain ⟨z2, e1, e2, e3⟩ := hbop p y _ hy hb
  rw [hz'] at e1
  cases e1
  refine ⟨z, hz, e2, fun ρ hρ k hk v hv => ?_⟩
  have hidx : idxs.getD k 0 = stratum table (strataRow (jaxLeaves t) k) := by
    rw [eI, List.getD_eq_getElem?_getD, List.getElem?_map, List.getElem?_map, List.getElem?_range hk]
    rfl
  have hb' : (takeRows idxs (g r)).val [k, 0] = if stratum table (strataRow (jaxLeaves t) k) < table.length then
      medianOf r ((List.range n).filter fun c => decide (strata.getD c table.length = stratum table (strataRow (jaxLeaves t) k))) [0] else some 0 := by
    simp only [takeRows, eg, List.headD_cons, List.tail_cons, hidx]
  have seen : strataRow (jaxLeaves t) k ∈ table ↔ ∃ c < n, SameStratum flags Xc X c k := by
    rw [hmem, eC, List.mem_map]
    constructor
    · rintro ⟨c, hc', e⟩
      exact ⟨c, List.mem_range.1 hc', (hrow c k).1 e⟩
    · rintro ⟨c, hc', e⟩
      exact ⟨c, List.mem_range.2 hc', (hrow c k).2 e⟩
  rw [e3 k hk, hv, hb']
  constructor
  · intro hex
    have hmt := seen.2 hex
    rw [if_pos (stratum_of_mem hmt).1]
    have hfil : ((List.range n).filter fun c => decide (strata.getD c table.length = stratum table (strataRow (jaxLeaves t) k))) =
        (List.range n).filter fun c => decide (SameStratum flags Xc X c k) := by
      refine List.filter_congr fun c hc' => ?_
      have hc' := List.mem_range.1 hc'
      have es : strata.getD c table.length = stratum table (strataRow (jaxLeaves tc) c) := by
        rw [eS, eC, List.getD_eq_getElem?_getD, List.getElem?_map, List.getElem?_map, List.getElem?_range hc']
        rfl
      rw [es, decide_eq_decide, ← hrow c k]
      refine ⟨fun e => stratum_inj (hmem.2 ?_) hmt e, fun e => by rw [e]⟩
      rw [eC]
      exact List.mem_map.2 ⟨c, List.mem_range.2 hc', rfl⟩
    rw [hfil]
    obtain ⟨c, hc', hcs⟩ := hex
    obtain ⟨m, m1, m2⟩ := quant_median (l := ((List.range n).filter fun c => decide (SameStratum flags Xc X c k)).map ρ) (by
      intro e
      rw [List.map_eq_nil_iff] at e
      have : c ∈ (List.range n).filter fun c => decide (SameStratum flags Xc X c k) := List.mem_filter.2 ⟨List.mem_range.2 hc', by simpa using hcs⟩
      rw [e] at this
      cases this)
    refine ⟨m, m2, ?_⟩
    have : medianOf r ((List.range n).filter fun c => decide (SameStratum flags Xc X c k)) [0] = some m := by
      unfold medianOf
      rw [← m1, ← quantO_some, List.map_map]
      congr 1
      refine List.map_congr_left fun c hc' => ?_
      exact hρ c (List.mem_range.1 (List.mem_filter.1 hc').1)
    rw [this]
    rfl
  · intro hex
    rw [stratum_of_not_mem fun hm => hex (seen.1 hm), if_neg (lt_irrefl _)]
    simp [Loss.lift2]

/-- Calibration data with the features 0, 0, 1 and data with the features 0 and 5. -/
def demoStrata (vals : List ℝ) : Tree (NArr ℝ) := .leaf ⟨[vals.length, 1], fun i => vals.getD (i.headD 0) 0⟩

theorem demoStrata_ok (vals : List ℝ) : Stratifiable (.leaf true) (demoStrata vals) vals.length :=
  ⟨by simp [KeysOk], by simp [KeysOk, demoStrata], rfl, fun p x hx => by cases hx; exact ⟨[1], rfl⟩, ⟨[], _, .leaf _⟩⟩

/-- The data meet the hypotheses; sample 0 has a known stratum, sample 1 has not. -/
example : Stratifiable (.leaf true) (demoStrata [0, 0, 1]) 3 ∧ Stratifiable (.leaf true) (demoStrata [0, 5]) 2 ∧
    (∃ c < 3, SameStratum (.leaf true) (demoStrata [0, 0, 1]) (demoStrata [0, 5]) c 0) ∧
    ¬∃ c < 3, SameStratum (.leaf true) (demoStrata [0, 0, 1]) (demoStrata [0, 5]) c 1 := by
  refine ⟨demoStrata_ok [0, 0, 1], demoStrata_ok [0, 5], ⟨0, by omega, fun p xc x hf hxc hx i _ => by cases hxc; cases hx; rfl⟩, ?_⟩
  rintro ⟨c, hc, h⟩
  have := h [] _ _ (.leaf _) (.leaf _) (.leaf _) [0] (inB_cons.2 ⟨Nat.zero_lt_one, rfl, by simp⟩)
  obtain rfl | rfl | rfl : c = 0 ∨ c = 1 ∨ c = 2 := by omega
  all_goals norm_num at this

/-- **C53 (defect).** If an output does not have sample shape `(1,)`, stratified calibration with at least one sample fails. -/
theorem C53_shape_refuted (flags : Tree Bool) (Xc : Tree (NArr ℝ)) (residuals : Arrs) (n : Nat) (hc : Stratifiable flags Xc n) (hn : 0 < n)
    (hr : ∃ p r, At residuals p r ∧ ∀ m, r.shape ≠ [m, 1]) : ∃ e, fitStrata flags Xc residuals = .error e := by
  obtain ⟨tc, tc1, -, -⟩ := strataRows_spec hc
  unfold fitStrata
  rw [tc1]
  simp only
  generalize e : mapM _ residuals.norm = o
  cases o with
  | error e' => exact ⟨e', rfl⟩
  | ok b =>
    exfalso
    obtain ⟨p, r, hp, hsh⟩ := hr
    obtain ⟨w, hw, -⟩ := mapM_at e (at_norm.2 hp)
    have hm : (OneHot.uniq ((List.range n).map (strataRow (jaxLeaves tc)))).length ≠ 0 := by
      intro h0
      have : strataRow (jaxLeaves tc) 0 ∈ OneHot.uniq ((List.range n).map (strataRow (jaxLeaves tc))) :=
        OneHot.mem_uniq.2 (List.mem_map.2 ⟨0, List.mem_range.2 hn, rfl⟩)
      rw [List.length_eq_zero_iff.1 h0] at this
      cases this
    have : ∀ strata, strataBias strata (OneHot.uniq ((List.range n).map (strataRow (jaxLeaves tc)))).length r = .error .valueError := by
      intro strata
      unfold strataBias
      split
      · rename_i m h
        exact absurd h (hsh m)
      · rw [if_neg hm]
    rw [this] at hw
    cases hw

/-- The hypotheses hold for an output with two entries per sample. -/
example : ∃ e, fitStrata (.leaf true) (demoStrata [0, 0, 1]) (.leaf ⟨[3, 2], fun _ => some 0⟩) = .error e :=
  C53_shape_refuted _ _ _ 3 (demoStrata_ok [0, 0, 1]) (by omega) ⟨[], _, .leaf _, by simp⟩

end Verif.Props
