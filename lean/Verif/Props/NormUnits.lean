import Verif.Props.Sensitivity
import Verif.Lemmas.Units

/-! # C140: the units of the outputs and the normalised sensitivities -/

namespace Verif.Props
open Verif.Tree Verif.NdSpec Verif.Conformal Verif.Quantile Verif.Norm Verif.Sens Verif.SensSpec NArr
open Verif.ForwardSpec (At KeysOk)

/-! ### The statistics in other units -/

theorem median_units {a : ℝ} (ha : 0 < a) (b : ℝ) (l : List ℝ) : median (l.map fun v => a * v + b) = (median l).map fun v => a * v + b :=
  Units.quant_follows a b ha _ l _ (List.Perm.refl _)

theorem abs_units {a : ℝ} (ha : 0 < a) (b x m : ℝ) : |a * x + b - (a * m + b)| = a * |x - m| + 0 := by
  have : a * x + b - (a * m + b) = a * (x - m) := by ring
  rw [this, abs_mul, abs_of_pos ha, add_zero]

theorem mad_units {a : ℝ} (ha : 0 < a) (b : ℝ) (l : List ℝ) : mad (l.map fun v => a * v + b) = (mad l).map fun v => a * v := by
  unfold mad
  rw [median_units ha b]
  cases h : median l with
  | none => rfl
  | some m =>
    rw [Option.map_some, Option.bind_some, Option.bind_some]
    have e : ((l.map fun v => a * v + b).map fun x => |x - (a * m + b)|) = (l.map fun x => |x - m|).map fun v => a * v + 0 := by
      rw [List.map_map, List.map_map]
      exact List.map_congr_left fun x _ => abs_units ha b x m
    rw [e, median_units ha 0]
    simp

theorem spread_units (lo hi : ℝ) {a : ℝ} (ha : 0 < a) (b : ℝ) (l : List ℝ) : spread lo hi (l.map fun v => a * v + b) = (spread lo hi l).map fun v => a * v := by
  unfold spread
  rw [Units.quant_follows a b ha lo l _ (List.Perm.refl _), Units.quant_follows a b ha hi l _ (List.Perm.refl _)]
  cases quant l lo with
  | none => rfl
  | some x =>
    cases quant l hi with
    | none => rfl
    | some y =>
      simp only [Option.map_some, Option.bind_some]
      congr 1
      ring

theorem ptp_units {a : ℝ} (ha : 0 < a) (b : ℝ) (l : List ℝ) : ptp (l.map fun v => a * v + b) = (ptp l).map fun v => a * v := by
  have hmax : ∀ (l : List ℝ) (x : ℝ), (l.map fun v => a * v + b).foldl max (a * x + b) = a * l.foldl max x + b := by
    intro l
    induction l with
    | nil => intro x; rfl
    | cons y l ih =>
      intro x
      rw [List.map_cons, List.foldl_cons, List.foldl_cons, ← ih, max_add_add_right, ← mul_max_of_nonneg _ _ ha.le]
  have hmin : ∀ (l : List ℝ) (x : ℝ), (l.map fun v => a * v + b).foldl min (a * x + b) = a * l.foldl min x + b := by
    intro l
    induction l with
    | nil => intro x; rfl
    | cons y l ih =>
      intro x
      rw [List.map_cons, List.foldl_cons, List.foldl_cons, ← ih, min_add_add_right, ← mul_min_of_nonneg _ _ ha.le]
  cases l with
  | nil => rfl
  | cons x l =>
    rw [List.map_cons]
    show some (List.foldl max _ _ - List.foldl min _ _) = some (a * (List.foldl max x l - List.foldl min x l))
    rw [hmax, hmin]
    congr 1
    ring

/-- The samples `y` are the samples `x` in other units: each component multiplied by a positive number, and shifted. -/
def InUnits (a b : List Nat → ℝ) (n : Nat) (s : List Nat) (x y : NArr ℝ) : Prop :=
  x.shape = n :: s ∧ y.shape = n :: s ∧ ∀ i, InB s i → 0 < a i ∧ ∀ k < n, y.val (k :: i) = a i * x.val (k :: i) + b i

theorem component_units {a b : List Nat → ℝ} {n : Nat} {s : List Nat} {x y : NArr ℝ} (h : InUnits a b n s x y) {i : List Nat} (hi : InB s i) :
    component y n i = (component x n i).map fun v => a i * v + b i := by
  unfold component
  rw [List.map_map]
  exact List.map_congr_left fun k hk => (h.2.2 i hi).2 k (List.mem_range.1 hk)

/-- A number of the results in other units. -/
def _root_.Verif.Norm.Ext.times (a : ℝ) : Ext → Ext
  | .fin x => .fin (a * x)
  | .inf => .inf
  | .nan => .nan

theorem along_units {f : List ℝ → Option ℝ} (hf : ∀ (a : ℝ), 0 < a → ∀ (b : ℝ) (l : List ℝ), f (l.map fun v => a * v + b) = (f l).map fun v => a * v)
    {a b : List Nat → ℝ} {n : Nat} {s : List Nat} {x y : NArr ℝ} (h : InUnits a b n s x y) :
    (along f x).shape = s ∧ (along f y).shape = s ∧ ∀ i, InB s i → (along f y).val i = ((along f x).val i).map fun v => a i * v := by
  refine ⟨by simp [along, h.1], by simp [along, h.2.1], fun i hi => ?_⟩
  show f (column y i) = (f (column x i)).map _
  rw [column_component h.1, column_component h.2.1, component_units h hi, hf _ (h.2.2 i hi).1]

theorem anySmall_units {eps c : ℝ} (hc : 0 < c) {s : List Nat} {u v : NArr (Option ℝ)}
    (h : u.shape = s ∧ v.shape = s ∧ ∀ i, InB s i → v.val i = (u.val i).map fun x => c * x) : anySmall (c * eps) v = anySmall eps u := by
  obtain ⟨h1, h2, h3⟩ := h
  rw [Bool.eq_iff_iff, anySmall_iff, anySmall_iff, h1, h2]
  constructor
  · rintro ⟨i, x, hi, hx, hlt⟩
    rw [h3 i hi] at hx
    obtain ⟨z, hz, rfl⟩ := Option.map_eq_some_iff.1 hx
    exact ⟨i, z, hi, hz, lt_of_mul_lt_mul_left hlt hc.le⟩
  · rintro ⟨i, x, hi, hx, hlt⟩
    exact ⟨i, c * x, hi, by rw [h3 i hi, hx]; rfl, mul_lt_mul_of_pos_left hlt hc⟩

theorem chain_units {eps c : ℝ} (hc : 0 < c) {s : List Nat} {u1 u2 u3 u4 v1 v2 v3 v4 : NArr (Option ℝ)}
    (h1 : u1.shape = s ∧ v1.shape = s ∧ ∀ i, InB s i → v1.val i = (u1.val i).map fun x => c * x)
    (h2 : u2.shape = s ∧ v2.shape = s ∧ ∀ i, InB s i → v2.val i = (u2.val i).map fun x => c * x)
    (h3 : u3.shape = s ∧ v3.shape = s ∧ ∀ i, InB s i → v3.val i = (u3.val i).map fun x => c * x)
    (h4 : u4.shape = s ∧ v4.shape = s ∧ ∀ i, InB s i → v4.val i = (u4.val i).map fun x => c * x) (i : List Nat) (hi : InB s i) :
    (chain (c * eps) v1 v2 v3 v4).val i = ((chain eps u1 u2 u3 u4).val i).times c := by
  have step : ∀ {u v u' v' : NArr (Option ℝ)}, (u.shape = s ∧ v.shape = s ∧ ∀ i, InB s i → v.val i = (u.val i).map fun x => c * x) →
      (u'.shape = s ∧ v'.shape = s ∧ ∀ i, InB s i → v'.val i = (u'.val i).map fun x => c * x) →
      ((if anySmall eps u then u' else u).shape = s ∧ (if anySmall (c * eps) v then v' else v).shape = s ∧
        ∀ i, InB s i → (if anySmall (c * eps) v then v' else v).val i = ((if anySmall eps u then u' else u).val i).map fun x => c * x) := by
    intro u v u' v' hu hu'
    rw [anySmall_units hc hu]
    by_cases h : anySmall eps u = true
    · simpa only [if_pos h] using hu'
    · simpa only [if_neg h] using hu
  have last : ∀ {u v : NArr (Option ℝ)}, (u.shape = s ∧ v.shape = s ∧ ∀ i, InB s i → v.val i = (u.val i).map fun x => c * x) →
      (if anySmall (c * eps) v then (⟨v.shape, fun _ => .inf⟩ : NArr Ext) else ⟨v.shape, fun i => .ofOption (v.val i)⟩).val i =
        ((if anySmall eps u then (⟨u.shape, fun _ => .inf⟩ : NArr Ext) else ⟨u.shape, fun i => .ofOption (u.val i)⟩).val i).times c := by
    intro u v hu
    rw [anySmall_units hc hu]
    by_cases h : anySmall eps u = true
    · rw [if_pos h, if_pos h]
      rfl
    · rw [if_neg h, if_neg h]
      show Ext.ofOption (v.val i) = Ext.times c (Ext.ofOption (u.val i))
      rw [hu.2.2 i hi]
      cases u.val i <;> rfl
  exact last (step (step (step h1 h2) h3) h4)

/-- **C140 (one unit).** If all components are measured in a unit that makes their numbers `c` times as large, shifted by whatever constants, and the smallest spread that counts is
measured in this unit too, the normalisation is `c` times as large. -/
theorem C140_scale (eps c : ℝ) (b : List Nat → ℝ) (x y : NArr ℝ) (n : Nat) (s : List Nat) (h : InUnits (fun _ => c) b n s x y) (i : List Nat) (hi : InB s i) :
    (robust (c * eps) y).val i = ((robust eps x).val i).times c := by
  have hc : 0 < c := (h.2.2 i hi).1
  exact chain_units hc (along_units (fun a ha b l => mad_units ha b l) h) (along_units (fun a ha b l => spread_units _ _ ha b l) h)
    (along_units (fun a ha b l => spread_units _ _ ha b l) h) (along_units (fun a ha b l => ptp_units ha b l) h) i hi

example : InUnits (fun _ => 1000) (fun _ => 5) 3 [2] demoSpread ⟨[3, 2], fun i => 1000 * demoSpread.val i + 5⟩ :=
  ⟨rfl, rfl, fun i _ => ⟨by norm_num, fun k _ => rfl⟩⟩

/-- **C140 (shift).** Adding a number to each component of all samples does not change the normalisation. -/
theorem C140_shift (eps : ℝ) (b : List Nat → ℝ) (x y : NArr ℝ) (n : Nat) (s : List Nat) (hx : x.shape = n :: s) (hy : y.shape = n :: s)
    (h : ∀ i, InB s i → ∀ k < n, y.val (k :: i) = x.val (k :: i) + b i) (i : List Nat) (hi : InB s i) : (robust eps y).val i = (robust eps x).val i := by
  have := C140_scale eps 1 b x y n s ⟨hx, hy, fun i hi => ⟨one_pos, fun k hk => by rw [h i hi k hk, one_mul]⟩⟩ i hi
  rw [one_mul] at this
  rw [this]
  cases (robust eps x).val i <;> simp [Ext.times]

example : ∀ i, InB [2] i → ∀ k < 3, (⟨[3, 2], fun i => demoSpread.val i + i.getD 1 0⟩ : NArr ℝ).val (k :: i) = demoSpread.val (k :: i) + i.getD 0 0 :=
  fun i _ k _ => rfl

/-- **C140 (units of its own for each component).** As long as the median absolute deviations of all components count in the old units and in the new ones, every normalised
sensitivity is the same in both: the number and what it is divided by have changed by the same factor. -/
theorem C140_units (eps : ℝ) (heps : 0 < eps) (a b : List Nat → ℝ) (x y : NArr ℝ) (n : Nat) (s : List Nat) (h : InUnits a b n s x y) (m v : List Nat → ℝ)
    (hm : ∀ i, InB s i → quant ((List.range n).map fun k => x.val (k :: i)) (1 / 2) = some (m i))
    (hv : ∀ i, InB s i → quant ((List.range n).map fun k => |x.val (k :: i) - m i|) (1 / 2) = some (v i))
    (hold : ∀ i, InB s i → eps ≤ v i) (hnew : ∀ i, InB s i → eps ≤ a i * v i) (i : List Nat) (hi : InB s i) (z : ℝ) :
    Ext.divide (a i * z) ((robust eps y).val i) = Ext.divide z ((robust eps x).val i) ∧ Ext.divide z ((robust eps x).val i) = some (z / v i) := by
  have hx := C79_mad eps x n s h.1 m v hm hv hold i hi
  have hcol : ∀ i, InB s i → ((List.range n).map fun k => y.val (k :: i)) = ((List.range n).map fun k => x.val (k :: i)).map fun v => a i * v + b i :=
    fun i hi => component_units h hi
  have hy := C79_mad eps y n s h.2.1 (fun i => a i * m i + b i) (fun i => a i * v i)
    (fun i hi => by rw [hcol i hi, Units.quant_follows _ (b i) (h.2.2 i hi).1 _ _ _ (List.Perm.refl _), hm i hi]; rfl)
    (fun i hi => by
      have e : ((List.range n).map fun k => |y.val (k :: i) - (a i * m i + b i)|) =
          ((List.range n).map fun k => |x.val (k :: i) - m i|).map fun v => a i * v + 0 := by
        rw [List.map_map]
        refine List.map_congr_left fun k hk => ?_
        show _ = a i * |x.val (k :: i) - m i| + 0
        rw [(h.2.2 i hi).2 k (List.mem_range.1 hk)]
        exact abs_units (h.2.2 i hi).1 _ _ _
      rw [e, Units.quant_follows _ 0 (h.2.2 i hi).1 _ _ _ (List.Perm.refl _), hv i hi]
      simp)
    hnew i hi
  have ha := (h.2.2 i hi).1
  have hpos : 0 < v i := lt_of_lt_of_le heps (hold i hi)
  rw [hx, hy]
  have e1 : Ext.divide (a i * z) (.fin (a i * v i)) = some (a i * z / (a i * v i)) := if_neg (mul_pos ha hpos).ne'
  have e2 : Ext.divide z (.fin (v i)) = some (z / v i) := if_neg hpos.ne'
  exact ⟨by rw [e1, e2, mul_div_mul_left _ _ ha.ne'], e2⟩

/-- The component 0, 1, 2 has the median 1 and the median absolute deviation 1; in a unit a thousandth of the old one it is 0, 1000, 2000. -/
example : InUnits (fun _ => 1000) (fun _ => 0) 3 [] ⟨[3], fun i => (i.getD 0 0 : ℝ)⟩ ⟨[3], fun i => (1000 * i.getD 0 0 : ℝ)⟩ ∧
    quant ((List.range 3).map fun k => (⟨[3], fun i => (i.getD 0 0 : ℝ)⟩ : NArr ℝ).val (k :: [])) (1 / 2) = some 1 ∧
    quant ((List.range 3).map fun k => |(⟨[3], fun i => (i.getD 0 0 : ℝ)⟩ : NArr ℝ).val (k :: []) - 1|) (1 / 2) = some 1 ∧ (1e-12 : ℝ) ≤ 1 ∧ (1e-12 : ℝ) ≤ 1000 * 1 := by
  refine ⟨⟨rfl, rfl, fun i _ => ⟨by norm_num, fun k _ => by simp⟩⟩, ?_, ?_, by norm_num, by norm_num⟩
  · have : ((List.range 3).map fun k => (⟨[3], fun i => (i.getD 0 0 : ℝ)⟩ : NArr ℝ).val (k :: [])) = [0, 1, 2] := by simp [List.range_succ]
    rw [this]
    exact quant_three (by norm_num) (by norm_num)
  · have : ((List.range 3).map fun k => |(⟨[3], fun i => (i.getD 0 0 : ℝ)⟩ : NArr ℝ).val (k :: []) - 1|) = [1, 0, 1] := by norm_num [List.range_succ]
    rw [this, quant_perm (l' := [0, 1, 1]) (List.Perm.swap _ _ _)]
    exact quant_three (by norm_num) (by norm_num)

/-- **C140, any units (false).** The smallest spread that counts is a fixed number, so the units matter: whatever the sensitivities, in a unit that is large enough (their numbers
multiplied by any sufficiently small `c`) all of them are divided by infinity and vanish. -/
theorem C140_any_units_refuted (eps : ℝ) (heps : 0 < eps) (x : NArr ℝ) (n : Nat) (s : List Nat) (hx : x.shape = n :: s) (hn : 0 < n) (j : List Nat) (hj : InB s j) :
    ∃ C > 0, ∀ c, 0 < c → c < C → ∀ y, InUnits (fun _ => c) (fun _ => 0) n s x y → ∀ i, InB s i → ∀ z, Ext.divide z ((robust eps y).val i) = some 0 := by
  obtain ⟨w, lo, hi, -, rfl, hlo, hhi, hb⟩ := ptp_spec (component_ne (x := x) hn j)
  have h0 : 0 ≤ hi - lo := by linarith [(hb lo hlo).2]
  refine ⟨eps / (hi - lo + 1), div_pos heps (by linarith), fun c hc hlt y hy i hi' z => ?_⟩
  refine C79_constant_refuted eps y n s hy.2.1 hn j hj (fun k l hk hl => ?_) i hi' z
  have mem : ∀ k, k < n → x.val (k :: j) ∈ component x n j := fun k hk => List.mem_map.2 ⟨k, List.mem_range.2 hk, rfl⟩
  rw [(hy.2.2 j hj).2 k hk, (hy.2.2 j hj).2 l hl]
  have h1 := (hb _ (mem k hk)).2
  have h2 := (hb _ (mem l hl)).1
  have h3 : c * (hi - lo + 1) < eps := (lt_div_iff₀ (by linarith)).1 hlt
  have h4 : c * (x.val (k :: j) - x.val (l :: j)) ≤ c * (hi - lo) := mul_le_mul_of_nonneg_left (by linarith) hc.le
  nlinarith

example : (0 : ℝ) < 1e-12 ∧ demoSpread.shape = 3 :: [2] ∧ InB [2] [1] ∧
    InUnits (fun _ => 1e-15) (fun _ => 0) 3 [2] demoSpread ⟨[3, 2], fun i => 1e-15 * demoSpread.val i⟩ :=
  ⟨by norm_num, rfl, inB_cons.2 ⟨by norm_num, ⟨rfl, fun k d j h => by simp at h⟩⟩, rfl, rfl, fun i _ => ⟨by norm_num, fun k _ => by simp⟩⟩

/-! ### The sensitivities in other units -/

section
variable {𝕜 : Type} [RCLike 𝕜]

/-- The derivatives of outputs that are measured in another unit. -/
def gradTimes (c : 𝕜) (d : List Nat × Tree (NArr (Option 𝕜))) : List Nat × Tree (NArr (Option 𝕜)) :=
  (d.1, map (fun g => ⟨g.shape, fun i => (g.val i).map fun v => c * v⟩) d.2)

theorem squares_times (c : 𝕜) (g x : NArr (Option 𝕜)) (k : Nat) (o : List Nat) :
    squares ⟨g.shape, fun i => (g.val i).map fun v => c * v⟩ x k o = ‖c‖ ^ 2 * squares g x k o := by
  unfold squares
  rw [← List.sum_map_mul_left]
  congr 1
  refine List.map_congr_left fun j _ => ?_
  show ‖finite ((g.val (k :: (o ++ j))).map fun v => c * v) * _‖ ^ 2 = _
  have : finite ((g.val (k :: (o ++ j))).map fun v => c * v) = c * finite (g.val (k :: (o ++ j))) := by
    cases g.val (k :: (o ++ j)) <;> simp [finite]
  rw [this, mul_assoc, norm_mul, mul_pow]

theorem gradTimes_fits {β : Type} {shape : β → List Nat} {n : Nat} {c : 𝕜} {d : List Nat × Tree (NArr (Option 𝕜))} {xs : Tree β}
    (h : GradFits shape n d.1 d.2 xs) : GradFits shape n (gradTimes c d).1 (gradTimes c d).2 xs := by
  refine ⟨(keysOk_map _ _).2 h.keys, ?_, fun y hy => ?_⟩
  · show map _ (norm (map _ d.2)) = _
    rw [Tree.norm_map, map_map]
    exact h.struct
  · have hy : y ∈ (jaxLeaves (map (fun g : NArr (Option 𝕜) => (⟨g.shape, fun i => (g.val i).map fun v => c * v⟩ : NArr (Option 𝕜))) d.2)).zip (jaxLeaves xs) := hy
    rw [Matmul.jaxLeaves_map, ← List.map_id (jaxLeaves xs), List.zip_map] at hy
    obtain ⟨z, hz, rfl⟩ := List.mem_map.1 hy
    exact h.shapes z hz

/-- **C140 (sensitivities).** If the outputs are measured in another unit, so that all their derivatives are multiplied by `c`, every parameter sensitivity is multiplied by the square of
the size of `c`. -/
theorem C140_sensitivity (c : 𝕜) (T : Tree (List Nat × Tree (NArr (Option 𝕜)))) (hT : KeysOk T) (P : Tree (NArr (Option 𝕜) × Bool)) (hP : KeysOk P) (n : Nat)
    (s : List Nat) (hout : ∀ d ∈ flat T, d.1 = s) (hf : ∀ d ∈ flat T, GradFits (fun p : NArr (Option 𝕜) × Bool => p.1.shape) n d.1 d.2 P)
    (hsel : selectedSize P ≠ 0) :
    ∃ r r', parameterSensitivity (map Prod.fst T) (Tree.bind Prod.snd T) (map Prod.fst P) (map Prod.snd P) = .ok r ∧
      parameterSensitivity (map Prod.fst T) (Tree.bind (fun d => (gradTimes c d).2) T) (map Prod.fst P) (map Prod.snd P) = .ok r' ∧
      ∀ p d, At T p d → ∃ y y', At r p y ∧ At r' p y' ∧ y.shape = n :: s ∧ y'.shape = n :: s ∧
        ∀ k o, k < n → InB s o → y'.val (k :: o) = ‖c‖ ^ 2 * y.val (k :: o) := by
  obtain ⟨r, h1, -, h3⟩ := C80_parameters T hT P hP n s hout hf hsel
  obtain ⟨r', h1', -, h3'⟩ := C80_parameters (map (gradTimes c) T) ((keysOk_map _ _).2 hT) P hP n s
    (fun d hd => by rw [flat_map] at hd; obtain ⟨d', hd', rfl⟩ := List.mem_map.1 hd; exact hout d' hd')
    (fun d hd => by rw [flat_map] at hd; obtain ⟨d', hd', rfl⟩ := List.mem_map.1 hd; exact gradTimes_fits (hf d' hd')) hsel
  rw [map_map, Tree.bind_map] at h1'
  refine ⟨r, r', h1, h1', fun p d hd => ?_⟩
  obtain ⟨y, h4, h5, h6⟩ := h3 p d hd
  obtain ⟨y', h4', h5', h6'⟩ := h3' p (gradTimes c d) (at_map.2 ⟨d, hd, rfl⟩)
  refine ⟨y, y', h4, h4', h5, h5', fun k o hk ho => ?_⟩
  rw [h6 k o hk ho, h6' k o hk ho, mul_div_assoc']
  congr 1
  rw [← List.sum_map_mul_left]
  show (List.map _ ((jaxLeaves (map _ d.2)).zip (jaxLeaves P))).sum = _
  rw [Matmul.jaxLeaves_map]
  conv_lhs => rw [← List.map_id (jaxLeaves P)]
  rw [List.zip_map, List.map_map]
  congr 1
  refine List.map_congr_left fun z _ => ?_
  show (if z.2.2 then squares _ z.2.1 k o else 0) = _ * (if z.2.2 then squares z.1 z.2.1 k o else 0)
  split
  · exact squares_times c _ _ _ _
  · simp

end

example : KeysOk demoT ∧ (∀ d ∈ flat demoT, d.1 = [1]) ∧ (∀ d ∈ flat demoT, GradFits (fun p : NArr (Option ℝ) × Bool => p.1.shape) 2 d.1 d.2 demoP) ∧ selectedSize demoP ≠ 0 :=
  ⟨demo_keys, by simp [demoT, flat, flatD], demo_fits, by rw [demo_size]; decide⟩

end Verif.Props
