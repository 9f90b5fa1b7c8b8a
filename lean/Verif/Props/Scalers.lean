import Verif.Lemmas.Scalers
import Mathlib.Algebra.BigOperators.Group.Finset.Basic
import Mathlib.Algebra.BigOperators.Field
import Mathlib.Algebra.Order.BigOperators.Group.Finset
import Mathlib.Tactic.Linarith
import Mathlib.Tactic.FieldSimp
import Mathlib.Tactic.Ring

/-! # Properties of the scalers (C43-C45) -/

namespace Verif.Props
open Verif.Tree Verif.Scalers Verif.NdSpec Verif.ForwardSpec Verif.Loss Verif.NArr Verif.ScalerSpec
open Finset (range)

/-! ## C43: standard scaler -/

theorem sum_map_range (n : Nat) (c : Nat → ℝ) : ((List.range n).map c).sum = ∑ r ∈ range n, c r := by
  induction n with
  | zero => simp
  | succ n ih => rw [List.range_succ, List.map_append, List.sum_append, ih, Finset.sum_range_succ]; simp

/-- The mean of `n` values. -/
noncomputable def avg (n : Nat) (c : Nat → ℝ) : ℝ := (∑ r ∈ range n, c r) / n

theorem meanL_range {n : Nat} (hn : 0 < n) (c : Nat → ℝ) : meanL ((List.range n).map c) = some (avg n c) := by
  unfold meanL avg
  rw [if_neg (by simp; omega), sum_map_range]
  simp

theorem stdL_range {n : Nat} (hn : 0 < n) (c : Nat → ℝ) :
    stdL ((List.range n).map c) = some (Real.sqrt (avg n fun r => (c r - avg n c) ^ 2)) := by
  unfold stdL
  rw [meanL_range hn]
  simp only [Option.bind_some, List.map_map]
  have : ((fun x => (x - avg n c) ^ 2) ∘ c) = fun r => (c r - avg n c) ^ 2 := rfl
  rw [this, meanL_range hn, Option.map_some]

/-- A feature that is not constant has a positive spread. -/
theorem spread_pos {n : Nat} {c : Nat → ℝ} {a b : Nat} (ha : a < n) (hb : b < n) (hab : c a ≠ c b) :
    0 < avg n fun r => (c r - avg n c) ^ 2 := by
  unfold avg
  have hn : (0 : ℝ) < n := by exact_mod_cast (by omega : 0 < n)
  apply div_pos _ hn
  have h0 : ∀ r ∈ range n, 0 ≤ (c r - (∑ r ∈ range n, c r) / n) ^ 2 := fun r _ => sq_nonneg _
  rcases lt_or_eq_of_le (Finset.sum_nonneg h0) with h | h
  · exact h
  · exfalso
    have hz := (Finset.sum_eq_zero_iff_of_nonneg h0).1 h.symm
    have e1 := pow_eq_zero_iff (two_ne_zero) |>.1 (hz a (Finset.mem_range.2 ha))
    have e2 := pow_eq_zero_iff (two_ne_zero) |>.1 (hz b (Finset.mem_range.2 hb))
    exact hab (by linarith)

theorem std_stats {X : Tree RArr} {s : Std} (h : Std.fit X = .ok s) :
    dataOk X = true ∧ s.mean = some (map (stat0 meanL) X.norm) ∧ s.scale = some (map (stat0 stdL) X.norm) := by
  unfold Std.fit at h
  split at h
  · rename_i hd; cases h; exact ⟨hd, rfl, rfl⟩
  · cases h

theorem std_transform {X Y : Tree RArr} {s : Std} (h : s.transform X = .ok Y) :
    dataOk X = true ∧ ∃ m sc, s.mean = some m ∧ s.scale = some sc ∧ jaxMap stdFwd X [m, sc] = .ok Y := by
  unfold Std.transform at h
  split at h
  · rename_i hd
    split at h
    · rename_i m sc hm hs; exact ⟨hd, m, sc, hm, hs, h⟩
    · cases h
  · cases h

/-- Forward and back at one place, entry by entry. -/
def StdRel (x : RArr) (vs : List (Tree RArr)) (y z : RArr) : Prop :=
  ∃ m s, vs = [.leaf m, .leaf s] ∧ y.shape = x.shape ∧ z.shape = x.shape ∧
    (∀ i, InB x.shape i → y.val i = fdiv (lift2 (· - ·) (x.val i) (rd m i)) (rd s i)) ∧
    ∀ i, InB x.shape i → z.val i = lift2 (· + ·) (lift2 (· * ·) (y.val i) (rd s i)) (rd m i)

theorem std_rel (a : RArr) (vs : List (Tree RArr)) (w : Tree RArr) (h : stdFwd a vs = .ok w) :
    ∃ c, w = .leaf c ∧ c.shape = a.shape ∧ ∃ b, stdBwd c vs = .ok (.leaf b) ∧ StdRel a vs c b := by
  obtain ⟨m, s, z, rfl, rfl, hs, lm, ls, hv⟩ := stdFwd_ok h
  obtain ⟨b, hb, hbs, hbv⟩ := stdBwd_run (x := z) (m := m) (s := s) (by rw [hs]; exact lm) (by rw [hs]; exact ls)
  refine ⟨z, rfl, hs, b, hb, m, s, rfl, hs, by rw [hbs, hs], hv, fun i hi => hbv i (by rw [hs]; exact hi)⟩

theorem fdiv_some {x y : ℝ} (h : y ≠ 0) : fdiv (some x) (some y) = some (x / y) := by
  simp [fdiv, h]

theorem fdiv_zero (x : Option ℝ) : fdiv x (some 0) = Option.none := by
  cases x <;> simp [fdiv]

/-- Two statistics of the fitted data are what the parts at a place are. -/
theorem stats_at {X0 : Tree RArr} (h0 : KeysOk X0) {f g : RArr → RArr} {vs : List (Tree RArr)} {p : List Step} {x0 m s : RArr}
    (hx0 : At X0 p x0) (hvs : vs = [.leaf m, .leaf s])
    (hsub : ∀ (i : Nat) (u v : Tree RArr), [map f X0.norm, map g X0.norm][i]? = some u → vs[i]? = some v → Sub u p v) :
    m = f x0 ∧ s = g x0 := by
  subst hvs
  exact ⟨stat_unique h0 hx0 (hsub 0 _ _ rfl rfl), stat_unique h0 hx0 (hsub 1 _ _ rfl rfl)⟩

/-- **C43** `inverse_transform(transform(X)) = X` in every feature that was not constant when the scaler was fitted (to data `X0`,
possibly other data than `X`), for every tree, at every place. -/
theorem C43_inverse (X0 X Y : Tree RArr) (h0 : KeysOk X0) (hX : KeysOk X) (s : Std) (hfit : Std.fit X0 = .ok s)
    (ht : s.transform X = .ok Y) :
    ∃ X', s.inverse Y = .ok X' ∧ map (fun _ => ()) X' = map (fun _ => ()) X.norm ∧
      ∀ p x x0, At X p x → At X0 p x0 → x.shape.tail = x0.shape.tail → ∃ z, At X' p z ∧ z.shape = x.shape ∧
        ∀ r j n c, InB x.shape (r :: j) → Feature x0 j n c → (∃ a b, a < n ∧ b < n ∧ c a ≠ c b) →
          z.val (r :: j) = x.val (r :: j) := by
  obtain ⟨-, hm, hs⟩ := std_stats hfit
  obtain ⟨hd, m, sc, hm', hs', hj⟩ := std_transform ht
  rw [hm] at hm'; cases hm'
  rw [hs] at hs'; cases hs'
  obtain ⟨hshape, X', h1, h2, h3⟩ := back std_rel hX hj
  refine ⟨X', ?_, h2, fun p x x0 hx hx0 htail => ?_⟩
  · unfold Std.inverse
    rw [if_pos (dataOk_of_shapes hshape hd), hm, hs]
    exact h1
  · obtain ⟨vs, y, z, hy, hz, -, hsub, m, sc, hvs, sy, sz, vy, vz⟩ := h3 p x hx
    refine ⟨z, hz, sz, fun r j n c hi hf hab => ?_⟩
    obtain ⟨rfl, rfl⟩ := stats_at h0 hx0 hvs hsub
    obtain ⟨a, b, ha, hb, hab⟩ := hab
    have hn : 0 < n := by omega
    rw [vz _ hi, vy _ hi, rd_stat hf.mem, rd_stat hf.mem, column_feature hf]
    simp only [Option.bind_some, meanL_range hn, stdL_range hn]
    have hpos := Real.sqrt_pos.2 (spread_pos ha hb hab)
    cases x.val (r :: j) with
    | none => simp [lift2, fdiv]
    | some v =>
      have : lift2 (fun x y : ℝ => x - y) (some v) (some (avg n c)) = some (v - avg n c) := rfl
      rw [this, fdiv_some hpos.ne']
      simp only [lift2, Option.bind_some, Option.map_some]
      rw [div_mul_cancel₀ _ hpos.ne', sub_add_cancel]

/-- **C43** The fitted data has mean zero and variance one after transformation, in every feature that is not constant. -/
theorem C43_standardised (X Y : Tree RArr) (hX : KeysOk X) (s : Std) (hfit : Std.fit X = .ok s) (ht : s.transform X = .ok Y)
    (p : List Step) (x : RArr) (hx : At X p x) (n : Nat) (j : List Nat) (c : Nat → ℝ) (hf : Feature x j n c)
    (hab : ∃ a b, a < n ∧ b < n ∧ c a ≠ c b) :
    ∃ y v, At Y p y ∧ Feature y j n v ∧ (∑ r ∈ range n, v r) / n = 0 ∧
      (∑ r ∈ range n, (v r - (∑ r ∈ range n, v r) / n) ^ 2) / n = 1 ∧
      ∀ r < n, v r = (c r - avg n c) / Real.sqrt (avg n fun r => (c r - avg n c) ^ 2) := by
  obtain ⟨-, hm, hs⟩ := std_stats hfit
  obtain ⟨hd, m, sc, hm', hs', hj⟩ := std_transform ht
  rw [hm] at hm'; cases hm'
  rw [hs] at hs'; cases hs'
  obtain ⟨hshape, X', h1, h2, h3⟩ := back std_rel hX hj
  obtain ⟨vs, y, z, hy, hz, -, hsub, m, sc, hvs, sy, sz, vy, vz⟩ := h3 p x hx
  obtain ⟨rfl, rfl⟩ := stats_at hX hx hvs hsub
  obtain ⟨a, b, ha, hb, hab⟩ := hab
  have hn : 0 < n := by omega
  have hn' : (n : ℝ) ≠ 0 := by exact_mod_cast hn.ne'
  have hpos := spread_pos ha hb hab
  have hsq := Real.sqrt_pos.2 hpos
  set μ := avg n c with hμ
  set S := avg n fun r => (c r - μ) ^ 2 with hS
  refine ⟨y, fun r => (c r - μ) / Real.sqrt S, hy, ⟨by rw [sy]; exact hf.rows, by rw [sy]; exact hf.mem, fun r hr => ?_⟩, ?_, ?_,
    fun _ _ => rfl⟩
  · have hi : InB x.shape (r :: j) := feature_inB hf hr
    rw [vy _ hi, rd_stat hf.mem, rd_stat hf.mem, column_feature hf, hf.vals r hr]
    simp only [Option.bind_some, meanL_range hn, stdL_range hn]
    have : lift2 (fun x y : ℝ => x - y) (some (c r)) (some (avg n c)) = some (c r - avg n c) := rfl
    rw [this, fdiv_some hsq.ne']
  · rw [← Finset.sum_div, Finset.sum_sub_distrib, Finset.sum_const, Finset.card_range, hμ]
    unfold avg
    rw [nsmul_eq_mul, mul_div_cancel₀ _ hn', sub_self, zero_div, zero_div]
  · have hz : (∑ r ∈ range n, (c r - μ) / Real.sqrt S) / n = 0 := by
      rw [← Finset.sum_div, Finset.sum_sub_distrib, Finset.sum_const, Finset.card_range, hμ]
      unfold avg
      rw [nsmul_eq_mul, mul_div_cancel₀ _ hn', sub_self, zero_div, zero_div]
    rw [hz]
    simp only [sub_zero, div_pow, Real.sq_sqrt hpos.le]
    rw [← Finset.sum_div]
    have : (∑ r ∈ range n, (c r - μ) ^ 2) = S * n := by
      rw [hS]; unfold avg; rw [div_mul_cancel₀ _ hn']
    rw [this, mul_div_right_comm, div_self hpos.ne', one_mul, div_self hn']

/-- **C43** `transform` succeeds on all data with the structure and the feature shapes of the fitted data. -/
theorem C43_defined (X0 X : Tree RArr) (h0 : KeysOk X0) (hX : KeysOk X) (s : Std) (hfit : Std.fit X0 = .ok s)
    (hd : dataOk X = true) (hst : map (fun _ => ()) X.norm = map (fun _ => ()) X0.norm)
    (hsh : ∀ p x x0, At X p x → At X0 p x0 → x.shape.tail = x0.shape.tail) : ∃ Y, s.transform X = .ok Y := by
  obtain ⟨-, hm, hs⟩ := std_stats hfit
  unfold Std.transform
  rw [if_pos hd, hm, hs]
  have hk : ∀ f : RArr → RArr, KeysOk (map f X0.norm) := fun f => (keysOk_map _ _).2 (keysOk_norm' h0)
  have hn : ∀ f : RArr → RArr, map (fun _ => ()) X.norm = map (fun _ => ()) (map f X0.norm).norm := by
    intro f
    rw [norm_map, norm_norm h0, map_map, hst]
  refine jaxMap_total (fun u hu => ?_) fun p x bs hx hbs => ?_
  · rcases List.mem_cons.1 hu with rfl | hu
    · exact ⟨hk _, hn _⟩
    · rw [List.mem_singleton] at hu
      subst hu
      exact ⟨hk _, hn _⟩
  · cases hbs with
    | cons hb hbs =>
      cases hbs with
      | cons hb' hbs =>
        cases hbs
        obtain ⟨x0, hx0, rfl⟩ := at_map.1 hb
        obtain ⟨x1, hx1, rfl⟩ := at_map.1 hb'
        have := at_unique (keysOk_norm' h0) hx0 hx1
        subst this
        have htail := hsh p x x0 hx (at_norm.1 hx0)
        have hle : BLe x0.shape.tail x.shape := by
          rw [← htail]
          exact ble_tail _
        obtain ⟨z, hz⟩ := stdFwd_run (x := x) (m := stat0 meanL x0) (s := stat0 stdL x0) hle hle
        exact ⟨_, hz⟩

/-- **C43** Why the hypothesis is needed: a feature that was constant in the fitted data is not a number after transformation,
in every row of every data set, so it cannot be recovered. -/
theorem C43_constant_lost (X0 X Y : Tree RArr) (h0 : KeysOk X0) (hX : KeysOk X) (s : Std) (hfit : Std.fit X0 = .ok s)
    (ht : s.transform X = .ok Y) (p : List Step) (x x0 : RArr) (hx : At X p x) (hx0 : At X0 p x0)
    (htail : x.shape.tail = x0.shape.tail) (n : Nat) (hn : 0 < n) (j : List Nat) (v : ℝ) (hf : Feature x0 j n fun _ => v) (r : Nat)
    (hi : InB x.shape (r :: j)) : ∃ y, At Y p y ∧ y.val (r :: j) = Option.none := by
  obtain ⟨-, hm, hs⟩ := std_stats hfit
  obtain ⟨hd, m, sc, hm', hs', hj⟩ := std_transform ht
  rw [hm] at hm'; cases hm'
  rw [hs] at hs'; cases hs'
  obtain ⟨hshape, X', h1, h2, h3⟩ := back std_rel hX hj
  obtain ⟨vs, y, z, hy, hz, -, hsub, m, sc, hvs, sy, sz, vy, vz⟩ := h3 p x hx
  obtain ⟨rfl, rfl⟩ := stats_at h0 hx0 hvs hsub
  refine ⟨y, hy, ?_⟩
  have hn' : (n : ℝ) ≠ 0 := by exact_mod_cast hn.ne'
  rw [vy _ hi, rd_stat hf.mem, rd_stat hf.mem, column_feature hf]
  simp only [Option.bind_some, stdL_range hn]
  have : (avg n fun _ => (v - avg n fun _ => v) ^ 2) = 0 := by
    have e : (avg n fun _ => v) = v := by
      unfold avg
      rw [Finset.sum_const, Finset.card_range, nsmul_eq_mul, mul_div_cancel_left₀ _ hn']
    rw [e, sub_self]
    unfold avg
    simp
  rw [this, Real.sqrt_zero, fdiv_zero]

/-- **C43** An unfitted scaler refuses to transform. -/
theorem C43_unfitted (X : Tree RArr) (hd : dataOk X = true) (m : Option (Tree RArr)) :
    (⟨Option.none, m⟩ : Std).transform X = .error .runtimeError ∧ (⟨m, Option.none⟩ : Std).transform X = .error .runtimeError ∧
      (⟨Option.none, m⟩ : Std).inverse X = .error .runtimeError ∧ (⟨m, Option.none⟩ : Std).inverse X = .error .runtimeError := by
  unfold Std.transform Std.inverse
  simp only [hd]
  cases m <;> exact ⟨rfl, rfl, rfl, rfl⟩

/-- A 2×1 array with the rows 1 and 3. -/
noncomputable def exArr : RArr := ⟨[2, 1], fun i => some (1 + 2 * (i.headD 0 : ℕ))⟩

theorem exArr_ok : dataOk (.leaf exArr) = true := by
  rw [dataOk_iff]
  constructor
  · intro p x h; cases h; simp [exArr]
  · intro p q x y h h'; cases h; cases h'; rfl

theorem exArr_feature : Feature exArr [0] 2 (fun r => 1 + 2 * (r : ℕ)) := by
  refine ⟨rfl, ⟨rfl, ?_⟩, fun r hr => ?_⟩
  · intro k d j hk hj
    cases k with
    | zero => simp [exArr] at hk hj; omega
    | succ k => simp at hj
  · simp [exArr]

/-- It is data the standard scaler accepts, its feature is not constant, and it can be transformed. -/
example : ∃ s Y, Std.fit (.leaf exArr) = .ok s ∧ s.transform (.leaf exArr) = .ok Y ∧
    Feature exArr [0] 2 (fun r => 1 + 2 * (r : ℕ)) ∧ KeysOk (.leaf exArr) := by
  have hd := exArr_ok
  have hfit : ∃ s, Std.fit (.leaf exArr) = .ok s := by unfold Std.fit; rw [if_pos hd]; exact ⟨_, rfl⟩
  obtain ⟨s, hfit⟩ := hfit
  obtain ⟨Y, hY⟩ := C43_defined (.leaf exArr) (.leaf exArr) trivial trivial s hfit hd rfl (fun p x x0 h h' => by cases h; cases h'; rfl)
  exact ⟨_, Y, hfit, hY, exArr_feature, trivial⟩

end Verif.Props
