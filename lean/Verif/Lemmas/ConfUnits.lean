import Verif.Spec.ConfUnits
import Verif.Lemmas.Units
import Verif.Props.ConformalInterval
import Mathlib.Tactic.FieldSimp
import Mathlib.Tactic.Ring

namespace Verif.ConfUnits
open Verif.Tree Verif.Conformal Verif.NdSpec Verif.ForwardSpec Verif.Props NArr

/-- A tree of the structure `S` whose arrays have the given shapes and entries. -/
structure Holds (S : Tree Unit) (t : Arrs) (sh : List ForwardSpec.Step → List Nat) (val : List ForwardSpec.Step → List Nat → Option ℝ) : Prop where
  keys : KeysOk t
  struct : map (fun _ => ()) t.norm = S
  arr : ∀ p x, At t p x → x.shape = sh p ∧ ∀ i, InB (sh p) i → x.val i = val p i

theorem place {S : Tree Unit} {A B : Type} {t : Tree A} {v : Tree B} (h1 : map (fun _ => ()) t.norm = S) (h2 : map (fun _ => ()) v.norm = S)
    {p : List ForwardSpec.Step} {a : A} (ha : At t p a) : ∃ b, At v p b := by
  obtain ⟨b, hb⟩ := Scalers.at_of_struct (h1.trans h2.symm) (at_norm.2 ha)
  exact ⟨b, at_norm.1 hb⟩

/-- An elementwise operation on trees whose arrays have rows, one of which may be the same for all samples. -/
theorem bin_holds (f : Option ℝ → Option ℝ → Option ℝ) {S : Tree Unit} {t u : Arrs} {b : Nat} {s sh1 sh2 : List ForwardSpec.Step → List Nat}
    {v1 v2 : List ForwardSpec.Step → List Nat → Option ℝ} (h1 : Holds S t sh1 v1) (h2 : Holds S u sh2 v2)
    (e1 : sh1 = (fun p => b :: s p) ∨ sh1 = s) (e2 : sh2 = (fun p => b :: s p) ∨ sh2 = s)
    (e : sh1 = (fun p => b :: s p) ∨ sh2 = fun p => b :: s p) (w1 w2 : List ForwardSpec.Step → List Nat → Option ℝ)
    (hw1 : ∀ p k i, w1 p (k :: i) = if sh1 p = s p then v1 p i else v1 p (k :: i))
    (hw2 : ∀ p k i, w2 p (k :: i) = if sh2 p = s p then v2 p i else v2 p (k :: i)) :
    ∃ r, TreeArith.bin f t u = .ok r ∧ Holds S r (fun p => b :: s p) fun p i => f (w1 p i) (w2 p i) := by
  have hne : ∀ (b : Nat) (s : List Nat), b :: s ≠ s := fun b s e => by have := congrArg List.length e; simp at this
  have rows : ∀ p x y, At t p x → At u p y → ∃ z, bop f x y = .ok z ∧ z.shape = b :: s p ∧ ∀ k i, InB (b :: s p) (k :: i) →
      z.val (k :: i) = f (w1 p (k :: i)) (w2 p (k :: i)) := by
    intro p x y hx hy
    obtain ⟨x1, x2⟩ := h1.arr p x hx
    obtain ⟨y1, y2⟩ := h2.arr p y hy
    obtain ⟨z, g1, g2, g3⟩ := bop_rows f x y (b := b) (s := s p) (by rcases e1 with e1 | e1 <;> simp [x1, e1])
      (by rcases e2 with e2 | e2 <;> simp [y1, e2]) (by rcases e with e | e <;> simp [x1, y1, e])
    refine ⟨z, g1, g2, fun k i hi => ?_⟩
    have key : ∀ (q : NArr (Option ℝ)) (sh : List ForwardSpec.Step → List Nat) (vq wq : List ForwardSpec.Step → List Nat → Option ℝ),
        (sh = (fun p => b :: s p) ∨ sh = s) → q.shape = sh p → (∀ i, InB (sh p) i → q.val i = vq p i) →
        (∀ p k i, wq p (k :: i) = if sh p = s p then vq p i else vq p (k :: i)) → entryAt q (s p) k i = wq p (k :: i) := by
      intro q sh vq wq hsh hq hv hw
      unfold entryAt
      rw [hw, hq]
      rcases hsh with rfl | rfl
      · rw [if_neg (hne _ _), if_neg (hne _ _)]
        exact hv _ hi
      · rw [if_pos rfl, if_pos rfl]
        exact hv _ (inB_cons.1 hi).2
    rw [g3 k i hi, key x sh1 v1 w1 e1 x1 x2 hw1, key y sh2 v2 w2 e2 y1 y2 hw2]
  obtain ⟨r, r1, r2, r3⟩ := bin_total f (t := t) h2.keys (h1.struct.trans h2.struct.symm) fun p x y hx hy => by
    obtain ⟨z, hz, -⟩ := rows p x y hx hy
    exact ⟨z, hz⟩
  have hk : KeysOk r := keysOk_of_struct r2 (keysOk_norm' h1.keys)
  have hs : map (fun _ => ()) r.norm = S := by rw [← norm_map, r2, norm_map, norm_norm h1.keys, h1.struct]
  refine ⟨r, r1, hk, hs, fun p z hz => ?_⟩
  obtain ⟨x, hx⟩ := place hs h1.struct hz
  obtain ⟨y, hy⟩ := place hs h2.struct hz
  obtain ⟨z', q1, q2⟩ := r3 p x y hx hy
  obtain ⟨z'', g1, g2, g3⟩ := rows p x y hx hy
  rw [g1] at q2
  cases q2
  rw [at_unique hk hz q1]
  refine ⟨g2, fun i hi => ?_⟩
  cases i with
  | nil => have := hi.1; simp at this
  | cons k i => exact g3 k i hi

theorem map_holds (g : NArr (Option ℝ) → NArr (Option ℝ)) {S : Tree Unit} {t : Arrs} {sh sh' : List ForwardSpec.Step → List Nat}
    {v v' : List ForwardSpec.Step → List Nat → Option ℝ} (h : Holds S t sh v)
    (hg : ∀ p x, At t p x → (g x).shape = sh' p ∧ ∀ i, InB (sh' p) i → (g x).val i = v' p i) : Holds S (map g t.norm) sh' v' := by
  refine ⟨(keysOk_map g _).2 (keysOk_norm' h.keys), ?_, fun p x hx => ?_⟩
  · rw [← norm_map, map_map, norm_map, norm_norm h.keys]
    exact h.struct
  · obtain ⟨y, hy, rfl⟩ := at_map.1 hx
    exact hg p y (at_norm.1 hy)

theorem quantLeaf_holds (q : ℝ) {S : Tree Unit} {t : Arrs} {n : Nat} {s : List ForwardSpec.Step → List Nat}
    {v : List ForwardSpec.Step → List Nat → Option ℝ} (h : Holds S t (fun p => n :: s p) v) :
    Holds S (map (quantLeaf q) t.norm) s fun p i => quantO ((List.range n).map fun k => v p (k :: i)) q := by
  refine map_holds _ h fun p x hx => ?_
  obtain ⟨e1, e2⟩ := h.arr p x hx
  refine ⟨by simp [quantLeaf, e1], fun i hi => ?_⟩
  simp only [quantLeaf]
  congr 1
  unfold Conformal.column
  rw [e1]
  refine List.map_congr_left fun k hk => e2 _ (inB_cons.2 ⟨List.mem_range.1 hk, hi⟩)

theorem samples_holds {S : Tree Unit} {t : Arrs} {n : Nat} {s : List ForwardSpec.Step → List Nat}
    {v : List ForwardSpec.Step → List Nat → Option ℝ} (h : Holds S t (fun p => n :: s p) v) (hne : ∃ p x, At t p x) : samples t = .ok n := by
  obtain ⟨p, x, hx⟩ := hne
  have hm : x ∈ jaxLeaves t := by
    unfold jaxLeaves
    exact mem_flat_at.2 ⟨p, at_norm.2 hx⟩
  unfold samples
  cases hl : jaxLeaves t with
  | nil => rw [hl] at hm; cases hm
  | cons y ys =>
    have : y ∈ jaxLeaves t := by rw [hl]; exact List.mem_cons_self
    unfold jaxLeaves at this
    obtain ⟨p', hp'⟩ := mem_flat_at.1 this
    simp only [(h.arr p' y (at_norm.1 hp')).1]

theorem Holds.congr {S : Tree Unit} {t : Arrs} {sh : List ForwardSpec.Step → List Nat} {v v' : List ForwardSpec.Step → List Nat → Option ℝ}
    (h : Holds S t sh v) (e : ∀ p i, InB (sh p) i → v p i = v' p i) : Holds S t sh v' :=
  ⟨h.keys, h.struct, fun p x hx => ⟨(h.arr p x hx).1, fun i hi => ((h.arr p x hx).2 i hi).trans (e p i hi)⟩⟩

open scoped Classical in
/-- The entries of the array at a place. -/
noncomputable def valOf (t : Arrs) (p : List ForwardSpec.Step) (i : List Nat) : Option ℝ := if h : ∃ x, At t p x then h.choose.val i else Option.none

open scoped Classical in
/-- The shape of the array at a place without its first axis. -/
noncomputable def restOf (t : Arrs) (p : List ForwardSpec.Step) : List Nat := if h : ∃ x, At t p x then h.choose.shape.tail else []

theorem valOf_at {t : Arrs} (hk : KeysOk t) {p : List ForwardSpec.Step} {x : NArr (Option ℝ)} (hx : At t p x) : valOf t p = x.val := by
  have h : ∃ x, At t p x := ⟨x, hx⟩
  funext i
  unfold valOf
  rw [dif_pos h, at_unique hk h.choose_spec hx]

theorem restOf_at {t : Arrs} (hk : KeysOk t) {p : List ForwardSpec.Step} {x : NArr (Option ℝ)} (hx : At t p x) : restOf t p = x.shape.tail := by
  have h : ∃ x, At t p x := ⟨x, hx⟩
  unfold restOf
  rw [dif_pos h, at_unique hk h.choose_spec hx]

theorem holds_of {S : Tree Unit} {t : Arrs} {sh : List ForwardSpec.Step → List Nat} (hk : KeysOk t) (hs : map (fun _ => ()) t.norm = S)
    (h : ∀ p x, At t p x → x.shape = sh p) : Holds S t sh (valOf t) :=
  ⟨hk, hs, fun p x hx => ⟨h p x hx, fun i _ => by rw [valOf_at hk hx]⟩⟩

theorem cons_ne (b : Nat) (s : List Nat) : b :: s ≠ s := fun e => by have := congrArg List.length e; simp at this

/-- Two trees with an array of samples at every place. -/
theorem bin_full (f : Option ℝ → Option ℝ → Option ℝ) {S : Tree Unit} {t u : Arrs} {b : Nat} {s : List ForwardSpec.Step → List Nat}
    {v1 v2 : List ForwardSpec.Step → List Nat → Option ℝ} (h1 : Holds S t (fun p => b :: s p) v1) (h2 : Holds S u (fun p => b :: s p) v2) :
    ∃ r, TreeArith.bin f t u = .ok r ∧ Holds S r (fun p => b :: s p) fun p i => f (v1 p i) (v2 p i) :=
  bin_holds f h1 h2 (.inl rfl) (.inl rfl) (.inl rfl) v1 v2 (fun p k i => by rw [if_neg (cons_ne _ _)]) fun p k i => by rw [if_neg (cons_ne _ _)]

/-- The second tree is the same for all samples. -/
theorem bin_right (f : Option ℝ → Option ℝ → Option ℝ) {S : Tree Unit} {t u : Arrs} {b : Nat} {s : List ForwardSpec.Step → List Nat}
    {v1 v2 : List ForwardSpec.Step → List Nat → Option ℝ} (h1 : Holds S t (fun p => b :: s p) v1) (h2 : Holds S u s v2) :
    ∃ r, TreeArith.bin f t u = .ok r ∧ Holds S r (fun p => b :: s p) fun p i => f (v1 p i) (v2 p i.tail) :=
  bin_holds f h1 h2 (.inl rfl) (.inr rfl) (.inl rfl) v1 (fun p i => v2 p i.tail) (fun p k i => by rw [if_neg (cons_ne _ _)]) fun p k i => by
    rw [if_pos rfl, List.tail_cons]

/-- The first tree is the same for all samples. -/
theorem bin_left (f : Option ℝ → Option ℝ → Option ℝ) {S : Tree Unit} {t u : Arrs} {b : Nat} {s : List ForwardSpec.Step → List Nat}
    {v1 v2 : List ForwardSpec.Step → List Nat → Option ℝ} (h1 : Holds S t s v1) (h2 : Holds S u (fun p => b :: s p) v2) :
    ∃ r, TreeArith.bin f t u = .ok r ∧ Holds S r (fun p => b :: s p) fun p i => f (v1 p i.tail) (v2 p i) :=
  bin_holds f h1 h2 (.inr rfl) (.inl rfl) (.inr rfl) (fun p i => v1 p i.tail) v2 (fun p k i => by rw [if_pos rfl, List.tail_cons]) fun p k i => by
    rw [if_neg (cons_ne _ _)]

theorem op2_zero (x : Option ℝ) : op2 (· + ·) x (some 0) = x := by cases x <;> simp [op2]

/-- The correction of predictions by the fitted bias. -/
theorem correct_holds (bias : Bool) {S : Tree Unit} {r t : Arrs} {n m : Nat} {s : List ForwardSpec.Step → List Nat}
    {y z v : List ForwardSpec.Step → List Nat → Option ℝ} (hr : Holds S r (fun p => n :: s p) fun p i => op2 (· - ·) (y p i) (z p i))
    (ht : Holds S t (fun p => m :: s p) v) :
    ∃ c, correct (if bias then some (fitGlobal r) else Option.none) t = .ok c ∧
      Holds S c (fun p => m :: s p) fun p i => op2 (· + ·) (v p i) (shift bias n (y p) (z p) i.tail) := by
  cases bias with
  | false => exact ⟨t, rfl, ht.congr fun p i _ => by simp only [shift]; exact (op2_zero _).symm⟩
  | true =>
    obtain ⟨c, c1, c2⟩ := bin_right (Loss.lift2 (· + ·)) ht (quantLeaf_holds (1 / 2) hr)
    exact ⟨c, c1, c2.congr fun p i _ => by simp only [shift]; rfl⟩

/-- What calibrated wrappers answer. -/
theorem whole (bias : Bool) {n m : Nat} {Y Yp u Z v : Arrs} (h : Together n m Y Yp u Z v) {α : ℝ} (hα : 0 < α ∧ α < 1) :
    ∃ c lo hi, calibrate bias Y Yp u = .ok c ∧ predict c Z v α = .ok (lo, hi) ∧ ∃ S sh,
      Holds S lo sh (fun p i => bound (· - ·) bias n (valOf Y p) (valOf Yp p) (valOf u p) α i.tail (valOf Z p i) (valOf v p i)) ∧
      Holds S hi sh (fun p i => bound (· + ·) bias n (valOf Y p) (valOf Yp p) (valOf u p) α i.tail (valOf Z p i) (valOf v p i)) ∧
      Holds S Z sh (valOf Z) ∧ S = map (fun _ => ()) Y.norm := by
  obtain ⟨kY, kYp, ku, kZ, kv⟩ := h.keys
  have sY := fun t ht => h.struct t ht
  have cal : ∀ t ∈ [Yp, u], ∀ p x, At t p x → x.shape = n :: restOf Y p := by
    intro t ht p x hx
    obtain ⟨y, hy⟩ := place (S := map (fun _ => ()) Y.norm) (h.struct t (by simp at ht ⊢; tauto)) rfl hx
    obtain ⟨s, e1, e2, -⟩ := h.shapes p y hy
    rw [restOf_at kY hy, e1, e2 t ht x hx, List.tail_cons]
  have new : ∀ t ∈ [Z, v], ∀ p x, At t p x → x.shape = m :: restOf Y p := by
    intro t ht p x hx
    obtain ⟨y, hy⟩ := place (S := map (fun _ => ()) Y.norm) (h.struct t (by simp at ht ⊢; tauto)) rfl hx
    obtain ⟨s, e1, -, e3⟩ := h.shapes p y hy
    rw [restOf_at kY hy, e1, e3 t ht x hx, List.tail_cons]
  have hY := holds_of (sh := fun p => n :: restOf Y p) kY rfl fun p y hy => by
    obtain ⟨s, e1, -, -⟩ := h.shapes p y hy
    rw [restOf_at kY hy, e1, List.tail_cons]
  have hYp := holds_of kYp (h.struct Yp (by simp)) (cal Yp (by simp))
  have hu := holds_of ku (h.struct u (by simp)) (cal u (by simp))
  have hZ := holds_of kZ (h.struct Z (by simp)) (new Z (by simp))
  have hv := holds_of kv (h.struct v (by simp)) (new v (by simp))
  obtain ⟨r, r1, r2⟩ := bin_full (Loss.lift2 (· - ·)) hY hYp
  obtain ⟨c, c1, c2⟩ := correct_holds bias r2 hYp
  obtain ⟨d, d1, d2⟩ := bin_full (Loss.lift2 (· - ·)) hY c2
  have a2 : Holds _ (TreeArith.abs d) (fun p => n :: restOf Y p) fun p i =>
      (op2 (· - ·) (valOf Y p i) (op2 (· + ·) (valOf Yp p i) (shift bias n (valOf Y p) (valOf Yp p) i.tail))).map fun x => |x| :=
    map_holds _ d2 fun p x hx => ⟨(d2.arr p x hx).1, fun i hi => by
      show (x.val i).map _ = _
      rw [(d2.arr p x hx).2 i hi]
      rfl⟩
  obtain ⟨sc, s1, s2⟩ := bin_full (Loss.fdiv (𝕜 := ℝ)) a2 hu
  have hsc : scoresOf Y c u = .ok sc := by
    unfold scoresOf TreeArith.sub TreeArith.div
    rw [d1]
    exact s1
  have hn : samples sc = .ok n := by
    obtain ⟨p, y, hy⟩ := h.some
    exact samples_holds s2 (by obtain ⟨x, hx⟩ := place hY.struct s2.struct hy; exact ⟨p, x, hx⟩)
  obtain ⟨st, g⟩ := getQhat_fresh hn (alphas := [α]) (by intro a ha; rw [List.mem_singleton] at ha; subst ha; exact hα)
  have q2 := quantLeaf_holds (level n α) s2
  obtain ⟨e, e1, e2⟩ := correct_holds bias r2 hZ
  obtain ⟨w, w1, w2⟩ := bin_left (Loss.lift2 (· * ·)) q2 hv
  obtain ⟨lo, l1, l2⟩ := bin_full (Loss.lift2 (· - ·)) e2 w2
  obtain ⟨hi, u1, u2⟩ := bin_full (Loss.lift2 (· + ·)) e2 w2
  refine ⟨(if bias then some (fitGlobal r) else Option.none, fresh sc), lo, hi, ?_, ?_, _, _, l2.congr fun p i _ => rfl, u2.congr fun p i _ => rfl, hZ, rfl⟩
  · unfold calibrate TreeArith.sub
    rw [r1]
    simp only [c1, hsc]
    rfl
  · unfold predict
    simp only [e1, g, List.map_cons, List.map_nil]
    unfold interval TreeArith.mul TreeArith.sub TreeArith.add
    have : TreeArith.bin (Loss.lift2 (· * ·)) (quantTree sc n α) v = .ok w := w1
    simp only [this, l1, u1]

/-! ## Other units, another order -/

theorem mapM_id_eq (l : List (Option ℝ)) : l.mapM id = Scalers.allSome l := by
  induction l with
  | nil => rfl
  | cons x l ih =>
    rw [List.mapM_cons, ih]
    cases x <;> simp [Scalers.allSome]
    cases Scalers.allSome l <;> rfl

theorem quantO_follows {a b : ℝ} (ha : 0 < a) (q : ℝ) {k l : List (Option ℝ)} (h : k.Perm (l.map (Option.map fun v => a * v + b))) :
    quantO k q = (quantO l q).map fun v => a * v + b := by
  unfold quantO
  rw [mapM_id_eq, mapM_id_eq]
  exact Units.stat_follows (fun l m hm => Units.quant_follows a b ha q l m hm) h

theorem perm_range {n : Nat} {σ : Nat → Nat} (hσ : UnitsSpec.Rearranges n σ) (F F' : Nat → Option ℝ) (g : Option ℝ → Option ℝ)
    (h : ∀ k < n, F' k = g (F (σ k))) : ((List.range n).map F').Perm (((List.range n).map F).map g) := by
  rw [show (List.range n).map F' = (((List.range n).map σ).map F).map g from by
    rw [List.map_map, List.map_map]
    exact List.map_congr_left fun k hk => h k (List.mem_range.1 hk)]
  exact ((Units.range_perm hσ).map F).map g

section
variable {n : Nat} {σ : Nat → Nat} (hσ : UnitsSpec.Rearranges n σ) {a b c : ℝ} (ha : 0 < a) (hc : 0 < c) {y z w y' z' w' : List Nat → Option ℝ} {i : List Nat}
  (hy : ∀ k < n, y' (k :: i) = (y (σ k :: i)).map fun v => a * v + b) (hz : ∀ k < n, z' (k :: i) = (z (σ k :: i)).map fun v => a * v + b)
  (hw : ∀ k < n, w' (k :: i) = (w (σ k :: i)).map fun v => c * v + 0)
include hσ ha hy hz

theorem shift_follows (bias : Bool) : shift bias n y' z' i = (shift bias n y z i).map fun v => a * v + 0 := by
  cases bias with
  | false => simp [shift]
  | true =>
    simp only [shift, if_true]
    refine quantO_follows ha _ (perm_range hσ _ _ _ fun k hk => ?_)
    rw [hy k hk, hz k hk]
    cases y (σ k :: i) <;> cases z (σ k :: i) <;> simp [op2]
    ring

include hc hw

theorem score_follows (bias : Bool) (k : Nat) (hk : k < n) :
    score bias n y' z' w' i k = (score bias n y z w i (σ k)).map fun v => a / c * v + 0 := by
  unfold score
  rw [shift_follows hσ ha hy hz bias, hy k hk, hz k hk, hw k hk]
  cases y (σ k :: i) with
  | none => rfl
  | some p =>
    cases z (σ k :: i) with
    | none => rfl
    | some q =>
      cases shift bias n y z i with
      | none => rfl
      | some t =>
        cases w (σ k :: i) with
        | none => rfl
        | some x =>
          by_cases hx : x = 0
          · simp [op2, Loss.fdiv, hx]
          · have hcx : c * x ≠ 0 := mul_ne_zero hc.ne' hx
            simp only [op2, Loss.fdiv, Option.map_some, Option.bind_some, add_zero, if_neg hx, if_neg hcx]
            rw [show a * p + b - (a * q + b + a * t) = a * (p - (q + t)) by ring, abs_mul, abs_of_pos ha]
            congr 1
            field_simp

theorem width_follows (bias : Bool) (α : ℝ) : width bias n y' z' w' α i = (width bias n y z w α i).map fun v => a / c * v + 0 := by
  unfold width
  exact quantO_follows (div_pos ha hc) _ (perm_range hσ _ _ _ fun k hk => score_follows hσ ha hc hy hz hw bias k hk)

theorem bound_follows (f : ℝ → ℝ → ℝ) (hf : ∀ x t, f (a * x + b) (a * t) = a * f x t + b) (bias : Bool) (α : ℝ) (p q : Option ℝ) :
    bound f bias n y' z' w' α i (p.map fun v => a * v + b) (q.map fun v => c * v + 0) =
      (bound f bias n y z w α i p q).map fun v => a * v + b := by
  unfold bound
  rw [shift_follows hσ ha hy hz bias, width_follows hσ ha hc hy hz hw bias α]
  cases p <;> cases shift bias n y z i <;> cases width bias n y z w α i <;> cases q <;> try rfl
  rename_i p t x q
  simp only [op2, Option.map_some, Option.bind_some, add_zero]
  rw [show a * p + b + a * t = a * (p + t) + b by ring, show a / c * x * (c * q) = a * (x * q) by field_simp, hf]

end

end Verif.ConfUnits
