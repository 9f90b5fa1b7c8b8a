import Verif.Model.Scalers
import Verif.Spec.Scalers
import Verif.Lemmas.NdArr
import Verif.Lemmas.TreeBack

namespace Verif.Scalers
open Verif.Tree Verif.NdSpec Verif.ForwardSpec Verif.Loss Verif.NArr Verif.ScalerSpec

/-- The entry an array contributes at an index of an array it is stretched to. -/
def rd (y : RArr) (i : List Nat) : Option ℝ := y.val (bidx y.shape i)

theorem bop_ok {A B C : Type} {f : A → B → C} {x : NArr A} {y : NArr B} {z : NArr C} (h : NArr.bop f x y = .ok z) :
    bshape x.shape y.shape = some z.shape ∧ ∀ i, z.val i = f (x.val (bidx x.shape i)) (y.val (bidx y.shape i)) := by
  unfold NArr.bop at h
  split at h
  · cases h
  · rename_i s hs
    cases h
    exact ⟨hs, fun _ => rfl⟩

theorem bop_run {A B C : Type} (f : A → B → C) {x : NArr A} {y : NArr B} (h : BLe y.shape x.shape) :
    NArr.bop f x y = .ok ⟨x.shape, fun i => f (x.val (bidx x.shape i)) (y.val (bidx y.shape i))⟩ := by
  unfold NArr.bop
  rw [bshape_of_le h]

theorem bind_ok {ε A B : Type} {a : Except ε A} {f : A → Except ε B} {b : B} (h : (a >>= f) = .ok b) :
    ∃ x, a = .ok x ∧ f x = .ok b := by
  cases a with
  | error e => cases h
  | ok x => exact ⟨x, rfl, h⟩

theorem checked_ok {x z : RArr} {w : Tree RArr} (h : checked x z = .ok w) : w = .leaf z ∧ z.shape = x.shape := by
  unfold checked at h
  split at h
  · rename_i hs; cases h; exact ⟨rfl, hs⟩
  · cases h

theorem stdFwd_ok {x : RArr} {vs : List (Tree RArr)} {w : Tree RArr} (h : stdFwd x vs = .ok w) :
    ∃ m s z, vs = [.leaf m, .leaf s] ∧ w = .leaf z ∧ z.shape = x.shape ∧ BLe m.shape x.shape ∧ BLe s.shape x.shape ∧
      ∀ i, InB x.shape i → z.val i = fdiv (lift2 (· - ·) (x.val i) (rd m i)) (rd s i) := by
  unfold stdFwd at h
  split at h
  case h_2 => cases h
  rename_i m s
  obtain ⟨b, hb, h⟩ := bind_ok h
  obtain ⟨z, hz, h⟩ := bind_ok h
  obtain ⟨rfl, hs⟩ := checked_ok h
  obtain ⟨e1, v1⟩ := bop_ok hb
  obtain ⟨e2, v2⟩ := bop_ok hz
  obtain ⟨l1, l2⟩ := bshape_le e1
  obtain ⟨l3, l4⟩ := bshape_le e2
  rw [hs] at l3 l4
  have hbx : b.shape = x.shape := ble_antisymm l3 l1
  rw [hbx] at l2
  refine ⟨m, s, z, rfl, rfl, hs, l2, l4, fun i hi => ?_⟩
  rw [v2, v1, hbx, bidx_self hi, bidx_self hi]
  rfl

theorem stdFwd_run {x m s : RArr} (hm : BLe m.shape x.shape) (hs : BLe s.shape x.shape) :
    ∃ z, stdFwd x [.leaf m, .leaf s] = .ok (.leaf z) := by
  unfold stdFwd asub adiv
  simp only
  rw [bop_run _ hm]
  simp only [bind, Except.bind]
  rw [bop_run _ (by exact hs)]
  simp only [checked]
  exact ⟨_, rfl⟩

theorem stdBwd_run {x m s : RArr} (hm : BLe m.shape x.shape) (hs : BLe s.shape x.shape) :
    ∃ z, stdBwd x [.leaf m, .leaf s] = .ok (.leaf z) ∧ z.shape = x.shape ∧
      ∀ i, InB x.shape i → z.val i = lift2 (· + ·) (lift2 (· * ·) (x.val i) (rd s i)) (rd m i) := by
  unfold stdBwd aadd amul
  simp only
  rw [bop_run _ hs]
  simp only [bind, Except.bind]
  rw [bop_run _ (by exact hm)]
  simp only [checked]
  refine ⟨⟨x.shape, _⟩, rfl, rfl, fun i hi => ?_⟩
  simp only [bidx_self hi, rd]

theorem bidx_tail {s : List Nat} {r : Nat} {j : List Nat} (h : InB s j) : bidx s (r :: j) = j := by
  have := bidx_self h
  unfold bidx at this ⊢
  rw [h.1, Nat.sub_self, List.drop_zero] at this
  have e : (r :: j).length - s.length = 1 := by rw [List.length_cons, h.1]; omega
  rw [e, List.drop_one, List.tail_cons]
  exact this

theorem inB_tail {s : List Nat} {r : Nat} {j : List Nat} (h : InB s (r :: j)) : InB s.tail j := by
  cases s with
  | nil => have := h.1; simp at this
  | cons n s => exact (inB_cons.1 h).2

theorem rd_stat {f : List ℝ → Option ℝ} {x : RArr} {r : Nat} {j : List Nat} (h : InB x.shape.tail j) :
    rd (stat0 f x) (r :: j) = (allSome (column x j)).bind f := by
  unfold rd stat0
  simp only [bidx_tail h]

theorem allSome_map {A : Type} (l : List A) : allSome (l.map some) = some l := by
  induction l with
  | nil => rfl
  | cons a l ih => simp [allSome, ih]

theorem column_feature {x : RArr} {j : List Nat} {n : Nat} {c : Nat → ℝ} (h : Feature x j n c) :
    allSome (column x j) = some ((List.range n).map c) := by
  have : column x j = ((List.range n).map c).map some := by
    unfold column
    have hn : x.shape.headD 0 = n := by
      have := h.rows
      cases hs : x.shape with
      | nil => rw [hs] at this; cases this
      | cons a l => rw [hs] at this; simpa using this
    rw [hn, List.map_map]
    exact List.map_congr_left fun r hr => h.vals r (List.mem_range.1 hr)
  rw [this, allSome_map]

theorem dataOk_iff (X : Tree RArr) : dataOk X = true ↔
    (∀ p x, At X p x → 2 ≤ x.shape.length) ∧ ∀ p q x y, At X p x → At X q y → x.shape.head? = y.shape.head? := by
  have hmem : ∀ x, x ∈ jaxLeaves X ↔ ∃ p, At X p x := by
    intro x
    have : x ∈ jaxLeaves X ↔ x ∈ flat X.norm := Iff.rfl
    rw [this, mem_flat_at]
    simp [at_norm]
  unfold dataOk
  cases hl : jaxLeaves X with
  | nil =>
    simp only [true_iff]
    have hno : ∀ p x, ¬ At X p x := by
      intro p x h
      have := (hmem x).2 ⟨p, h⟩
      rw [hl] at this
      cases this
    exact ⟨fun p x h => absurd h (hno p x), fun p q x y h => absurd h (hno p x)⟩
  | cons a l =>
    simp only
    rw [List.all_eq_true, ← hl]
    simp only [Bool.and_eq_true, decide_eq_true_eq]
    constructor
    · intro h
      refine ⟨fun p x hx => (h x ((hmem x).2 ⟨p, hx⟩)).1, fun p q x y hx hy => ?_⟩
      rw [(h x ((hmem x).2 ⟨p, hx⟩)).2, (h y ((hmem y).2 ⟨q, hy⟩)).2]
    · rintro ⟨h1, h2⟩ x hx
      obtain ⟨p, hp⟩ := (hmem x).1 hx
      obtain ⟨q, hq⟩ := (hmem a).1 (by rw [hl]; exact List.mem_cons_self)
      exact ⟨h1 p x hp, h2 p q x a hp hq⟩

theorem at_of_struct {A B : Type} {t : Tree A} {u : Tree B} (h : map (fun _ => ()) t = map (fun _ => ()) u) {p : List Step} {a : A}
    (ha : At t p a) : ∃ b, At u p b := by
  have : At (map (fun _ => ()) u) p () := by rw [← h]; exact at_map.2 ⟨a, ha, rfl⟩
  obtain ⟨b, hb, -⟩ := at_map.1 this
  exact ⟨b, hb⟩

/-- Two trees with arrays of equal shape at equal places are both data or both not. -/
theorem dataOk_of_shapes {X Y : Tree RArr} (h : ∀ p y, At Y p y → ∃ x, At X p x ∧ y.shape = x.shape) (hX : dataOk X = true) :
    dataOk Y = true := by
  rw [dataOk_iff] at hX ⊢
  refine ⟨fun p y hy => ?_, fun p q y y' hy hy' => ?_⟩
  · obtain ⟨x, hx, e⟩ := h p y hy
    rw [e]; exact hX.1 p x hx
  · obtain ⟨x, hx, e⟩ := h p y hy
    obtain ⟨x', hx', e'⟩ := h q y' hy'
    rw [e, e']; exact hX.2 p q x x' hx hx'

/-- A forward map and its inverse, place by place. -/
theorem back {f g : RArr → List (Tree RArr) → Except PyErr (Tree RArr)} {R : RArr → List (Tree RArr) → RArr → RArr → Prop}
    (hf : ∀ a vs w, f a vs = .ok w → ∃ c, w = .leaf c ∧ c.shape = a.shape ∧ ∃ b, g c vs = .ok (.leaf b) ∧ R a vs c b)
    {X : Tree RArr} (hX : KeysOk X) {us : List (Tree RArr)} {Y : Tree RArr} (h : jaxMap f X us = .ok Y) :
    (∀ p y, At Y p y → ∃ x, At X p x ∧ y.shape = x.shape) ∧
    ∃ X', jaxMap g Y us = .ok X' ∧ map (fun _ => ()) X' = map (fun _ => ()) X.norm ∧
      ∀ p x, At X p x → ∃ vs y z, At Y p y ∧ At X' p z ∧ vs.length = us.length ∧
        (∀ (i : Nat) (u v : Tree RArr), us[i]? = some u → vs[i]? = some v → Sub u p v) ∧ R x vs y z := by
  obtain ⟨X', h1, h2, h3⟩ := jaxMap_back (R := fun a vs c b => c.shape = a.shape ∧ R a vs c b)
    (fun a vs w h => by
      obtain ⟨c, e1, e2, b, e3, e4⟩ := hf a vs w h
      exact ⟨c, e1, b, e3, e2, e4⟩) hX h
  have hs : map (fun _ => ()) Y = map (fun _ => ()) X.norm :=
    jaxMap_struct (fun a vs w h => by obtain ⟨c, e1, -⟩ := hf a vs w h; exact ⟨c, e1⟩) h
  have hY : KeysOk Y := keysOk_of_struct hs (keysOk_norm' hX)
  refine ⟨fun p y hy => ?_, X', h1, h2, fun p x hx => ?_⟩
  · obtain ⟨x, hx⟩ := at_of_struct hs hy
    have hx := at_norm.1 hx
    obtain ⟨vs, c, b, hc, -, -, -, he, -⟩ := h3 p x hx
    exact ⟨x, hx, by rw [at_unique hY hy hc]; exact he⟩
  · obtain ⟨vs, c, b, hc, hb, hl, hsub, -, hR⟩ := h3 p x hx
    exact ⟨vs, c, b, hc, hb, hl, hsub, hR⟩

theorem at_stat {f : RArr → RArr} {X : Tree RArr} {p : List Step} {x : RArr} (hx : At X p x) : At (map f X.norm) p (f x) :=
  at_map.2 ⟨x, at_norm.2 hx, rfl⟩

theorem stat_unique {f : RArr → RArr} {X : Tree RArr} (hX : KeysOk X) {p : List Step} {x y : RArr} (hx : At X p x)
    (hy : Sub (map f X.norm) p (.leaf y)) : y = f x :=
  at_unique ((keysOk_map _ _).2 (keysOk_norm' hX)) (sub_leaf.1 hy) (at_stat hx)

/-! ## Min-max scaler -/

theorem rd_bop {f : Option ℝ → Option ℝ → Option ℝ} {x y z : RArr} (h : NArr.bop f x y = .ok z) :
    BLe x.shape z.shape ∧ BLe y.shape z.shape ∧ ∀ i, z.shape.length ≤ i.length → rd z i = f (rd x i) (rd y i) := by
  obtain ⟨e, v⟩ := bop_ok h
  obtain ⟨l1, l2⟩ := bshape_le e
  refine ⟨l1, l2, fun i hi => ?_⟩
  unfold rd
  rw [v, bidx_bidx l1 hi, bidx_bidx l2 hi]

theorem bop_sup (f : Option ℝ → Option ℝ → Option ℝ) {x y : RArr} {r : List Nat} (h : BLe x.shape r) (h' : BLe y.shape r) :
    ∃ z, NArr.bop f x y = .ok z ∧ BLe z.shape r := by
  obtain ⟨q, hq, hl⟩ := bshape_sup h h'
  unfold NArr.bop
  rw [hq]
  exact ⟨_, rfl, hl⟩

theorem rd_self {x : RArr} {i : List Nat} (h : InB x.shape i) : rd x i = x.val i := by
  unfold rd
  rw [bidx_self h]

/-- Reaching back from the four arrays: `(x - a) / (b - a) * (d - c) + c`. -/
theorem affine_ok {x a b c d : RArr} {w : Tree RArr}
    (h : (do checked x (← aadd (← amul (← adiv (← asub x a) (← asub b a)) (← asub d c)) c)) = Except.ok w) :
    ∃ z, w = .leaf z ∧ z.shape = x.shape ∧ BLe a.shape x.shape ∧ BLe b.shape x.shape ∧ BLe c.shape x.shape ∧ BLe d.shape x.shape ∧
      ∀ i, InB x.shape i → z.val i = lift2 (· + ·) (lift2 (· * ·) (fdiv (lift2 (· - ·) (x.val i) (rd a i))
        (lift2 (· - ·) (rd b i) (rd a i))) (lift2 (· - ·) (rd d i) (rd c i))) (rd c i) := by
  obtain ⟨t1, h1, h⟩ := bind_ok h
  obtain ⟨t2, h2, h⟩ := bind_ok h
  obtain ⟨t3, h3, h⟩ := bind_ok h
  obtain ⟨t4, h4, h⟩ := bind_ok h
  obtain ⟨t5, h5, h⟩ := bind_ok h
  obtain ⟨z, h6, h⟩ := bind_ok h
  obtain ⟨rfl, hs⟩ := checked_ok h
  obtain ⟨a1, b1, v1⟩ := rd_bop h1
  obtain ⟨a2, b2, v2⟩ := rd_bop h2
  obtain ⟨a3, b3, v3⟩ := rd_bop h3
  obtain ⟨a4, b4, v4⟩ := rd_bop h4
  obtain ⟨a5, b5, v5⟩ := rd_bop h5
  obtain ⟨a6, b6, v6⟩ := rd_bop h6
  rw [hs] at a6 b6
  have l5 := a6
  have l4 := ble_trans b5 l5
  have l3 := ble_trans a5 l5
  have l2 := ble_trans b3 l3
  have l1 := ble_trans a3 l3
  refine ⟨z, rfl, hs, ble_trans b1 l1, ble_trans a2 l2, b6, ble_trans a4 l4, fun i hi => ?_⟩
  have hl : ∀ {t : RArr}, BLe t.shape x.shape → t.shape.length ≤ i.length := fun h => by rw [hi.1]; exact ble_length h
  rw [← rd_self (x := z) (by rw [hs]; exact hi), v6 i (by rw [hs, hi.1]), v5 i (hl l5), v4 i (hl l4), v3 i (hl l3), v2 i (hl l2),
    v1 i (hl l1), rd_self hi]

theorem affine_run {x a b c d : RArr} (ha : BLe a.shape x.shape) (hb : BLe b.shape x.shape) (hc : BLe c.shape x.shape)
    (hd : BLe d.shape x.shape) :
    ∃ z, (do checked x (← aadd (← amul (← adiv (← asub x a) (← asub b a)) (← asub d c)) c)) = Except.ok (.leaf z) := by
  have hx : ∀ {f : Option ℝ → Option ℝ → Option ℝ} {y t : RArr}, t.shape = x.shape → BLe y.shape x.shape →
      ∃ z, NArr.bop f t y = .ok z ∧ z.shape = x.shape := by
    intro f y t ht hy
    rw [bop_run f (by rw [ht]; exact hy)]
    exact ⟨_, rfl, ht⟩
  obtain ⟨t1, e1, s1⟩ := hx (f := lift2 (· - ·)) (t := x) rfl ha
  obtain ⟨t2, e2, s2⟩ := bop_sup (lift2 (· - ·)) hb ha
  obtain ⟨t3, e3, s3⟩ := hx (f := fdiv) s1 s2
  obtain ⟨t4, e4, s4⟩ := bop_sup (lift2 (· - ·)) hd hc
  obtain ⟨t5, e5, s5⟩ := hx (f := lift2 (· * ·)) s3 s4
  obtain ⟨t6, e6, s6⟩ := hx (f := lift2 (· + ·)) s5 hc
  refine ⟨t6, ?_⟩
  unfold asub adiv amul aadd
  simp only [bind, Except.bind, e1, e2, e3, e4, e5, e6, checked, if_pos s6]

/-- What `transform` and then `inverse_transform` of the min-max scaler do at one place. -/
def MmRel (x : RArr) (vs : List (Tree RArr)) (y z : RArr) : Prop :=
  ((vs[2]? = some .none ∨ vs[3]? = some .none) ∧ y = x ∧ z = x) ∨
  ∃ dn dx mn mx, vs = [.leaf dn, .leaf dx, .leaf mn, .leaf mx] ∧ y.shape = x.shape ∧ z.shape = x.shape ∧
    (∀ i, InB x.shape i → y.val i = lift2 (· + ·) (lift2 (· * ·) (fdiv (lift2 (· - ·) (x.val i) (rd dn i))
        (lift2 (· - ·) (rd dx i) (rd dn i))) (lift2 (· - ·) (rd mx i) (rd mn i))) (rd mn i)) ∧
    ∀ i, InB x.shape i → z.val i = lift2 (· + ·) (lift2 (· * ·) (fdiv (lift2 (· - ·) (y.val i) (rd mn i))
        (lift2 (· - ·) (rd mx i) (rd mn i))) (lift2 (· - ·) (rd dx i) (rd dn i))) (rd dn i)

theorem mm_rel (a : RArr) (vs : List (Tree RArr)) (w : Tree RArr) (h : mmFwd a vs = .ok w) :
    ∃ c, w = .leaf c ∧ c.shape = a.shape ∧ ∃ b, mmBwd c vs = .ok (.leaf b) ∧ MmRel a vs c b := by
  unfold mmFwd at h
  split at h
  · cases h
    exact ⟨a, rfl, rfl, a, rfl, .inl ⟨.inl rfl, rfl, rfl⟩⟩
  · cases h
    refine ⟨a, rfl, rfl, a, ?_, .inl ⟨.inr rfl, rfl, rfl⟩⟩
    unfold mmBwd
    split <;> simp_all
  · rename_i dn dx mn mx
    obtain ⟨z, rfl, hs, l1, l2, l3, l4, hv⟩ := affine_ok h
    obtain ⟨b, hb⟩ := affine_run (x := z) (a := mn) (b := mx) (c := dn) (d := dx) (by rw [hs]; exact l3) (by rw [hs]; exact l4)
      (by rw [hs]; exact l1) (by rw [hs]; exact l2)
    obtain ⟨b', hb', hs', -, -, -, -, hv'⟩ := affine_ok hb
    cases hb'
    exact ⟨z, rfl, hs, b, hb, .inr ⟨dn, dx, mn, mx, rfl, hs, by rw [hs', hs], hv, fun i hi => hv' i (by rw [hs]; exact hi)⟩⟩
  · cases h

/-- The repeated bound is the user's setting at every place of the data. -/
theorem spread_sub {b like : Tree RArr} {p : List Step} {x : RArr} {v : Tree RArr} (hk : KeysOk like) (hl : At like p x)
    (h : Sub (spread b like) p v) : BoundAt b p v := by
  unfold spread at h
  split at h
  · rename_i a
    split at h
    · rename_i hsc
      have hsc : a.shape = [] := by simpa [isScalar] using hsc
      have h1 : At (map (fun _ => a) like.norm) p a := at_map.2 ⟨x, at_norm.2 hl, rfl⟩
      exact .inl ⟨a, rfl, hsc, sub_unique ((keysOk_map _ _).2 (keysOk_norm' hk)) h (sub_leaf.2 h1)⟩
    · rename_i hsc
      exact .inr ⟨fun a' e h' => hsc (by cases e; simpa [isScalar] using h'), h⟩
  · rename_i hb
    exact .inr ⟨fun a e => absurd e (hb a), h⟩

theorem ble_tail (l : List Nat) : BLe l.tail l := by
  cases l with
  | nil => trivial
  | cons a l =>
    unfold BLe
    rw [List.tail_cons, List.reverse_cons]
    have : ∀ (l l' : List Nat), BLeR l (l ++ l') := by
      intro l
      induction l with
      | nil => intro _; trivial
      | cons b l ih => intro l'; exact ⟨.inl rfl, ih l'⟩
    exact this _ _

theorem feature_inB {x : RArr} {j : List Nat} {n : Nat} {c : Nat → ℝ} (hf : Feature x j n c) {r : Nat} (hr : r < n) :
    InB x.shape (r :: j) := by
  cases hsx : x.shape with
  | nil => have := hf.rows; rw [hsx] at this; cases this
  | cons d ds =>
    have h1 := hf.rows
    have h2 := hf.mem
    rw [hsx] at h1 h2
    simp only [List.head?_cons, Option.some.injEq] at h1
    exact inB_cons.2 ⟨by omega, h2⟩

end Verif.Scalers
