import Verif.Lemmas.OneHot
import Mathlib.Algebra.Order.Ring.Int
import Verif.Props.MixedScaler
import Verif.Lemmas.Scalers

/-! # Properties of the one-hot encoder (C47) -/

namespace Verif.Props
open Verif.Tree Verif.OneHot Verif.NdSpec Verif.ForwardSpec Verif.NArr Verif.OneHotSpec
open Verif.Scalers (at_of_struct)

variable {K : Type} [LinearOrder K] [Semiring K]

theorem oh_inOk_iff (X : Tree (NArr K)) :
    inOk X = true ↔ ∀ p x, At X p x → 2 ≤ x.shape.length ∧ ∀ q x', At X q x' → x'.shape.head? = x.shape.head? := by
  have hm : ∀ a, a ∈ jaxLeaves X ↔ ∃ p, At X p a := fun a => mem_jaxLeaves
  unfold inOk
  generalize jaxLeaves X = l at hm
  cases l with
  | nil => simp only [true_iff]; intro p x hx; exact absurd ((hm x).2 ⟨p, hx⟩) (by simp)
  | cons y l =>
    simp only [List.all_eq_true, Bool.and_eq_true, decide_eq_true_eq]
    constructor
    · intro h p x hx
      have h1 := h x ((hm x).2 ⟨p, hx⟩)
      exact ⟨h1.1, fun q x' hx' => (h x' ((hm x').2 ⟨q, hx'⟩)).2.trans h1.2.symm⟩
    · intro h a ha
      obtain ⟨p, hp⟩ := (hm a).1 ha
      obtain ⟨q, hq⟩ := (hm y).1 List.mem_cons_self
      exact ⟨(h p a hp).1, ((h p a hp).2 q y hq).symm⟩

theorem oh_outOk_iff (X : Tree (NArr K)) :
    outOk X = true ↔ ∀ p x, At X p x → x.shape.length = 2 ∧ ∀ q x', At X q x' → x'.shape = x.shape := by
  have hm : ∀ a, a ∈ jaxLeaves X ↔ ∃ p, At X p a := fun a => mem_jaxLeaves
  unfold outOk
  generalize jaxLeaves X = l at hm
  cases l with
  | nil => simp only [true_iff]; intro p x hx; exact absurd ((hm x).2 ⟨p, hx⟩) (by simp)
  | cons y l =>
    simp only [List.all_eq_true, Bool.and_eq_true, decide_eq_true_eq]
    constructor
    · intro h p x hx
      have h1 := h x ((hm x).2 ⟨p, hx⟩)
      exact ⟨h1.1, fun q x' hx' => (h x' ((hm x').2 ⟨q, hx'⟩)).2.trans h1.2.symm⟩
    · intro h a ha
      obtain ⟨p, hp⟩ := (hm a).1 ha
      obtain ⟨q, hq⟩ := (hm y).1 List.mem_cons_self
      exact ⟨(h p a hp).1, ((h p a hp).2 q y hq).symm⟩

/-- Encoding and decoding at one place. -/
def EncRel (x : NArr K) (vs : List (Tree (Fitted K))) (y z : NArr K) : Prop :=
  ∃ u, vs = [.leaf u] ∧ y.shape = [x.shape.headD 0, u.table.length] ∧
    (∀ r k, y.val [r, k] = if eqRow (row x r) (u.table.getD k []) then 1 else 0) ∧ z.shape = x.shape.headD 0 :: u.shape ∧
    ∀ r j, z.val (r :: j) =
      ((List.range u.table.length).map fun k => y.val [r, k] * (u.table.getD k []).getD ((indices u.shape).idxOf j) 0).sum

theorem enc_rel (a : NArr K) (vs : List (Tree (Fitted K))) (w : Tree (NArr K)) (h : encode a vs = .ok w) :
    ∃ c, w = .leaf c ∧ ∃ b, decode c vs = .ok (.leaf b) ∧ EncRel a vs c b := by
  unfold encode at h
  split at h
  · rename_i u
    split at h
    · cases h
      refine ⟨_, rfl, ?_⟩
      simp only [decode, List.getElem?_cons_succ, List.getElem?_cons_zero, if_true]
      exact ⟨_, rfl, u, rfl, rfl, fun _ _ => rfl, rfl, fun _ _ => rfl⟩
    · cases h
  · cases h

theorem range_getD {α β : Type} (f : α → β) (d : α) (T : List α) : (List.range T.length).map (fun k => f (T.getD k d)) = T.map f := by
  apply List.ext_getElem
  · simp
  · intro i h1 h2
    simp only [List.length_map] at h2
    simp [List.getElem?_eq_getElem h2]

theorem decode_sum {a : List K} {T : List (List K)} (hT : T.Nodup) (c : Nat) :
    (T.map fun b => (if a = b then (1 : K) else 0) * b.getD c 0).sum = if a ∈ T then a.getD c 0 else 0 := by
  induction T with
  | nil => simp
  | cons b T ih =>
    rw [List.map_cons, List.sum_cons, ih (List.nodup_cons.1 hT).2]
    have hb := (List.nodup_cons.1 hT).1
    by_cases h : a = b
    · subst h
      rw [if_pos rfl, one_mul, if_neg hb, add_zero, if_pos List.mem_cons_self]
    · rw [if_neg h, zero_mul, zero_add]
      simp [h]

theorem oh_fit_ok {X : Tree (NArr K)} {s : Tree (Fitted K)} (h : OneHot.fit X = .ok s) : inOk X = true ∧ s = map fitLeaf X.norm := by
  unfold OneHot.fit at h
  split at h
  · rename_i hi; cases h; exact ⟨hi, rfl⟩
  · cases h

theorem oh_transform_ok {s : Option (Tree (Fitted K))} {X Y : Tree (NArr K)} (h : OneHot.transform s X = .ok Y) :
    inOk X = true ∧ outOk Y = true ∧ ∃ s', s = some s' ∧ jaxMap encode X [s'] = .ok Y := by
  unfold OneHot.transform at h
  split at h
  · rename_i hi
    split at h
    · cases h
    · rename_i s'
      split at h
      · cases h
      · rename_i Y' hY
        split at h
        · rename_i ho; cases h; exact ⟨hi, ho, s', rfl, hY⟩
        · cases h
  · cases h

/-- Everything about one place: the fitted table, the encoding and the decoding. -/
theorem oh_places {X0 X Y : Tree (NArr K)} (h0 : KeysOk X0) (hX : KeysOk X) {s : Tree (Fitted K)} (hfit : OneHot.fit X0 = .ok s)
    (ht : OneHot.transform (some s) X = .ok Y) :
    ∃ Z, OneHot.inverse (some s) Y = .ok Z ∧ map (fun _ => ()) Y = map (fun _ => ()) X.norm ∧
      map (fun _ => ()) Z = map (fun _ => ()) X.norm ∧
      ∀ p x, At X p x → ∃ x0 y z, At X0 p x0 ∧ At Y p y ∧ At Z p z ∧ EncRel x [.leaf (fitLeaf x0)] y z := by
  obtain ⟨hi0, rfl⟩ := oh_fit_ok hfit
  obtain ⟨hi, ho, s', hs', hj⟩ := oh_transform_ok ht
  cases hs'
  obtain ⟨Z, h1, h2, h3⟩ := jaxMap_back (R := EncRel) enc_rel hX hj
  have hY : map (fun _ => ()) Y = map (fun _ => ()) X.norm :=
    jaxMap_struct (fun a vs w h => by obtain ⟨c, e1, -⟩ := enc_rel a vs w h; exact ⟨c, e1⟩) hj
  have key : ∀ p x, At X p x → ∃ x0 y z, At X0 p x0 ∧ At Y p y ∧ At Z p z ∧ EncRel x [.leaf (fitLeaf x0)] y z := by
    intro p x hx
    obtain ⟨vs, y, z, hy, hz, -, hsub, u, rfl, hrel⟩ := h3 p x hx
    have := sub_leaf.1 (hsub 0 _ _ rfl rfl)
    obtain ⟨x0, hx0, rfl⟩ := at_map.1 this
    exact ⟨x0, y, z, at_norm.1 hx0, hy, hz, _, rfl, hrel⟩
  refine ⟨Z, ?_, hY, h2, key⟩
  have hZ : KeysOk Z := keysOk_of_struct h2 (keysOk_norm' hX)
  have hiZ : inOk Z = true := by
    rw [oh_inOk_iff] at hi hi0 ⊢
    have hz : ∀ p z, At Z p z → 2 ≤ z.shape.length ∧ ∃ x, At X p x ∧ z.shape.head? = x.shape.head? := by
      intro p z hz
      obtain ⟨x, hx⟩ := at_of_struct h2 hz
      have hx := at_norm.1 hx
      obtain ⟨x0, y, z', hx0, -, hz', u, hu, -, -, hzs, -⟩ := key p x hx
      cases hu
      rw [at_unique hZ hz hz', hzs]
      refine ⟨?_, x, hx, ?_⟩
      · have := (hi0 p x0 hx0).1
        simp only [fitLeaf, List.length_cons, List.length_tail]
        omega
      · have := (hi p x hx).1
        cases hxs : x.shape with
        | nil => simp [hxs] at this
        | cons n s => rfl
    intro p z hpz
    obtain ⟨h2, x, hx, e⟩ := hz p z hpz
    refine ⟨h2, fun q z' hqz => ?_⟩
    obtain ⟨-, x', hx', e'⟩ := hz q z' hqz
    rw [e, e', (hi p x hx).2 q x' hx']
  unfold OneHot.inverse
  rw [if_pos ho]
  simp only [h1, hiZ, if_true]

theorem eqRow_fit {x x0 : NArr K} (hc : Chain x0 (x0.shape.headD 0)) (htail : x.shape.tail = x0.shape.tail) {r k : Nat}
    (hk : k < (fitLeaf x0).table.length) : eqRow (row x r) ((fitLeaf x0).table.getD k []) = true ↔ row x r = (uniq (rows x0)).getD k [] := by
  rw [table_chain hc] at hk ⊢
  apply eqRow_same
  have : (uniq (rows x0)).getD k [] ∈ rows x0 := by
    rw [← mem_uniq, List.getD_eq_getElem?_getD, List.getElem?_eq_getElem hk]
    exact List.getElem_mem hk
  obtain ⟨q, -, hq⟩ := mem_rows.1 this
  rw [← hq, row_length, row_length]
  unfold width
  rw [htail]

theorem seen_iff {x x0 : NArr K} (htail : x.shape.tail = x0.shape.tail) {r n0 : Nat} {s0 : List Nat} (hs : x0.shape = n0 :: s0) :
    row x r ∈ uniq (rows x0) ↔ ∃ q < n0, SameRow x r x0 q := by
  rw [mem_uniq, mem_rows, hs]
  simp only [List.headD_cons]
  refine exists_congr fun q => and_congr_right fun _ => ?_
  rw [← row_eq htail]
  exact eq_comm

/-- **C47 (partial)** One-hot encoding, for data whose samples are comparable (any two samples `a`, `b` satisfy `a ≤ b` or `b ≤ a` in
every entry; always so for single numbers). There is one column per different fitted sample. The code of every row that was seen in
fitting is a single 1, in the same column exactly for equal rows; every column is the code of some fitted row; unseen rows get zeros. -/
theorem C47_encode_partial (X0 X Y : Tree (NArr K)) (h0 : KeysOk X0) (hX : KeysOk X) (s : Tree (Fitted K))
    (hfit : OneHot.fit X0 = .ok s) (ht : OneHot.transform (some s) X = .ok Y) :
    map (fun _ => ()) Y = map (fun _ => ()) X.norm ∧
    ∀ p n d x n0 x0, At X p x → At X0 p x0 → x.shape = n :: d → x0.shape = n0 :: d → Chain x0 n0 →
      ∃ y m, At Y p y ∧ y.shape = [n, m] ∧ m = (Samples x0 n0).ncard ∧
        (∀ r < n, (∃ q < n0, SameRow x r x0 q) → ∃ k < m, y.val [r, k] = 1 ∧ (∀ k' < m, k' ≠ k → y.val [r, k'] = 0) ∧
          ∀ r' < n, y.val [r', k] = open Classical in if SameRow x r x r' then 1 else 0) ∧
        (∀ k < m, ∃ q < n0, ∀ r < n, y.val [r, k] = open Classical in if SameRow x r x0 q then 1 else 0) ∧
        ∀ r < n, (¬ ∃ q < n0, SameRow x r x0 q) → ∀ k < m, y.val [r, k] = 0 := by
  obtain ⟨Z, -, hY, -, key⟩ := oh_places h0 hX hfit ht
  refine ⟨hY, fun p n d x n0 x0 hx hx0 hs hs0 hc => ?_⟩
  obtain ⟨x0', y, z, hx0', hy, hz, u, hu, hys, hyv, -, -⟩ := key p x hx
  cases hu
  cases at_unique h0 hx0' hx0
  have hc' : Chain x0 (x0.shape.headD 0) := by rw [hs0]; exact hc
  have htail : x.shape.tail = x0.shape.tail := by rw [hs, hs0]; rfl
  have hlen : (fitLeaf x0).table.length = (Samples x0 n0).ncard := by rw [table_length, hs0]; rfl
  have hval : ∀ r k, k < (fitLeaf x0).table.length → y.val [r, k] = if row x r = (uniq (rows x0)).getD k [] then 1 else 0 := by
    intro r k hk
    rw [hyv]
    simp only [eqRow_fit hc' htail hk]
  have hl2 : (fitLeaf x0).table.length = (uniq (rows x0)).length := by rw [table_chain hc']
  have hg : ∀ k (hk : k < (fitLeaf x0).table.length), (uniq (rows x0)).getD k [] = (uniq (rows x0))[k]'(hl2 ▸ hk) := by
    intro k hk
    rw [List.getD_eq_getElem?_getD, List.getElem?_eq_getElem (hl2 ▸ hk)]; rfl
  refine ⟨y, (fitLeaf x0).table.length, hy, by rw [hys, hs]; rfl, hlen, fun r hr hseen => ?_, fun k hk => ?_, fun r hr hun k hk => ?_⟩
  · obtain ⟨k, hk, hkr⟩ := List.getElem_of_mem ((seen_iff htail hs0).2 hseen)
    rw [← hl2] at hk
    refine ⟨k, hk, by rw [hval r k hk, hg k hk, if_pos hkr.symm], fun k' hk' hne => ?_, fun r' hr' => ?_⟩
    · rw [hval r k' hk', hg k' hk', if_neg]
      intro e
      exact hne ((nodup_uniq (rows x0)).getElem_inj_iff.1 (e.symm.trans hkr.symm))
    · rw [hval r' k hk, hg k hk, hkr]
      by_cases e : row x r' = row x r
      · rw [if_pos e, if_pos ((row_eq rfl).1 e.symm)]
      · rw [if_neg e, if_neg fun h => e ((row_eq rfl).2 h).symm]
  · have hmem : (uniq (rows x0)).getD k [] ∈ rows x0 := by
      rw [hg k hk, ← mem_uniq]; exact List.getElem_mem _
    obtain ⟨q, hq, e⟩ := mem_rows.1 hmem
    refine ⟨q, by rw [hs0] at hq; exact hq, fun r _ => ?_⟩
    rw [hval r k hk, ← e]
    by_cases e' : row x r = row x0 q
    · rw [if_pos e', if_pos ((row_eq htail).1 e')]
    · rw [if_neg e', if_neg fun h => e' ((row_eq htail).2 h)]
  · rw [hval r k hk, if_neg]
    intro e
    apply hun
    rw [← seen_iff htail hs0, e, hg k hk]
    exact List.getElem_mem _

/-- **C47 (partial)** Decoding an encoding succeeds, gives back every row that was seen in fitting, and zeros for unseen rows. -/
theorem C47_decode_partial (X0 X Y : Tree (NArr K)) (h0 : KeysOk X0) (hX : KeysOk X) (s : Tree (Fitted K))
    (hfit : OneHot.fit X0 = .ok s) (ht : OneHot.transform (some s) X = .ok Y) :
    ∃ Z, OneHot.inverse (some s) Y = .ok Z ∧ map (fun _ => ()) Z = map (fun _ => ()) X.norm ∧
      ∀ p n d x n0 x0, At X p x → At X0 p x0 → x.shape = n :: d → x0.shape = n0 :: d → Chain x0 n0 →
        ∃ z, At Z p z ∧ z.shape = x.shape ∧ ∀ r j, InB x.shape (r :: j) →
          z.val (r :: j) = open Classical in if ∃ q < n0, SameRow x r x0 q then x.val (r :: j) else 0 := by
  obtain ⟨Z, hZ, -, hZs, key⟩ := oh_places h0 hX hfit ht
  refine ⟨Z, hZ, hZs, fun p n d x n0 x0 hx hx0 hs hs0 hc => ?_⟩
  obtain ⟨x0', y, z, hx0', hy, hz, u, hu, hys, hyv, hzs, hzv⟩ := key p x hx
  cases hu
  cases at_unique h0 hx0' hx0
  have hc' : Chain x0 (x0.shape.headD 0) := by rw [hs0]; exact hc
  have htail : x.shape.tail = x0.shape.tail := by rw [hs, hs0]; rfl
  have hsh : (fitLeaf x0).shape = d := by simp [fitLeaf, hs0]
  refine ⟨z, hz, by rw [hzs, hs, hsh]; rfl, fun r j hj => ?_⟩
  have hj' : InB x.shape.tail j := by rw [hs] at hj ⊢; exact (inB_cons.1 hj).2
  rw [hzv]
  have e : (List.range (fitLeaf x0).table.length).map
        (fun k => y.val [r, k] * ((fitLeaf x0).table.getD k []).getD ((indices (fitLeaf x0).shape).idxOf j) 0) =
      (List.range (uniq (rows x0)).length).map fun k => (fun b => (if row x r = b then (1 : K) else 0) *
        b.getD ((indices (fitLeaf x0).shape).idxOf j) 0) ((uniq (rows x0)).getD k []) := by
    rw [table_chain hc']
    refine List.map_inj_left.2 fun k hk => ?_
    rw [List.mem_range, ← table_chain hc'] at hk
    rw [hyv]
    simp only [eqRow_fit hc' htail hk]
  rw [e, range_getD (f := fun b => (if row x r = b then (1 : K) else 0) * b.getD ((indices (fitLeaf x0).shape).idxOf j) 0),
    decode_sum (nodup_uniq _)]
  have hrow : (row x r).getD ((indices (fitLeaf x0).shape).idxOf j) 0 = x.val (r :: j) := by
    have : (fitLeaf x0).shape = x.shape.tail := by rw [hsh, hs]; rfl
    rw [this, row_getD hj']
  rw [hrow]
  by_cases hseen : ∃ q < n0, SameRow x r x0 q
  · rw [if_pos ((seen_iff htail hs0).2 hseen), if_pos hseen]
  · rw [if_neg fun h => hseen ((seen_iff htail hs0).1 h), if_neg hseen]

theorem oh_leaf {x : NArr K} (h : 2 ≤ x.shape.length) : OneHot.fit (.leaf x) = .ok (.leaf (fitLeaf x)) := by
  unfold OneHot.fit
  rw [if_pos ((oh_inOk_iff _).2 fun p x' hx' => ?_)]
  · rfl
  · cases hx'
    exact ⟨h, fun q x'' hx'' => by cases hx''; rfl⟩

/-- **C47** For single arrays the encoder always works: fitting and encoding any array of samples of the fitted shape succeed. -/
theorem C47_defined (x0 x : NArr K) (n0 n : Nat) (d : List Nat) (hd : d ≠ []) (h0 : x0.shape = n0 :: d) (h : x.shape = n :: d) :
    ∃ s y, OneHot.fit (.leaf x0) = .ok s ∧ OneHot.transform (some s) (.leaf x) = .ok (.leaf y) := by
  have hl : 2 ≤ (n :: d).length := by
    have := List.length_pos_iff.2 hd
    simp; omega
  have hw : width x = (fitLeaf x0).width := by simp [width, Fitted.width, fitLeaf, h0, h]
  have hj : ∃ y : NArr K, jaxMap encode (.leaf x) [.leaf (fitLeaf x0)] = .ok (.leaf y) ∧ y.shape.length = 2 := by
    simp only [jaxMap, zipAll, Tree.norm, map, zipPre, mapM, encode, List.nil_append, hw, true_or, if_true]
    exact ⟨_, rfl, rfl⟩
  obtain ⟨y, hy, hy2⟩ := hj
  refine ⟨_, y, oh_leaf (x := x0) (by rw [h0]; exact hl), ?_⟩
  have hi : inOk (.leaf x) = true := (oh_inOk_iff _).2 fun p x' hx' => by
    cases hx'
    exact ⟨by rw [h]; exact hl, fun q x'' hx'' => by cases hx''; rfl⟩
  have ho : outOk (.leaf y) = true := (oh_outOk_iff _).2 fun p x' hx' => by
    cases hx'
    exact ⟨hy2, fun q x'' hx'' => by cases hx''; rfl⟩
  unfold OneHot.transform
  simp only [hi, hy, ho, if_true]

/-- **C47, exactly when it works.** Fit a single array and encode it: every row gets a nonzero code if and only if its samples are
comparable. So data with two incomparable samples, such as `(0, 1)` and `(1, 0)`, always contains rows that are encoded as unseen. -/
theorem C47_incomparable_refuted [Nontrivial K] (x : NArr K) (n : Nat) (d : List Nat) (hd : d ≠ []) (h : x.shape = n :: d) :
    ∃ s y m, OneHot.fit (.leaf x) = .ok s ∧ OneHot.transform (some s) (.leaf x) = .ok (.leaf y) ∧ y.shape = [n, m] ∧
      ((∀ r < n, ∃ k < m, y.val [r, k] ≠ 0) ↔ Chain x n) := by
  obtain ⟨s, y, h1, h2⟩ := C47_defined x x n n d hd h h
  obtain ⟨-, e⟩ := oh_fit_ok h1
  obtain ⟨Z, -, -, -, key⟩ := oh_places (X0 := .leaf x) (X := .leaf x) (by simp [KeysOk]) (by simp [KeysOk]) h1 h2
  obtain ⟨x0, y', z, hx0, hy, hz, u, hu, hys, hyv, -⟩ := key [] x (.leaf x)
  cases hu; cases hx0; cases hy
  refine ⟨s, y, (fitLeaf x).table.length, h1, h2, by rw [hys, h]; rfl, ?_, ?_⟩
  · intro hall
    have hin : ∀ r < n, row x r ∈ (fitLeaf x).table := by
      intro r hr
      obtain ⟨k, hk, hne⟩ := hall r hr
      rw [hyv] at hne
      have hmem : (fitLeaf x).table.getD k [] ∈ (fitLeaf x).table := by
        rw [List.getD_eq_getElem?_getD, List.getElem?_eq_getElem hk]
        exact List.getElem_mem hk
      have hlen : ((fitLeaf x).table.getD k []).length = width x := by
        obtain ⟨i, -, hi⟩ := List.mem_map.1 hmem
        rw [← hi]; simp
      have : eqRow (row x r) ((fitLeaf x).table.getD k []) = true := by
        by_contra hc
        exact hne (if_neg hc)
      rw [eqRow_same (by rw [hlen, row_length])] at this
      rw [this]; exact hmem
    intro r hr q hq
    exact (colSort_below (hin r hr) (hin q hq)).imp below_row.1 below_row.1
  · intro hc r hr
    obtain ⟨-, henc⟩ := C47_encode_partial (.leaf x) (.leaf x) (.leaf y) (by simp [KeysOk]) (by simp [KeysOk]) s h1 h2
    obtain ⟨y', m, hy', hys', -, hseen, -⟩ := henc [] n d x n x (.leaf x) (.leaf x) h h hc
    cases hy'
    obtain ⟨k, hk, hk1, -⟩ := hseen r hr ⟨r, hr, fun _ _ => rfl⟩
    have : m = (fitLeaf x).table.length := by
      have := hys.symm.trans hys'
      simp only [List.cons.injEq, and_true] at this
      exact this.2.symm
    exact ⟨k, this ▸ hk, by rw [hk1]; exact one_ne_zero⟩

/-- Single numbers are always comparable. -/
theorem C47_scalar (x : NArr K) (n : Nat) (h : x.shape = [n, 1]) : Chain x n := by
  intro r _ q _
  rcases le_total (x.val [r, 0]) (x.val [q, 0]) with hl | hl
  · refine .inl fun j hj => ?_
    rw [h] at hj
    have hj : j = [0] := by
      have := mem_indices.2 hj
      simpa [indices] using this
    rw [hj]; exact hl
  · refine .inr fun j hj => ?_
    rw [h] at hj
    have hj : j = [0] := by
      have := mem_indices.2 hj
      simpa [indices] using this
    rw [hj]; exact hl

/-- **C47, refuted for containers in general.** If two arrays of the fitted data have a different number of different samples, encoding
fails for every input with the fitted structure. -/
theorem C47_counts_refuted (X0 X : Tree (NArr K)) (h0 : KeysOk X0) (hX : KeysOk X) (s : Tree (Fitted K)) (hfit : OneHot.fit X0 = .ok s)
    (p q : List Step) (a b xa xb : NArr K) (na nb : Nat) (da db : List Nat) (ha : At X0 p a) (hb : At X0 q b) (hxa : At X p xa)
    (hxb : At X q xb) (sa : a.shape = na :: da) (sb : b.shape = nb :: db) (hne : (Samples a na).ncard ≠ (Samples b nb).ncard) :
    ∃ e, OneHot.transform (some s) X = .error e := by
  cases ht : OneHot.transform (some s) X with
  | error e => exact ⟨e, rfl⟩
  | ok Y =>
    exfalso
    obtain ⟨-, ho, -⟩ := oh_transform_ok ht
    obtain ⟨Z, -, -, -, key⟩ := oh_places h0 hX hfit ht
    obtain ⟨a', ya, -, ha', hya, -, u, hu, sya, -⟩ := key p xa hxa
    cases hu
    obtain ⟨b', yb, -, hb', hyb, -, u, hu, syb, -⟩ := key q xb hxb
    cases hu
    cases at_unique h0 ha' ha
    cases at_unique h0 hb' hb
    have := ((oh_outOk_iff _).1 ho p ya hya).2 q yb hyb
    rw [sya, syb] at this
    simp only [List.cons.injEq, and_true] at this
    rw [table_length, table_length, sa, sb] at this
    exact hne this.2.symm

/-- **C47** An encoder that was not fitted refuses to encode. -/
theorem C47_unfitted (X : Tree (NArr K)) : ∃ e, OneHot.transform (Option.none : Option (Tree (Fitted K))) X = .error e := by
  unfold OneHot.transform
  split
  · exact ⟨_, rfl⟩
  · exact ⟨_, rfl⟩

/-- Three samples of two numbers, comparable, one of them twice. -/
def ohA : NArr Int := ⟨[3, 2], fun i => match i with
  | [0, 0] => 5 | [0, 1] => 7 | [1, 0] => 1 | [1, 1] => 2 | [2, 0] => 5 | [2, 1] => 7 | _ => 0⟩
/-- Two incomparable samples. -/
def ohB : NArr Int := ⟨[2, 2], fun i => match i with
  | [0, 0] => 0 | [0, 1] => 1 | [1, 0] => 1 | [1, 1] => 0 | _ => 0⟩

theorem ohA_chain : Chain ohA 3 := by
  have key : ∀ r < 3, ∀ q < 3, (∀ j ∈ indices [2], ohA.val (r :: j) ≤ ohA.val (q :: j)) ∨
      ∀ j ∈ indices [2], ohA.val (q :: j) ≤ ohA.val (r :: j) := by decide
  intro r hr q hq
  exact (key r hr q hq).imp (fun h j hj => h j (mem_indices.2 hj)) fun h j hj => h j (mem_indices.2 hj)

/-- The hypotheses of `C47_encode_partial` are met by data that is not trivial, in a list. -/
example : ∃ s Y, OneHot.fit (.list [.leaf ohA]) = .ok s ∧ OneHot.transform (some s) (.list [.leaf ohA]) = .ok Y ∧ Chain ohA 3 ∧
    KeysOk (Tree.list [.leaf ohA]) :=
  ⟨_, _, rfl, rfl, ohA_chain, by simp [KeysOk, KeysOkL]⟩

example : ¬ Chain ohB 2 := by
  intro h
  have := h 0 (by omega) 1 (by omega)
  have h0 : InB ohB.shape.tail [0] := by rw [← mem_indices]; simp [ohB, indices]
  have h1 : InB ohB.shape.tail [1] := by rw [← mem_indices]; simp [ohB, indices]
  rcases this with h | h
  · have := h [1] h1; simp [ohB] at this
  · have := h [0] h0; simp [ohB] at this

end Verif.Props
