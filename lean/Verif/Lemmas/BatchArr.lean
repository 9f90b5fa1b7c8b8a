import Verif.Model.BatchArr
import Verif.Lemmas.Samplewise
import Verif.Lemmas.SamplewiseArr
import Verif.Lemmas.ModelFile
import Verif.Lemmas.TreeBind
import Verif.Lemmas.TreeZip
import Verif.Lemmas.Reshape

/-!
# Lemmas about automatic batching on trees of arrays
-/

namespace Verif
namespace BatchArr

open Tree Samplewise ForwardSpec

variable {A B C X Y V S : Type}

/-! ### Trees over the same structure -/

mutual
theorem pullback (g : A → C) (h : B → C) : ∀ (t : Tree A) (u : Tree B), map g t = map h u →
    ∃ w : Tree {p : A × B // g p.1 = h p.2}, t = map (fun p => p.1.1) w ∧ u = map (fun p => p.1.2) w
  | .leaf a, .leaf b, e => ⟨.leaf ⟨(a, b), by simpa [map] using e⟩, rfl, rfl⟩
  | .none, .none, _ => ⟨.none, rfl, rfl⟩
  | .list ts, .list us, e => by
    obtain ⟨w, h1, h2⟩ := pullbackL g h ts us (by simpa [map] using e)
    exact ⟨.list w, by rw [map, ← h1], by rw [map, ← h2]⟩
  | .tuple ts, .tuple us, e => by
    obtain ⟨w, h1, h2⟩ := pullbackL g h ts us (by simpa [map] using e)
    exact ⟨.tuple w, by rw [map, ← h1], by rw [map, ← h2]⟩
  | .dict ts, .dict us, e => by
    obtain ⟨w, h1, h2⟩ := pullbackD g h ts us (by simpa [map] using e)
    exact ⟨.dict w, by rw [map, ← h1], by rw [map, ← h2]⟩
  | .leaf _, .none, e => by simp [map] at e
  | .leaf _, .list _, e => by simp [map] at e
  | .leaf _, .tuple _, e => by simp [map] at e
  | .leaf _, .dict _, e => by simp [map] at e
  | .none, .leaf _, e => by simp [map] at e
  | .none, .list _, e => by simp [map] at e
  | .none, .tuple _, e => by simp [map] at e
  | .none, .dict _, e => by simp [map] at e
  | .list _, .leaf _, e => by simp [map] at e
  | .list _, .none, e => by simp [map] at e
  | .list _, .tuple _, e => by simp [map] at e
  | .list _, .dict _, e => by simp [map] at e
  | .tuple _, .leaf _, e => by simp [map] at e
  | .tuple _, .none, e => by simp [map] at e
  | .tuple _, .list _, e => by simp [map] at e
  | .tuple _, .dict _, e => by simp [map] at e
  | .dict _, .leaf _, e => by simp [map] at e
  | .dict _, .none, e => by simp [map] at e
  | .dict _, .list _, e => by simp [map] at e
  | .dict _, .tuple _, e => by simp [map] at e
theorem pullbackL (g : A → C) (h : B → C) : ∀ (ts : List (Tree A)) (us : List (Tree B)), mapL g ts = mapL h us →
    ∃ w : List (Tree {p : A × B // g p.1 = h p.2}), ts = mapL (fun p => p.1.1) w ∧ us = mapL (fun p => p.1.2) w
  | [], [], _ => ⟨[], rfl, rfl⟩
  | t :: ts, u :: us, e => by
    simp only [mapL, List.cons.injEq] at e
    obtain ⟨w, h1, h2⟩ := pullback g h t u e.1
    obtain ⟨ws, h3, h4⟩ := pullbackL g h ts us e.2
    exact ⟨w :: ws, by rw [mapL, ← h1, ← h3], by rw [mapL, ← h2, ← h4]⟩
  | [], _ :: _, e => by simp [mapL] at e
  | _ :: _, [], e => by simp [mapL] at e
theorem pullbackD (g : A → C) (h : B → C) : ∀ (ts : List (Str × Tree A)) (us : List (Str × Tree B)), mapD g ts = mapD h us →
    ∃ w : List (Str × Tree {p : A × B // g p.1 = h p.2}), ts = mapD (fun p => p.1.1) w ∧ us = mapD (fun p => p.1.2) w
  | [], [], _ => ⟨[], rfl, rfl⟩
  | (k, t) :: ts, (k', u) :: us, e => by
    simp only [mapD, List.cons.injEq, Prod.mk.injEq] at e
    obtain ⟨w, h1, h2⟩ := pullback g h t u e.1.2
    obtain ⟨ws, h3, h4⟩ := pullbackD g h ts us e.2
    exact ⟨(k, w) :: ws, by rw [mapD, ← h1, ← h3], by rw [mapD, ← h2, ← h4, ← e.1.1]⟩
  | [], _ :: _, e => by simp [mapD] at e
  | _ :: _, [], e => by simp [mapD] at e
end

/-- Consecutive pieces with the lengths `ls`, the first of which begins at `a`. -/
def Chain (R : Nat → Nat → A → Prop) : Nat → List Nat → List A → Prop
  | _, [], [] => True
  | a, l :: ls, x :: xs => R a l x ∧ Chain R (a + l) ls xs
  | _, _, _ => False

theorem zipPre_maps (g : X → A) (h : X → B) {t : Tree X} (hk : KeysOk t) : zipPre (map g t) (map h t) = .ok (map (fun x => (g x, .leaf (h x))) t) := by
  rw [← bind_leaf h t, zipPre_bind g _ t hk]

theorem zipAll_chain (R : Nat → Nat → A → B → Prop) : ∀ (us : List (Tree B)) (a : Nat) (ls : List Nat) {X : Type} (Z : Tree X) (fa : X → A) (fx : X → Y)
    (fv : X → List (Tree B)), KeysOk Z → Chain (fun a l u => Related (R a l) (map fa Z) u) a ls us →
    ∃ W : Tree {q : X × List B // Chain (fun a l b => R a l (fa q.1) b) a ls q.2},
      zipAll us (map (fun x => (fx x, fv x)) Z) = .ok (map (fun q => (fx q.1.1, fv q.1.1 ++ q.1.2.map Tree.leaf)) W) ∧ Z = map (fun q => q.1.1) W
  | [], a, [], X, Z, fa, fx, fv, _, _ => by
    refine ⟨map (fun z => ⟨(z, []), trivial⟩) Z, ?_, ?_⟩
    · simp only [zipAll, Tree.map_map, List.map_nil, List.append_nil]
    · simp only [Tree.map_map, Tree.map_id]
  | u :: us, a, l :: ls, X, Z, fa, fx, fv, hk, ⟨h1, h2⟩ => by
    obtain ⟨z, hz, hu⟩ := h1
    obtain ⟨w, hw1, hw2⟩ := pullback fa (fun p : {p : A × B // R a l p.1 p.2} => p.1.1) Z z hz
    have hkw : KeysOk w := by rw [hw1, keysOk_map] at hk; exact hk
    have e1 : u = map (fun p => p.1.2.1.2) w := by rw [hu, hw2, Tree.map_map]
    have h2' : Chain (fun b k u => Related (R b k) (map (fun p : {p : X × {p : A × B // R a l p.1 p.2} // fa p.1 = p.2.1.1} => fa p.1.1) w) u) (a + l) ls us := by
      have e : map fa Z = map (fun p : {p : X × {p : A × B // R a l p.1 p.2} // fa p.1 = p.2.1.1} => fa p.1.1) w := by
        conv_lhs => rw [hw1]
        rw [Tree.map_map]
      rw [← e]; exact h2
    obtain ⟨W, h3, h4⟩ := zipAll_chain R us (a + l) ls w (fun p => fa p.1.1) (fun p => fx p.1.1) (fun p => fv p.1.1 ++ [.leaf p.1.2.1.2]) hkw h2'
    refine ⟨map (fun q => ⟨(q.1.1.1.1, q.1.1.1.2.1.2 :: q.1.2), ?_, q.2⟩) W, ?_, ?_⟩
    · have := q.1.1.1.2.2
      rw [← q.1.1.2] at this
      exact this
    · have e0 : map (fun x => (fx x, fv x)) Z = map (fun p : {p : X × {p : A × B // R a l p.1 p.2} // fa p.1 = p.2.1.1} => (fx p.1.1, fv p.1.1)) w := by
        conv_lhs => rw [hw1]
        rw [Tree.map_map]
      rw [zipAll, e0, e1, zipPre_maps _ _ hkw]
      simp only [Tree.map_map]
      rw [h3]
      simp only [List.map_cons, List.append_assoc, List.singleton_append]
    · rw [Tree.map_map]
      conv_lhs => rw [hw1, h4]
      rw [Tree.map_map]

theorem asArrays_leaves (xs : List (NArr V)) : asArrays (xs.map Tree.leaf) = .ok xs := by
  induction xs with
  | nil => rfl
  | cons x xs ih => simp only [List.map_cons, asArrays, ih]

open Classical in
theorem mapM_related_of [Inhabited C] {F : A → Except PyErr (Tree C)} {g : A → B} {Q : B → C → Prop} {t : Tree A}
    (h : ∀ a ∈ Tree.flat t, ∃ c, F a = .ok (.leaf c) ∧ Q (g a) c) : ∃ u, Tree.mapM F t = .ok u ∧ Related Q (map g t) u := by
  let c : A → C := fun a => if h : ∃ c, F a = .ok (.leaf c) ∧ Q (g a) c then h.choose else default
  have hc : ∀ a ∈ Tree.flat t, F a = .ok (.leaf (c a)) ∧ Q (g a) (c a) := by
    intro a ha
    have e : c a = (h a ha).choose := dif_pos (h a ha)
    rw [e]
    exact (h a ha).choose_spec
  refine ⟨map c t, ?_, ?_⟩
  · rw [mapM_congr F (fun a => .ok (.leaf (c a))) t fun a ha => (hc a ha).1]
    exact mapM_pure c t
  · have := map_related (Q := Q) (F := g) (G := fun b => b) (fun a b (hab : b = c a ∧ Q (g a) (c a)) => hab.1 ▸ hab.2)
      (related_self (R := fun a b => b = c a ∧ Q (g a) (c a)) (g := c) t fun a ha => ⟨rfl, (hc a ha).2⟩)
    rwa [Tree.map_id] at this

/-- Trees that are consecutive pieces of one tree, put together leaf by leaf. -/
theorem overTrees_chain [Inhabited V] {R : Nat → Nat → NArr V → NArr V → Prop} {Q : NArr V → NArr V → Prop} {g : List (NArr V) → Except PyErr (NArr V)} {a : Nat}
    {ls : List Nat} (hls : ls ≠ []) {out : Tree (NArr V)} (hs : Sorted out) (hk : KeysOk out)
    (hg : ∀ x ∈ Tree.flat out, ∀ ys, Chain (fun a l y => R a l x y) a ls ys → ∃ z, g ys = .ok z ∧ Q x z) {ts : List (Tree (NArr V))}
    (h : Chain (fun a l t => Related (R a l) out t) a ls ts) : ∃ t, overTrees g ts = .ok t ∧ Related Q out t := by
  match ls, ts, h with
  | l :: ls, t :: ts, ⟨⟨z, hz1, hz2⟩, h2⟩ =>
    have hkz : KeysOk z := by rw [hz1, keysOk_map] at hk; exact hk
    have hsz : Sorted z := by rw [hz1, sorted_map] at hs; exact hs
    rw [hz1] at h2
    obtain ⟨W, h3, h4⟩ := zipAll_chain R ts (a + l) ls z (fun p => p.1.1) (fun p => p.1.2) (fun _ => []) hkz h2
    have hnt : t.norm = t := norm_of_sorted t (by rw [hz2, sorted_map]; exact hsz)
    have ho : out = map (fun q => q.1.1.1.1) W := by
      conv_lhs => rw [hz1, h4]
      rw [Tree.map_map]
    simp only [overTrees, Tree.jaxMap, hnt]
    rw [hz2, Tree.map_map, h3]
    simp only [List.nil_append]
    rw [mapM_comp, ho]
    haveI : Inhabited (NArr V) := ⟨⟨[], fun _ => default⟩⟩
    refine mapM_related_of fun q hq => ?_
    obtain ⟨y, hy, hQ⟩ := hg q.1.1.1.1 (by rw [ho, flat_map']; exact List.mem_map.2 ⟨q, hq, rfl⟩) (q.1.1.1.2 :: q.1.2) ⟨q.1.1.2, q.2⟩
    refine ⟨y, ?_, hQ⟩
    simp only [asArrays_leaves, hy]

/-! ### Putting arrays together -/

/-- `y` is the `l` samples of `x` from `a` on. -/
abbrev Piece (n a l : Nat) (x y : NArr V) : Prop := Picked (fun i => i + a) n l x y

theorem catVal_chain {n : Nat} {s : List Nat} {x : NArr V} (hx : x.shape = n :: s) : ∀ {ls : List Nat} {a : Nat} {ys : List (NArr V)},
    Chain (fun a l y => Piece n a l x y) a ls ys → ∀ i < ls.sum, ∀ j, NdSpec.InB s j → Reshape.catVal 0 ys (i :: j) = some (x.val ((i + a) :: j))
  | [], _, [], _, i, hi, _, _ => absurd hi (by simp)
  | l :: ls, a, y :: ys, ⟨⟨s', h1, h2, h3⟩, h⟩, i, hi, j, hj => by
    have e : s' = s := by rw [hx] at h1; exact (List.cons.inj h1).2.symm
    subst e
    simp only [Reshape.catVal, h2, List.getD_cons_zero, List.set_cons_zero]
    split
    · rename_i hl
      rw [h3 i hl j hj]
    · rename_i hl
      rw [List.sum_cons] at hi
      rw [catVal_chain hx h (i - l) (by omega) j hj]
      congr 3
      omega

theorem shapes_chain {n : Nat} {s : List Nat} {x : NArr V} (hx : x.shape = n :: s) : ∀ {ls : List Nat} {a : Nat} {ys : List (NArr V)},
    Chain (fun a l y => Piece n a l x y) a ls ys → ys.map NArr.shape = ls.map (· :: s)
  | [], _, [], _ => rfl
  | l :: ls, a, y :: ys, ⟨⟨s', h1, h2, h3⟩, h⟩ => by
    have e : s' = s := by rw [hx] at h1; exact (List.cons.inj h1).2.symm
    rw [List.map_cons, List.map_cons, shapes_chain hx h, h2, e]

theorem concat_chain [Inhabited V] {n a : Nat} {x : NArr V} {ls : List Nat} (hls : ls ≠ []) {ys : List (NArr V)}
    (h : Chain (fun a l y => Piece n a l x y) a ls ys) : ∃ z, Reshape.concat ys 0 = .ok z ∧ Piece n a ls.sum x z := by
  match ls, ys, h with
  | l :: ls, y :: ys, ⟨⟨s, h1, h2, h3⟩, h⟩ =>
    have hc : Chain (fun a l y => Piece n a l x y) a (l :: ls) (y :: ys) := ⟨⟨s, h1, h2, h3⟩, h⟩
    have hsh := shapes_chain h1 h
    have hall : ∀ z ∈ ys, ∃ k ∈ ls, z.shape = k :: s := by
      intro z hz
      have : z.shape ∈ ls.map (· :: s) := by rw [← hsh]; exact List.mem_map.2 ⟨z, hz, rfl⟩
      obtain ⟨k, hk, e⟩ := List.mem_map.1 this
      exact ⟨k, hk, e.symm⟩
    unfold Reshape.concat
    simp only [Int.lt_irrefl, if_false, h2, List.length_cons, Int.toNat_zero, List.eraseIdx_cons_zero, List.set_cons_zero, false_or]
    rw [if_neg (by omega), if_pos]
    · refine ⟨_, rfl, s, h1, ?_, ?_⟩
      · have := shapes_chain h1 hc
        have e2 : ((y :: ys).map fun z => z.shape.getD 0 0) = l :: ls := by
          have e3 : ((y :: ys).map fun z => z.shape.getD 0 0) = ((y :: ys).map NArr.shape).map (fun t => t.getD 0 0) := by rw [List.map_map]; rfl
          rw [e3, this, List.map_map]
          conv_rhs => rw [← List.map_id (l :: ls)]
          exact List.map_congr_left fun k _ => rfl
        simp only [e2]
      · intro i hi j hj
        simp only [catVal_chain h1 hc i hi j hj, Option.getD_some]
    · rw [List.all_eq_true]
      intro z hz
      obtain ⟨k, _, e⟩ := hall z hz
      simp [e]

theorem unravel_ravel {s j : List Nat} (h : NdSpec.InB s j) : Reshape.unravel s (Reshape.ravel s j) = j := by
  induction s generalizing j with
  | nil =>
    cases j with
    | nil => rfl
    | cons k j => exact absurd h.1 (by simp)
  | cons d s ih =>
    cases j with
    | nil => exact absurd h.1 (by simp)
    | cons k j =>
      rw [NArr.inB_cons] at h
      rw [Reshape.ravel, Reshape.unravel_cons _ _ _ _ (Reshape.ravel_lt h.2), ih h.2]

/-- The element `i` of a chain of pieces of equal length. -/
theorem chain_get {R : Nat → Nat → A → Prop} {m : Nat} : ∀ {k a : Nat} {ys : List A}, Chain R a (List.replicate k m) ys → ys.length = k ∧
    ∀ (i : Nat) y, ys[i]? = some y → R (a + i * m) m y
  | 0, _, [], _ => ⟨rfl, fun i y h => by simp at h⟩
  | k + 1, a, y :: ys, h => by
    obtain ⟨h1, h2⟩ : R a m y ∧ Chain R (a + m) (List.replicate k m) ys := h
    obtain ⟨h3, h4⟩ := chain_get h2
    refine ⟨by simp [h3], fun i z hz => ?_⟩
    cases i with
    | zero => simp only [List.getElem?_cons_zero, Option.some.injEq] at hz; subst hz; simpa using h1
    | succ i =>
      have := h4 i z (by simpa using hz)
      rwa [show a + m + i * m = a + (i + 1) * m by ring] at this

theorem stack_chain [Inhabited V] {n m k a : Nat} (hm : 0 < m) (hk : 0 < k) {x : NArr V} (h0 : x.size ≠ 0) {ys : List (NArr V)}
    (h : Chain (fun a l y => Piece n a l x y) a (List.replicate k m) ys) :
    ∃ z, (match stack ys with | .error e => .error e | .ok y => unstack y) = Except.ok z ∧ Piece n a (k * m) x z := by
  obtain ⟨hl, hget⟩ := chain_get h
  cases ys with
  | nil => simp at hl; omega
  | cons y ys =>
    obtain ⟨s, h1, h2, _⟩ := hget 0 y rfl
    have hsh := shapes_chain h1 h
    have hP : Reshape.prod s ≠ 0 := by
      intro h'
      apply h0
      show x.shape.foldr (· * ·) 1 = 0
      rw [h1, List.foldr_cons, show s.foldr (· * ·) 1 = 0 from h', Nat.mul_zero]
    have hst : stack (y :: ys) = .ok ⟨k :: m :: s, fun i => match (y :: ys)[i.headD 0]? with
      | some y => y.val i.tail
      | Option.none => default⟩ := by
      unfold stack
      simp only
      rw [hl, h2]
      refine if_pos ?_
      rw [List.all_eq_true]
      intro z hz
      have : z.shape ∈ ((y :: ys).map NArr.shape) := List.mem_map.2 ⟨z, List.mem_cons_of_mem _ hz, rfl⟩
      rw [hsh, List.map_replicate] at this
      simp [List.eq_of_mem_replicate this, h2]
    rw [hst]
    simp only [unstack, List.drop_succ_cons, List.drop_zero, Reshape.npReshape]
    have hres : Reshape.resolve (k * (m * Reshape.prod s)) (-1 :: s.map Int.ofNat) = .ok (k * m :: s) := by
      have hno : (-1 : Int) ∉ s.map Int.ofNat := by
        intro hmem
        obtain ⟨d, _, e⟩ := List.mem_map.1 hmem
        have : (0 : Int) ≤ Int.ofNat d := Int.natCast_nonneg d
        omega
      have hcount : List.count (-1) ((-1 : Int) :: s.map Int.ofNat) = 1 := by
        rw [List.count_cons_self, List.count_eq_zero.2 hno]
      have hany : ((-1 : Int) :: s.map Int.ofNat).any (fun d => decide (d < -1)) = false := by
        rw [List.any_eq_false]
        intro d hd
        rcases List.mem_cons.1 hd with rfl | hd
        · simp
        · obtain ⟨e, _, rfl⟩ := List.mem_map.1 hd
          have : (0 : Int) ≤ Int.ofNat e := Int.natCast_nonneg e
          simp only [decide_eq_true_eq, not_lt]
          omega
      have hknown : ((((-1 : Int) :: s.map Int.ofNat).filter (· ≠ -1)).map Int.toNat) = s := by
        rw [List.filter_cons_of_neg (by simp), Reshape.filter_self _ hno, List.map_map]
        conv_rhs => rw [← List.map_id s]
        exact List.map_congr_left fun d _ => rfl
      unfold Reshape.resolve
      rw [hany, hcount, hknown]
      simp only [lt_self_iff_false, decide_false, Bool.or_false, Bool.false_eq_true, if_false, List.mem_cons, true_or, if_true]
      rw [if_neg (by
        rintro (h | h)
        · exact hP h
        · exact h (by rw [← Nat.mul_assoc]; exact Nat.mul_mod_left _ _))]
      rw [← Nat.mul_assoc, Nat.mul_div_cancel _ (Nat.pos_of_ne_zero hP), List.map_cons, if_pos rfl, List.map_map]
      congr 2
      conv_rhs => rw [← List.map_id s]
      refine List.map_congr_left fun d hd => ?_
      have : (0 : Int) ≤ Int.ofNat d := Int.natCast_nonneg d
      simp only [Function.comp_apply, id]
      rw [if_neg (by omega)]
      rfl
    rw [show NArr.size (⟨k :: m :: s, fun i => match (y :: ys)[i.headD 0]? with
      | some y => y.val i.tail
      | Option.none => default⟩ : NArr V) = k * (m * Reshape.prod s) from rfl, hres]
    refine ⟨_, rfl, s, h1, rfl, fun i hi j hj => ?_⟩
    have hr := Reshape.ravel_lt hj
    have hmod : i % m < m := Nat.mod_lt _ hm
    have hdiv : i / m < k := by rw [Nat.div_lt_iff_lt_mul hm]; exact hi
    have e : Reshape.unravel (k :: m :: s) (Reshape.ravel (k * m :: s) (i :: j)) = i / m :: i % m :: j := by
      have e1 : Reshape.ravel (k * m :: s) (i :: j) = (i / m) * Reshape.prod (m :: s) + ((i % m) * Reshape.prod s + Reshape.ravel s j) := by
        rw [Reshape.ravel, Reshape.prod_cons]
        conv_lhs => rw [← Nat.div_add_mod i m]
        ring
      rw [e1, Reshape.unravel_cons, Reshape.unravel_cons _ _ _ _ hr, unravel_ravel hj]
      rw [Reshape.prod_cons]
      calc i % m * Reshape.prod s + Reshape.ravel s j < i % m * Reshape.prod s + Reshape.prod s := by omega
        _ = (i % m + 1) * Reshape.prod s := by ring
        _ ≤ m * Reshape.prod s := Nat.mul_le_mul_right _ hmod
    simp only [e, List.headD_cons, List.tail_cons]
    have hlt : i / m < (y :: ys).length := by rw [hl]; exact hdiv
    rw [List.getElem?_eq_getElem hlt]
    obtain ⟨s', g1, g2, g3⟩ := hget (i / m) _ (List.getElem?_eq_getElem hlt)
    have es : s' = s := by rw [h1] at g1; exact (List.cons.inj g1).2.symm
    subst es
    simp only
    rw [g3 (i % m) hmod j hj]
    congr 2
    have := Nat.div_add_mod' i m
    beta_reduce
    omega

/-! ### Taking data apart -/

theorem slice0_piece {n : Nat} {s : List Nat} {x : NArr V} (hx : x.shape = n :: s) {a l : Nat} (h : a + l ≤ n) :
    ∃ y, slice0 a l x = .ok y ∧ Piece n a l x y := by
  unfold slice0
  rw [hx]
  simp only
  rw [if_neg (by omega), Nat.min_eq_left (by omega)]
  exact ⟨_, rfl, s, hx, rfl, fun i _ j _ => rfl⟩

/-- All leaves hold `n` samples. -/
abbrev Uniform (n : Nat) (d : Tree (NArr V)) : Prop := ∀ x ∈ d.jaxLeaves, ∃ s, x.shape = n :: s

theorem batchLeaves_piece [Inhabited V] {n : Nat} {d : Tree (NArr V)} (hd : Uniform n d) {size idx len : Nat} (h : idx * size + len ≤ n) :
    ∃ b, batchLeaves d size idx len = .ok b ∧ Related (Piece n (idx * size) len) d.norm b := by
  haveI : Inhabited (NArr V) := ⟨⟨[], fun _ => default⟩⟩
  have := mapM_related_of (F := fun x : NArr V => match slice0 (idx * size) len x with
    | .error e => .error e
    | .ok y => .ok (.leaf y)) (g := fun x => x) (Q := Piece n (idx * size) len) (t := d.norm) (by
      intro x hx
      obtain ⟨s, hs⟩ := hd x hx
      obtain ⟨y, h1, h2⟩ := slice0_piece hs h
      exact ⟨y, by simp only [h1], h2⟩)
  rwa [Tree.map_id] at this

theorem parts_chain [Inhabited V] {n m : Nat} {d : Tree (NArr V)} (hd : Uniform n d) : ∀ (k j : Nat), (j + k) * m ≤ n →
    ∃ bs, ((List.range' j k).mapM fun j => batchLeaves d m j m) = .ok bs ∧ Chain (fun a l t => Related (Piece n a l) d.norm t) (j * m) (List.replicate k m) bs
  | 0, j, _ => ⟨[], rfl, trivial⟩
  | k + 1, j, h => by
    obtain ⟨b, h1, h2⟩ := batchLeaves_piece hd (size := m) (idx := j) (len := m) (by nlinarith)
    obtain ⟨bs, h3, h4⟩ := parts_chain hd k (j + 1) (by rw [show j + 1 + k = j + (k + 1) by omega]; exact h)
    refine ⟨b :: bs, ?_, h2, ?_⟩
    · rw [List.range'_succ, List.mapM_cons, h1, h3]
      rfl
    · rwa [show (j + 1) * m = j * m + m by ring] at h4

theorem singles_piece [Inhabited V] {n a r : Nat} {dn X : Tree (NArr V)} (hs : Sorted dn) (hsc : ∀ x ∈ Tree.flat dn, x.shape.length ≠ 1)
    (h : Related (Piece n a r) dn X) {j : Nat} (hj : j < r) : ∃ b, singles j X = .ok b ∧ Related (Piece n (a + j) 1) dn b := by
  obtain ⟨z, hz1, hz2⟩ := h
  have hn : X.norm = X := norm_of_sorted X (by rw [hz2, sorted_map]; rw [hz1, sorted_map] at hs; exact hs)
  haveI : Inhabited (NArr V) := ⟨⟨[], fun _ => default⟩⟩
  unfold singles
  rw [hn, hz2, mapM_comp, hz1]
  refine mapM_related_of fun p hp => ?_
  obtain ⟨s, h1, h2, h3⟩ := p.2
  have hlen := hsc p.1.1 (by rw [hz1, flat_map']; exact List.mem_map.2 ⟨p, hp, rfl⟩)
  unfold single
  rw [h2]
  cases s with
  | nil => rw [h1] at hlen; simp at hlen
  | cons c s =>
    refine ⟨_, rfl, c :: s, h1, rfl, fun i hi k hk => ?_⟩
    obtain rfl : i = 0 := by omega
    simp only [List.tail_cons]
    rw [h3 j hj k hk]
    congr 2
    beta_reduce
    omega

theorem singles_chain [Inhabited V] {n a r : Nat} {dn X : Tree (NArr V)} (hs : Sorted dn) (hsc : ∀ x ∈ Tree.flat dn, x.shape.length ≠ 1)
    (h : Related (Piece n a r) dn X) : ∀ (k j : Nat), j + k ≤ r →
    ∃ bs, ((List.range' j k).mapM fun j => singles j X) = .ok bs ∧ Chain (fun a l t => Related (Piece n a l) dn t) (a + j) (List.replicate k 1) bs
  | 0, j, _ => ⟨[], rfl, trivial⟩
  | k + 1, j, hr => by
    obtain ⟨b, h1, h2⟩ := singles_piece hs hsc h (j := j) (by omega)
    obtain ⟨bs, h3, h4⟩ := singles_chain hs hsc h k (j + 1) (by omega)
    refine ⟨b :: bs, ?_, h2, h4⟩
    rw [List.range'_succ, List.mapM_cons, h1, h3]
    rfl

/-! ### Calling the function on the pieces -/

/-- On every piece of the data the function returns the same piece of its result, and it leaves the state alone. -/
structure OnPieces (F : Tree (NArr V) → S → Except PyErr (Tree (NArr V) × S)) (s : S) (n : Nat) (dn : Tree (NArr V)) (whole : Except PyErr (Tree (NArr V) × S)) :
    Prop where
  agree : ∀ a l b, 0 < l → a + l ≤ n → Related (Piece n a l) dn b → Agree (fun r r' => Related (Piece n a l) r.1 r'.1 ∧ r.2 = r'.2) whole (F b s)
  state : ∀ r, whole = .ok r → r.2 = s

variable {F : Tree (NArr V) → S → Except PyErr (Tree (NArr V) × S)} {s : S} {n : Nat} {dn : Tree (NArr V)}

theorem run_error {e : PyErr} (h : OnPieces F s n dn (.error e)) {a : Nat} {ls : List Nat} (hls : ls ≠ []) {bs : List (Tree (NArr V))}
    (hpos : ∀ l ∈ ls, 0 < l) (hsum : a + ls.sum ≤ n) (hc : Chain (fun a l t => Related (Piece n a l) dn t) a ls bs) : runBatches F bs s = .error e := by
  match ls, bs, hc with
  | l :: ls, b :: bs, ⟨h1, _⟩ =>
    rw [List.sum_cons] at hsum
    rcases agree_cases (h.agree a l b (hpos l (by simp)) (by omega) h1) with ⟨e', h2, h3⟩ | ⟨r, r', h2, _⟩
    · cases h2
      rw [runBatches, h3]
    · cases h2

theorem run_ok {out : Tree (NArr V)} (h : OnPieces F s n dn (.ok (out, s))) : ∀ {ls : List Nat} {a : Nat} {bs : List (Tree (NArr V))},
    (∀ l ∈ ls, 0 < l) → a + ls.sum ≤ n → Chain (fun a l t => Related (Piece n a l) dn t) a ls bs →
    ∃ ys, runBatches F bs s = .ok (ys, s) ∧ Chain (fun a l t => Related (Piece n a l) out t) a ls ys
  | [], a, [], _, _, _ => ⟨[], rfl, trivial⟩
  | l :: ls, a, b :: bs, hpos, hsum, ⟨h1, h2⟩ => by
    rw [List.sum_cons] at hsum
    rcases agree_cases (h.agree a l b (hpos l (by simp)) (by omega) h1) with ⟨e', h3, _⟩ | ⟨r, ⟨y, s'⟩, h3, h4, h5, h6⟩
    · cases h3
    · cases h3
      simp only at h5 h6
      subst h6
      obtain ⟨ys, h7, h8⟩ := run_ok h (fun k hk => hpos k (by simp [hk])) (by omega) h2
      refine ⟨y :: ys, ?_, h5, h8⟩
      rw [runBatches, h4]
      simp only [h7]

theorem concatenate_chain [Inhabited V] {out : Tree (NArr V)} (hs : Sorted out) (hk : KeysOk out) {a : Nat} {ls : List Nat} (hls : ls ≠ [])
    {ys : List (Tree (NArr V))} (h : Chain (fun a l t => Related (Piece n a l) out t) a ls ys) :
    ∃ t, concatenate ys = .ok t ∧ Related (Piece n a ls.sum) out t :=
  overTrees_chain (R := fun a l => Piece n a l) hls hs hk (fun _ _ _ hy => concat_chain hls hy) h

theorem scanOutputs_chain [Inhabited V] {out : Tree (NArr V)} (hs : Sorted out) (hk : KeysOk out) (h0 : ∀ x ∈ Tree.flat out, x.size ≠ 0) {a m k : Nat}
    (hm : 0 < m) (hk0 : 0 < k) {ys : List (Tree (NArr V))} (h : Chain (fun a l t => Related (Piece n a l) out t) a (List.replicate k m) ys) :
    ∃ t, scanOutputs ys = .ok t ∧ Related (Piece n a (k * m)) out t :=
  overTrees_chain (R := fun a l => Piece n a l) (by simp; omega) hs hk (fun x hx _ hy => stack_chain hm hk0 (h0 x hx) hy) h

theorem remainder_error [Inhabited V] {avoid : Bool} {a r : Nat} {X : Tree (NArr V)} {e : PyErr} (h : OnPieces F s n dn (.error e)) (hs : Sorted dn)
    (hsc : avoid = true → ∀ x ∈ Tree.flat dn, x.shape.length ≠ 1) (hr : 0 < r) (har : a + r ≤ n) (hX : Related (Piece n a r) dn X) :
    runRemainder avoid F r X s = .error e := by
  cases avoid with
  | false =>
    rcases agree_cases (h.agree a r X hr har hX) with ⟨e', h2, h3⟩ | ⟨_, _, h2, _⟩
    · cases h2
      exact h3
    · cases h2
  | true =>
    obtain ⟨bs, h1, h2⟩ := singles_chain hs (hsc rfl) hX r 0 (by omega)
    rw [← List.range_eq_range'] at h1
    simp only [runRemainder, if_true, h1]
    rw [run_error h (ls := List.replicate r 1) (by simp; omega) (fun l hl => by rw [List.eq_of_mem_replicate hl]; exact Nat.one_pos) (by simpa using har) h2]

theorem remainder_ok [Inhabited V] {avoid : Bool} {a r : Nat} {X out : Tree (NArr V)} (h : OnPieces F s n dn (.ok (out, s))) (hs : Sorted dn)
    (ho : Sorted out) (hk : KeysOk out) (hsc : avoid = true → ∀ x ∈ Tree.flat dn, x.shape.length ≠ 1) (hr : 0 < r) (har : a + r ≤ n)
    (hX : Related (Piece n a r) dn X) : ∃ t, runRemainder avoid F r X s = .ok (t, s) ∧ Related (Piece n a r) out t := by
  cases avoid with
  | false =>
    rcases agree_cases (h.agree a r X hr har hX) with ⟨e', h2, _⟩ | ⟨_, ⟨y, s'⟩, h2, h3, h4, h5⟩
    · cases h2
    · cases h2
      simp only at h4 h5
      subst h5
      exact ⟨y, h3, h4⟩
  | true =>
    obtain ⟨bs, h1, h2⟩ := singles_chain hs (hsc rfl) hX r 0 (by omega)
    rw [← List.range_eq_range'] at h1
    have hne : List.replicate r 1 ≠ [] := by simp; omega
    obtain ⟨ys, h3, h4⟩ := run_ok h (ls := List.replicate r 1) (fun l hl => by rw [List.eq_of_mem_replicate hl]; exact Nat.one_pos) (by simpa using har) h2
    obtain ⟨t, h5, h6⟩ := concatenate_chain ho hk hne h4
    refine ⟨t, ?_, by simpa using h6⟩
    simp only [runRemainder, if_true, h1, h3, h5]

theorem numSamples_uniform {d : Tree (NArr V)} (hd : Uniform n d) (hne : d.jaxLeaves ≠ []) : numSamples d = .ok n := by
  unfold numSamples
  cases h : d.jaxLeaves with
  | nil => exact absurd h hne
  | cons x xs =>
    obtain ⟨t, ht⟩ := hd x (by rw [h]; simp)
    simp only [ht]

theorem split_uniform [Inhabited V] {d : Tree (NArr V)} (hd : Uniform n d) (hne : d.jaxLeaves ≠ []) {m : Nat} (hm : 0 < m) :
    ∃ parts, Chain (fun a l t => Related (Piece n a l) d.norm t) 0 (List.replicate (n / m) m) parts ∧
      ((n % m = 0 ∧ split d m = .ok (parts, none)) ∨
        (0 < n % m ∧ ∃ X, split d m = .ok (parts, some X) ∧ Related (Piece n (n / m * m) (n % m)) d.norm X)) := by
  have hdm := Nat.div_add_mod' n m
  obtain ⟨parts, h1, h2⟩ := parts_chain hd (m := m) (n / m) 0 (by rw [Nat.zero_add]; omega)
  rw [← List.range_eq_range'] at h1
  refine ⟨parts, by simpa using h2, ?_⟩
  unfold split
  rw [numSamples_uniform hd hne]
  simp only [if_neg (Nat.pos_iff_ne_zero.1 hm), h1]
  by_cases hr : 0 < n % m
  · obtain ⟨X, h3, h4⟩ := batchLeaves_piece hd (size := m) (idx := n / m) (len := n % m) (by omega)
    refine .inr ⟨hr, X, ?_, h4⟩
    rw [if_pos hr, h3]
  · exact .inl ⟨by omega, by rw [if_neg hr]⟩

theorem autobatch_pieces [Inhabited V] {avoid : Bool} {f : Tree (NArr V) → S → Except PyErr (Tree (NArr V) × S)} {d : Tree (NArr V)} {max : Option Nat}
    (h : OnPieces (jit f) s n d.norm (jit f d s)) (hkd : KeysOk d) (hd : Uniform n d) (hne : d.jaxLeaves ≠ []) (hn : 0 < n)
    (hko : ∀ r, jit f d s = .ok r → KeysOk r.1 ∧ Sorted r.1) (hmax : max ≠ some 0)
    (hsc : avoid = true → ∀ x ∈ d.jaxLeaves, x.shape.length ≠ 1) (h0 : avoid = false → ∀ r, jit f d s = .ok r → ∀ x ∈ Tree.flat r.1, x.size ≠ 0) :
    Agree (fun r r' => Related (Piece n 0 n) r.1 r'.1 ∧ r.2 = r'.2) (jit f d s) (autobatch avoid f max d s) := by
  have hsd : Sorted d.norm := sorted_norm d hkd
  have hnn : d.norm.norm = d.norm := norm_norm hkd
  have hself : Agree (fun r r' => Related (Piece n 0 n) r.1 r'.1 ∧ r.2 = r'.2) (jit f d s) (jit f d s) := by
    have h1 := h.agree 0 n d.norm hn (by omega) (by
      have := related_self (R := Piece n 0 n) (g := fun x => x) d.norm fun x hx => by
        obtain ⟨t, ht⟩ := hd x hx
        exact ⟨t, ht, ht, fun i _ j _ => rfl⟩
      rwa [Tree.map_id] at this)
    have e : jit f d.norm s = jit f d s := by unfold jit; rw [hnn]
    rwa [e] at h1
  unfold autobatch
  rw [numSamples_uniform hd hne]
  cases max with
  | none => exact hself
  | some m =>
    simp only
    split
    · exact hself
    · rename_i hnm
      have hm : 0 < m := Nat.pos_of_ne_zero fun e => hmax (by rw [e])
      have hdm := Nat.div_add_mod' n m
      have hk0 : 0 < n / m := Nat.div_pos (by omega) hm
      have hls : List.replicate (n / m) m ≠ [] := by simp; omega
      have hpos : ∀ l ∈ List.replicate (n / m) m, 0 < l := fun l hl => by rw [List.eq_of_mem_replicate hl]; exact hm
      have hsum : 0 + (List.replicate (n / m) m).sum ≤ n := by simp; omega
      obtain ⟨parts, hp, hsplit⟩ := split_uniform hd hne hm
      cases hw : jit f d s with
      | error e =>
        have hpe := run_error (hw ▸ h) hls hpos hsum hp
        rcases hsplit with ⟨_, hsp⟩ | ⟨_, X, hsp, _⟩ <;> simp only [hsp, hpe] <;> rfl
      | ok r =>
        obtain ⟨out, s'⟩ := r
        obtain rfl : s' = s := h.state _ hw
        obtain ⟨hko1, hko2⟩ := hko _ hw
        rw [hw] at h
        obtain ⟨ys, hr1, hr2⟩ := run_ok h hpos hsum hp
        obtain ⟨t, ht1, ht2⟩ : ∃ t, (if avoid then concatenate ys else scanOutputs ys) = .ok t ∧ Related (Piece n 0 (n / m * m)) out t := by
          cases avoid with
          | true =>
            obtain ⟨t, h1, h2⟩ := concatenate_chain hko2 hko1 hls hr2
            exact ⟨t, h1, by simpa using h2⟩
          | false => exact scanOutputs_chain hko2 hko1 (h0 rfl _ hw) hm hk0 hr2
        rcases hsplit with ⟨hr0, hsp⟩ | ⟨hrpos, X, hsp, hX⟩
        · simp only [hsp, hr1, ht1]
          rw [show n / m * m = n by omega] at ht2
          exact ⟨ht2, rfl⟩
        · obtain ⟨t', hq1, hq2⟩ := remainder_ok h hsd hko2 hko1 hsc hrpos (by omega) hX
          obtain ⟨w, hw1, hw2⟩ := concatenate_chain (n := n) (a := 0) (ls := [n / m * m, n % m]) hko2 hko1 (by simp) (ys := [t, t'])
            ⟨ht2, by simpa using hq2, trivial⟩
          simp only [hsp, hr1, ht1, hq1, hw1]
          refine ⟨?_, rfl⟩
          rwa [show [n / m * m, n % m].sum = n by simp; omega] at hw2

end BatchArr
end Verif
