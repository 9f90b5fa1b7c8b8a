import Verif.Lemmas.Samplewise
import Verif.Lemmas.NdArr
import Verif.Lemmas.ExtendAt
import Verif.Lemmas.Reshape
import Verif.Model.Elementwise
import Verif.Model.AffineTensor

/-! Computing sample by sample: the operations on arrays. -/

namespace Verif
namespace Samplewise
open Tree NArr NdSpec

variable {V W U : Type}

theorem bshapeRev_append (n : Nat) : ∀ (a t : List Nat), t.length ≤ a.length → bshapeRev (a ++ [n]) t = (bshapeRev a t).map (· ++ [n])
  | [], [], _ => rfl
  | [], _ :: _, h => by simp at h
  | x :: a, [], _ => by simp [bshapeRev]
  | x :: a, y :: t, h => by
    simp only [List.cons_append, bshapeRev]
    rw [bshapeRev_append n a t (by simpa using h)]
    cases bdim x y with
    | none => rfl
    | some d => cases bshapeRev a t <;> rfl

theorem bshape_cons (n : Nat) (s t : List Nat) (h : t.length ≤ s.length) : bshape (n :: s) t = (bshape s t).map (n :: ·) := by
  unfold bshape
  rw [List.reverse_cons, bshapeRev_append n _ _ (by simpa using h)]
  cases bshapeRev s.reverse t.reverse <;> simp

theorem bidx_cons {n : Nat} {s j : List Nat} (i : Nat) (h : j.length = s.length) (hi : i < n) : bidx (n :: s) (i :: j) = i :: bidx s j := by
  unfold bidx
  simp only [List.length_cons, h, Nat.sub_self, List.drop_zero, List.zipWith_cons_cons]
  split
  · congr 1; omega
  · rfl

theorem bidx_skip {t j : List Nat} (i : Nat) (h : t.length ≤ j.length) : bidx t (i :: j) = bidx t j := by
  unfold bidx
  rw [List.length_cons, show j.length + 1 - t.length = (j.length - t.length) + 1 by omega, List.drop_succ_cons]

/-- An operation with an array that has fewer axes than the batch, or is a single number. -/
theorem bop_leafwise (g : V → W → U) (b : NArr W) : LeafwiseOn (fun x => b.shape.length < x.shape.length ∨ b.shape = [1]) fun x => NArr.bop g x b := by
  rintro f n m hs x y hD ⟨s, hx, hy, hv⟩
  show Agree (Picked f n m) (NArr.bop g x b) (NArr.bop g y b)
  unfold NArr.bop
  by_cases hb : b.shape.length ≤ s.length
  · rw [hx, hy, bshape_cons n s _ hb, bshape_cons m s _ hb]
    cases hr : bshape s b.shape with
    | none => rfl
    | some r =>
      have hl : r.length = s.length := by
        have := (bshape_spec hr).1
        omega
      refine ⟨r, rfl, rfl, fun i hi j hj => ?_⟩
      have hj' : j.length = s.length := by rw [hj.1, hl]
      show g (y.val _) _ = g (x.val _) _
      rw [bidx_cons i hj' hi, bidx_cons (f i) hj' (hs.valid i hi), bidx_skip i (by omega), bidx_skip (f i) (by omega),
        hv i hi _ (inB_bidx (bshape_le hr).1 hj)]
  · have h1 : b.shape = [1] := by
      rcases hD with h | h
      · rw [hx] at h; simp at h; omega
      · exact h
    have hs0 : s = [] := by
      rw [h1] at hb
      simp at hb
      exact hb
    subst hs0
    rw [hx, hy, h1]
    have e : ∀ k : Nat, bshape [k] [1] = some [k] := by
      intro k
      by_cases hk : k = 1
      · subst hk; rfl
      · simp [bshape, bshapeRev, bdim, hk]
    rw [e, e]
    refine ⟨[], rfl, rfl, fun i hi j hj => ?_⟩
    have hj0 : j = [] := by simpa using hj.1
    subst hj0
    show g (y.val _) _ = g (x.val _) _
    rw [show bidx [m] [i] = [i] from bidx_cons (s := []) i rfl hi, show bidx [n] [f i] = [f i] from bidx_cons (s := []) (f i) rfl (hs.valid i hi), hv i hi [] hj]
    rfl

theorem uop_leafwise (g : V → W) : LeafwiseOn (fun _ => True) fun x => .ok (NArr.uop g x) := by
  rintro f n m hs x y - ⟨s, hx, hy, hv⟩
  exact ⟨s, hx, hy, fun i hi j hj => congrArg g (hv i hi j hj)⟩

/-! ### Reshaping -/

open Reshape

theorem resolve_cons (n S : Nat) (hn : 0 < n) (t : List Int) : resolve (n * S) ((n : Int) :: t) = (resolve S t).map (n :: ·) := by
  have h1 : ¬ ((n : Int) < -1) := by omega
  have h2 : (n : Int) ≠ -1 := by omega
  have hc : List.count (-1) ((n : Int) :: t) = t.count (-1) := List.count_cons_of_ne h2.symm.symm
  have hm : (-1 ∈ (n : Int) :: t) ↔ -1 ∈ t := by rw [List.mem_cons]; exact or_iff_right (fun h => h2 h.symm)
  have hk : prod ((((n : Int) :: t).filter (· ≠ -1)).map Int.toNat) = n * prod ((t.filter (· ≠ -1)).map Int.toNat) := by
    rw [List.filter_cons_of_pos (by simpa using h2), List.map_cons, prod_cons]
    simp
  unfold resolve
  rw [List.any_cons, hc]
  simp only [h1, decide_false, Bool.false_or]
  split
  · rfl
  · simp only [hm, hk]
    by_cases hmem : -1 ∈ t
    · simp only [hmem, if_true]
      have e : (n * prod ((t.filter (· ≠ -1)).map Int.toNat) = 0 ∨ n * S % (n * prod ((t.filter (· ≠ -1)).map Int.toNat)) ≠ 0) ↔
          (prod ((t.filter (· ≠ -1)).map Int.toNat) = 0 ∨ S % prod ((t.filter (· ≠ -1)).map Int.toNat) ≠ 0) := by
        rw [Nat.mul_mod_mul_left]
        simp [Nat.pos_iff_ne_zero.1 hn]
      simp only [e]
      split
      · rfl
      · rw [List.map_cons, if_neg h2, Nat.mul_div_mul_left _ _ hn]
        simp [Except.map]
    · simp only [hmem, if_false]
      simp only [Nat.mul_left_cancel_iff hn]
      split
      · simp [Except.map]
      · rfl

theorem inB_unravel {s : List Nat} {k : Nat} (h : k < prod s) : InB s (unravel s k) := by
  rw [← NArr.mem_indices, ← map_unravel]
  exact List.mem_map_of_mem (List.mem_range.2 h)

/-- Reshaping the samples. -/
theorem npReshape_leafwise (t : List Int) : LeafwiseOn (fun _ : NArr V => True) fun x => npReshape x ((x.shape.headD 0 : Int) :: t) := by
  rintro f n m hs x y - ⟨s, hx, hy, hv⟩
  show Agree (Picked f n m) (npReshape x _) (npReshape y _)
  have hxs : x.size = n * prod s := by unfold NArr.size; rw [hx]; rfl
  have hys : y.size = m * prod s := by unfold NArr.size; rw [hy]; rfl
  unfold npReshape
  rw [hxs, hys, hx, hy]
  simp only [List.headD_cons]
  rw [resolve_cons n _ hs.source, resolve_cons m _ hs.target]
  cases hr : resolve (prod s) t with
  | error e => rfl
  | ok r =>
    refine ⟨r, rfl, rfl, fun i hi j hj => ?_⟩
    have hp := (resolve_spec hr).2.1
    have hlt : ravel r j < prod s := by rw [← hp]; exact ravel_lt hj
    show y.val (unravel (m :: s) (ravel (m :: r) (i :: j))) = x.val (unravel (n :: s) (ravel (n :: r) (f i :: j)))
    rw [ravel, ravel, hp, unravel_cons m i _ s hlt, unravel_cons n (f i) _ s hlt]
    exact hv i hi _ (inB_unravel hlt)

theorem reshapeArray_leafwise (t : Target) : LeafwiseOn (fun _ : NArr V => True) fun x => reshapeArray x t := by
  rintro f n m hs x y hD hp
  obtain ⟨s, hx, hy, hv⟩ := hp
  show Agree (Picked f n m) (reshapeArray x t) (reshapeArray y t)
  unfold reshapeArray
  rw [hx, hy]
  simp only
  match t with
  | .leaf Option.none => exact ⟨s, hx, hy, hv⟩
  | .leaf (some t) =>
    have := npReshape_leafwise t f n m hs x y trivial ⟨s, hx, hy, hv⟩
    simpa [hx, hy] using this
  | .none => rfl
  | .list _ => rfl
  | .tuple _ => rfl
  | .dict _ => rfl

theorem flat2_leafwise : LeafwiseOn (fun _ : NArr V => True) fun x => flat2 x := by
  rintro f n m hs x y hD ⟨s, hx, hy, hv⟩
  show Agree (Picked f n m) (flat2 x) (flat2 y)
  unfold flat2
  have := npReshape_leafwise [-1] f n m hs x y trivial ⟨s, hx, hy, hv⟩
  rw [hx, hy]
  simpa [hx, hy] using this

/-! ### Affine tensors -/

theorem tensor_leafwise [Semiring V] (bias : Bool) (Ms : NArr V) : LeafwiseOn (fun _ : NArr V => True) fun x => AffineTensor.tensor bias Ms x := by
  rintro f n m hs x y - ⟨s, hx, hy, hv⟩
  show Agree (Picked f n m) (AffineTensor.tensor bias Ms x) (AffineTensor.tensor bias Ms y)
  unfold AffineTensor.tensor
  rw [hx, hy]
  cases hM : Ms.shape with
  | nil => rfl
  | cons p ts =>
    match s with
    | [] => rfl
    | _ :: _ :: _ => rfl
    | [d] =>
      simp only
      have hc : ∀ o i, i < m → ∀ j, AffineTensor.contract o Ms y d i j = AffineTensor.contract o Ms x d (f i) j := by
        intro o i hi j
        unfold AffineTensor.contract
        refine congrArg List.sum (List.map_congr_left fun l hl => ?_)
        rw [hv i hi [l] (by rw [show [l] = l :: [] from rfl, inB_cons]; exact ⟨List.mem_range.1 hl, rfl, by simp⟩)]
      split
      · split
        · exact ⟨ts, rfl, rfl, fun i hi j _ => by simp [hc 1 i hi]⟩
        · rfl
      · split
        · exact ⟨ts, rfl, rfl, fun i hi j _ => by simp [hc 0 i hi]⟩
        · rfl

/-! ### Concatenation -/

theorem catVal_picked {f : Nat → Nat} {n m i : Nat} (hi : i < m) (k : Nat) : ∀ {xs ys : List (NArr V)}, List.Forall₂ (Picked f n m) xs ys → ∀ j : List Nat,
    (∀ x ∈ xs, j.length = x.shape.tail.length ∧ ∀ q d e, q ≠ k → x.shape.tail[q]? = some d → j[q]? = some e → e < d) →
    catVal (k + 1) ys (i :: j) = catVal (k + 1) xs (f i :: j)
  | [], [], .nil, _, _ => rfl
  | x :: xs, y :: ys, .cons ⟨s, hx, hy, hv⟩ h, j, hj => by
    obtain ⟨hl, hb⟩ := hj x (List.mem_cons_self ..)
    rw [hx] at hl hb
    simp only [List.tail_cons] at hl hb
    unfold catVal
    rw [hx, hy]
    simp only [List.getD_cons_succ]
    split
    · next hlt =>
      rw [hv i hi j]
      refine ⟨hl, fun q d e hd he => ?_⟩
      by_cases hq : q = k
      · subst hq
        rw [List.getD_eq_getElem?_getD, List.getD_eq_getElem?_getD, hd, he] at hlt
        exact hlt
      · exact hb q d e hq hd he
    · rw [List.set_cons_succ, List.set_cons_succ]
      refine catVal_picked hi k h _ fun x' hx' => ?_
      obtain ⟨hl', hb'⟩ := hj x' (List.mem_cons_of_mem _ hx')
      refine ⟨by rw [List.length_set]; exact hl', fun q d e hq hd he => hb' q d e hq hd ?_⟩
      rwa [List.getElem?_set_ne (Ne.symm hq)] at he

/-- Concatenation along an axis that is not the axis of the samples. -/
theorem concat_related [Inhabited V] {f : Nat → Nat} {n m : Nat} {xs ys : List (NArr V)} (h : List.Forall₂ (Picked f n m) xs ys) (axis : Int)
    (ha : ∀ x ∈ xs, (if axis < 0 then axis + x.shape.length else axis) ≠ 0) : Agree (Picked f n m) (concat xs axis) (concat ys axis) := by
  cases h with
  | nil => rfl
  | @cons x y xs ys h1 h2 =>
    obtain ⟨s, hx, hy, hv⟩ := h1
    have hax := ha x (List.mem_cons_self ..)
    unfold concat
    simp only
    rw [hx] at hax
    rw [hx, hy]
    simp only [List.length_cons] at hax ⊢
    generalize (if axis < 0 then axis + ((s.length + 1 : Nat) : Int) else axis) = k at hax
    split
    · rfl
    · next hk =>
      obtain ⟨k', rfl⟩ : ∃ k' : Nat, k = ((k' + 1 : Nat) : Int) := ⟨k.toNat - 1, by omega⟩
      rw [Int.toNat_natCast]
      have hall : (xs.all fun y => decide (y.shape.eraseIdx (k' + 1) = (n :: s).eraseIdx (k' + 1)) && decide (y.shape.length = s.length + 1)) =
          (ys.all fun y => decide (y.shape.eraseIdx (k' + 1) = (m :: s).eraseIdx (k' + 1)) && decide (y.shape.length = s.length + 1)) := by
        clear ha
        induction h2 with
        | nil => rfl
        | cons hp _ ih =>
          obtain ⟨s', e1, e2, -⟩ := hp
          rw [List.all_cons, List.all_cons, ih, e1, e2]
          simp
      have hsum : ((x :: xs).map fun y => y.shape.getD (k' + 1) 0) = ((y :: ys).map fun y => y.shape.getD (k' + 1) 0) := by
        have : List.Forall₂ (Picked f n m) (x :: xs) (y :: ys) := .cons ⟨s, hx, hy, hv⟩ h2
        revert this
        generalize x :: xs = l, y :: ys = l'
        intro this
        clear ha hall
        induction this with
        | nil => rfl
        | cons hp _ ih =>
          obtain ⟨s', e1, e2, -⟩ := hp
          rw [List.map_cons, List.map_cons, ih, e1, e2]
          simp
      rw [hall, ← hsum]
      split
      · next hok =>
        rw [← hall] at hok
        refine ⟨s.set k' _, List.set_cons_succ .., List.set_cons_succ .., fun i hi j hj => ?_⟩
        show (catVal (k' + 1) (y :: ys) (i :: j)).getD default = (catVal (k' + 1) (x :: xs) (f i :: j)).getD default
        rw [catVal_picked hi k' (.cons ⟨s, hx, hy, hv⟩ h2) j]
        intro x' hx'
        have hs' : x'.shape.tail.length = s.length ∧ ∀ q, q ≠ k' → x'.shape.tail[q]? = s[q]? := by
          rcases List.mem_cons.1 hx' with rfl | hx'
          · rw [hx]; exact ⟨rfl, fun _ _ => rfl⟩
          · have := List.all_eq_true.1 hok x' hx'
            simp only [Bool.and_eq_true, decide_eq_true_eq] at this
            obtain ⟨e1, e2⟩ := this
            cases hsh : x'.shape with
            | nil => rw [hsh] at e2; simp at e2
            | cons n' s' =>
              rw [hsh, List.eraseIdx_cons_succ, List.eraseIdx_cons_succ, List.cons.injEq] at e1
              rw [hsh] at e2
              simp only [List.length_cons, Nat.add_right_cancel_iff] at e2
              refine ⟨e2, fun q hq => ?_⟩
              have e := e1.2
              rcases Nat.lt_or_gt_of_ne hq with hq | hq
              · have := congrArg (·[q]?) e
                simpa [List.getElem?_eraseIdx_of_lt hq] using this
              · have := congrArg (·[q - 1]?) e
                simp only [List.getElem?_eraseIdx_of_ge (show k' ≤ q - 1 by omega)] at this
                rw [show q - 1 + 1 = q by omega] at this
                exact this
        refine ⟨by rw [hj.1, List.length_set, hs'.1], fun q d e hq hd he => ?_⟩
        rw [hs'.2 q hq] at hd
        exact hj.2 q d e (by rw [List.getElem?_set_ne (Ne.symm hq)]; exact hd) he
      · rfl

/-- A list of computations on related values. -/
theorem mapM_forall₂ {A B C E : Type} {R : A → B → Prop} {Q : C → E → Prop} {F : A → Except PyErr C} {G : B → Except PyErr E}
    (h : ∀ a b, R a b → Agree Q (F a) (G b)) {xs ys} (hxy : List.Forall₂ R xs ys) : Agree (List.Forall₂ Q) (xs.mapM F) (ys.mapM G) := by
  induction hxy with
  | nil => exact .nil
  | cons h1 _ ih =>
    rw [List.mapM_cons, List.mapM_cons]
    rcases agree_cases (h _ _ h1) with ⟨e, e1, e2⟩ | ⟨a, b, e1, e2, hq⟩
    · rw [e1, e2]; rfl
    · rw [e1, e2]
      rcases agree_cases ih with ⟨e, e3, e4⟩ | ⟨as, bs, e3, e4, hqs⟩
      · rw [e3, e4]; rfl
      · rw [e3, e4]; exact .cons hq hqs

theorem selectLeaves_related {A B : Type} {R : A → B → Prop} (paths : Option (List (List Str))) {t : Tree A} {u : Tree B} (h : Related R t u) :
    Agree (List.Forall₂ R) (selectLeaves paths t) (selectLeaves paths u) := by
  unfold selectLeaves
  cases paths with
  | none => exact leaves_related h
  | some ps =>
    refine mapM_forall₂ (R := Eq) ?_ (List.forall₂_same.2 fun _ _ => rfl)
    rintro p _ rfl
    rcases agree_cases (get_related h p) with ⟨e, e1, e2⟩ | ⟨a, b, e1, e2, hq⟩
    · rw [e1, e2]; rfl
    · rw [e1, e2]
      obtain ⟨z, rfl, rfl⟩ := hq
      cases z with
      | leaf p => exact p.2
      | none => rfl
      | list ts => rfl
      | tuple ts => rfl
      | dict ts => rfl

theorem leaf_forall₂ {A B : Type} {R : A → B → Prop} {xs : List A} {ys : List B} (h : List.Forall₂ R xs ys) :
    Related R (.list (xs.map .leaf)) (.list (ys.map .leaf)) := by
  induction h with
  | nil => exact ⟨.list [], rfl, rfl⟩
  | cons h1 _ ih =>
    obtain ⟨z, e1, e2⟩ := ih
    cases z with
    | list zs =>
      refine ⟨.list (.leaf ⟨(_, _), h1⟩ :: zs), ?_, ?_⟩
      · simp only [map, mapL, Tree.list.injEq] at e1 ⊢
        simp [e1]
      · simp only [map, mapL, Tree.list.injEq] at e2 ⊢
        simp [e2]
    | _ => simp [map] at e1

/-- A function of one array on all leaves. -/
theorem mapLeaves_related {D : NArr V → Prop} {F : NArr V → Except PyErr (NArr W)} (hF : LeafwiseOn D F) {f : Nat → Nat} {n m : Nat} (hs : Selection f n m)
    {d d' : Tree (NArr V)} (hD : ∀ p x, ForwardSpec.At d p x → D x) (h : Related (Picked f n m) d d') :
    Agree (Related (Picked f n m)) (jaxMap (fun x _ => match F x with | .ok y => .ok (.leaf y) | .error e => .error e) d ([] : List (Tree (NArr V))))
      (jaxMap (fun x _ => match F x with | .ok y => .ok (.leaf y) | .error e => .error e) d' ([] : List (Tree (NArr V)))) := by
  refine jaxMap_related_at h fun q a b vs ha hR _ _ => ?_
  rcases agree_cases (hF f n m hs a b (hD q a ha) hR) with ⟨e, e1, e2⟩ | ⟨x, y, e1, e2, hq⟩
  · simp only [e1, e2]; rfl
  · simp only [e1, e2]; exact related_leaf hq

/-- A leaf that is read by a path is a leaf of the tree. -/
theorem get_leaf_at {A : Type} {b : A} : ∀ {p : List Str} {t n : Tree A} {q}, Tree.get t p = .ok n → ForwardSpec.At n q b → ∃ q', ForwardSpec.At t q' b
  | [], t, n, q, h, ha => by
    simp only [get_nil, Except.ok.injEq] at h
    subst h
    exact ⟨q, ha⟩
  | k :: ks, t, n, q, h, ha => by
    by_cases he : k = [] ∧ ks = []
    · obtain ⟨rfl, rfl⟩ := he
      simp only [get_empty, Except.ok.injEq] at h
      subst h
      exact ⟨q, ha⟩
    · rw [get_cons _ _ _ he] at h
      split at h
      · next c hc =>
        obtain ⟨q', h2⟩ := get_leaf_at h ha
        cases t with
        | leaf b => simp [child] at hc
        | none => simp [child] at hc
        | list ts =>
          simp only [child] at hc
          split at hc
          · simp at hc
          · split at hc
            · next c' hc' =>
              simp only [Except.ok.injEq] at hc; subst hc
              exact ⟨_, .list hc' h2⟩
            · simp at hc
        | tuple ts =>
          simp only [child] at hc
          split at hc
          · simp at hc
          · split at hc
            · next c' hc' =>
              simp only [Except.ok.injEq] at hc; subst hc
              exact ⟨_, .tuple hc' h2⟩
            · simp at hc
        | dict kvs =>
          simp only [child] at hc
          split at hc
          · next c' hc' =>
            simp only [Except.ok.injEq] at hc; subst hc
            exact ⟨_, .dict (mem_of_lookup hc') h2⟩
          · simp at hc
      · simp at h

theorem mem_mapM_ok {A B : Type} {F : A → Except PyErr B} : ∀ {l : List A} {r : List B}, l.mapM F = .ok r → ∀ b ∈ r, ∃ a ∈ l, F a = .ok b
  | [], r, h, b, hb => by cases h; cases hb
  | a :: l, r, h, b, hb => by
    rw [List.mapM_cons] at h
    cases h1 : F a with
    | error e => rw [h1] at h; cases h
    | ok c =>
      rw [h1] at h
      cases h2 : l.mapM F with
      | error e => rw [h2] at h; cases h
      | ok cs =>
        rw [h2] at h
        cases h
        rcases List.mem_cons.1 hb with rfl | hb
        · exact ⟨a, List.mem_cons_self .., h1⟩
        · obtain ⟨a', h3, h4⟩ := mem_mapM_ok h2 b hb
          exact ⟨a', List.mem_cons_of_mem _ h3, h4⟩

end Samplewise
end Verif
