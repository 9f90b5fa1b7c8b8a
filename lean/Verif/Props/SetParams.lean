import Verif.Props.Serialize
import Verif.Lemmas.SetParams
import Verif.Lemmas.TreeBack

/-! # Properties of setting parameters -/

namespace Verif.Props
open Tree Ser SerSpec ParamSpec Attr

theorem shapes_arr {x y : Arr} : SameShapes (vArr x) (vArr y) ↔ x.shape = y.shape := by
  constructor
  · rintro ⟨t, h1, h2⟩
    simp only [vArr, Tree.norm, shapes, Option.some.injEq] at h1 h2
    have := h1.trans h2.symm
    simpa using this
  · intro h
    exact ⟨_, rfl, by simp [vArr, Tree.norm, shapes, h]⟩

theorem sameShapes_arr {v : PyVal} {y : Arr} (h : SameShapes v (vArr y)) : ∃ x, v = vArr x ∧ x.shape = y.shape := by
  obtain ⟨t, h1, h2⟩ := h
  simp only [vArr, Tree.norm, shapes, Option.some.injEq] at h2
  subst h2
  cases v with
  | leaf b => cases b with
    | arr x => simp only [Tree.norm, shapes, Option.some.injEq, Tree.leaf.injEq] at h1; exact ⟨x, rfl, h1⟩
    | _ => simp [Tree.norm, shapes] at h1
  | none => simp [Tree.norm, shapes] at h1
  | list ts => simp [Tree.norm, shapes] at h1
  | tuple ts => simp [Tree.norm, shapes] at h1
  | dict kvs => simp [Tree.norm, shapes] at h1

theorem shapeInts_eq {x : Arr} {s : List Nat} : shapeInts x = s.map (fun n : Nat => (n : Int)) ↔ x.shape = s := by
  unfold shapeInts
  constructor
  · intro h
    exact map_ofNat_inj h
  · rintro rfl; rfl

/-- **C109** A compiled `AffineHermitianMatrix` takes exactly the Hermitian arrays with the shape of its matrices. -/
theorem C109_affine_hermitian (a : Attrs Attr) (h : Reach affHerm affHermNew affHermComp a) (hc : a Ms ≠ .none) :
    Takes affHerm.setParams (fun v => setAttr a Ms v) a fun v => SameShapes v (a Ms) ∧ Hermitian v := by
  obtain ⟨y, p, n, hM, hs, hh, hn⟩ := (affHerm_reach_inv h).arr.resolve_left hc
  intro v
  show (_ → affHermSetParams a v = _) ∧ (_ → affHermSetParams a v = _)
  rw [hM]
  constructor
  · rintro ⟨h1, z, hz, h2⟩
    obtain ⟨x, rfl, hx⟩ := sameShapes_arr h1
    cases hz
    exact affHerm_set_ok (hx.trans hs) h2 hn (by simp [hM, vArr, leadOf, hs])
  · intro hP
    cases v with
    | leaf b => cases b with
      | arr x =>
        have hl : leadOf (a Ms) x = p := by simp [hM, vArr, leadOf, hs]
        unfold affHermSetParams
        simp only [hn, intOf, vInt, hl]
        split
        · rfl
        · next hsh =>
          simp only [ne_eq, Classical.not_not] at hsh
          have hx : x.shape = [p, n, n] := shapeInts_eq.1 hsh
          split
          · rfl
          · next hb =>
            exact absurd ⟨shapes_arr.2 (hx.trans hs.symm), x, rfl, by simpa using hb⟩ hP
      | _ => rfl
    | _ => rfl

/-- Four by four matrices for two inputs and a bias term. -/
example : ∃ a, Reach affHerm affHermNew affHermComp a ∧ a Ms ≠ .none ∧ affHerm.setParams a (vArr ⟨[3, 4, 4], false, true, 9⟩) = .ok (setAttr a Ms (vArr ⟨[3, 4, 4], false, true, 9⟩)) ∧
    affHerm.setParams a (vArr ⟨[2, 4, 4], false, true, 9⟩) = .error .valueError ∧ affHerm.setParams a (vArr ⟨[3, 4, 4], false, false, 9⟩) = .error .valueError :=
  ⟨_, .compile (.new ⟨some 4, 0, 1, true, none, rfl⟩) ⟨3, 0, rfl⟩, (by intro h; cases h), rfl, rfl, rfl⟩

/-- **C109** A compiled `AffineTensor` takes exactly the arrays with the shape of its tensors. -/
theorem C109_affine_tensor (a : Attrs Attr) (h : Reach affTensor affTensorNew affTensorComp a) (hc : a Ms ≠ .none) :
    Takes affTensor.setParams (fun v => setAttr a Ms v) a fun v => SameShapes v (a Ms) := by
  obtain ⟨y, p, s, hM, hs, hn⟩ := (affTensor_reach_inv h).arr.resolve_left hc
  have hl : ∀ x, leadOf (a Ms) x = p := fun x => by simp [hM, vArr, leadOf, hs]
  have key : ∀ x : Arr, affTensorSetParams a (vArr x) = if x.shape = p :: s then .ok (setAttr a Ms (vArr x)) else .error .valueError := by
    intro x
    unfold affTensorSetParams vArr
    rw [hn, intsOf_ints]
    simp only [hl]
    have : (shapeInts x ≠ (p : Int) :: s.map fun n : Nat => (n : Int)) ↔ x.shape ≠ p :: s := not_congr (shapeInts_eq (s := p :: s))
    by_cases hx : x.shape = p :: s
    · rw [if_neg (by rw [this]; simpa using hx), if_pos hx]
    · rw [if_pos (this.2 hx), if_neg hx]
  intro v
  show (_ → affTensorSetParams a v = _) ∧ (_ → affTensorSetParams a v = _)
  rw [hM]
  constructor
  · intro h1
    obtain ⟨x, rfl, hx⟩ := sameShapes_arr h1
    rw [key, if_pos (hx.trans hs)]
  · intro hP
    cases v with
    | leaf b => cases b with
      | arr x =>
        refine (key x).trans (if_neg fun hx => hP (shapes_arr.2 (hx.trans hs.symm)))
      | _ => rfl
    | _ => rfl

example : ∃ a, Reach affTensor affTensorNew affTensorComp a ∧ a Ms ≠ .none ∧ affTensor.setParams a (vArr ⟨[3, 2, 5], false, false, 9⟩) = .ok (setAttr a Ms (vArr ⟨[3, 2, 5], false, false, 9⟩)) ∧
    affTensor.setParams a (vArr ⟨[3, 5, 2], true, false, 9⟩) = .error .valueError :=
  ⟨_, .compile (.new ⟨some [2, 5], 1, true, true, none, rfl⟩) ⟨3, 0, rfl⟩, (by intro h; cases h), rfl, rfl⟩

/-- **C109** A compiled `ExpectationValueSum` or `TransitionAmplitudeSum` takes exactly the Hermitian arrays for its numbers of outputs and observables, of any matrix size. -/
theorem C109_observables (nm : String) (a : Attrs Attr) (h : Reach (expVal nm) expValNew expValComp a) (hc : a Ds ≠ .none) :
    ∃ q l n : Nat, (∃ y, a Ds = vArr y ∧ y.shape = [q, l, n, n]) ∧
      Takes (expVal nm).setParams (fun v => setAttr a Ds v) a fun v => (∃ x m, v = vArr x ∧ x.shape = [q, l, m, m]) ∧ Hermitian v := by
  obtain ⟨y, q, l, n, hM, hs, hh, hq, hl⟩ := (expVal_reach_inv h).arr.resolve_left hc
  refine ⟨q, l, n, ⟨y, hM, hs⟩, fun v => ⟨?_, fun hP => ?_⟩⟩
  · rintro ⟨⟨x, m, rfl, hx⟩, z, hz, h2⟩
    cases hz
    exact expVal_set_ok hx h2 hq hl
  · show expValSetParams a v = _
    cases v with
    | leaf b => cases b with
      | arr x =>
        unfold expValSetParams
        simp only [hq, hl, intOf, vInt]
        split
        · next d0 d1 d2 d3 q' l' hsh hq' hl' =>
          cases hq'
          cases hl'
          split
          · rfl
          · next he =>
            simp only [ne_eq, Classical.not_not, List.cons.injEq, and_true, true_and] at he
            obtain ⟨rfl, rfl, rfl⟩ := he
            split
            · rfl
            · next hb =>
              refine absurd ⟨⟨x, d3.toNat, rfl, ?_⟩, x, rfl, by simpa using hb⟩ hP
              have : x.shape.map Int.ofNat = [(q : Int), l, d3, d3] := hsh
              cases hx : x.shape with
              | nil => rw [hx] at this; simp at this
              | cons a1 r1 => cases r1 with
                | nil => rw [hx] at this; simp at this
                | cons a2 r2 => cases r2 with
                  | nil => rw [hx] at this; simp at this
                  | cons a3 r3 => cases r3 with
                    | nil => rw [hx] at this; simp at this
                    | cons a4 r4 => cases r4 with
                      | nil =>
                        rw [hx] at this
                        simp only [List.map_cons, List.map_nil, List.cons.injEq, and_true, Int.ofNat_eq_natCast] at this
                        obtain ⟨h1, h2, h3, h4⟩ := this
                        have h7 : a1 = q := by omega
                        have h8 : a2 = l := by omega
                        have h5 : a3 = d3.toNat := by omega
                        have h6 : a4 = d3.toNat := by omega
                        rw [h5, h6, h7, h8]
                      | cons _ _ => rw [hx] at this; simp at this
        · rfl
      | _ => rfl
    | _ => rfl

/-- **C109** (refutation) So a compiled `ExpectationValueSum` for matrices of size `n` takes observables of any other size, with which it does not compile on its input any more. -/
theorem C109_observables_refuted (nm : String) (a : Attrs Attr) (h : Reach (expVal nm) expValNew expValComp a) (q l n m : Nat) (y x : Arr) (hy : a Ds = vArr y) (hys : y.shape = [q, l, n, n])
    (hm : m ≠ n) (hx : x.shape = [q, l, m, m]) (hh : x.herm = true) :
    ∃ b, (expVal nm).setParams a (vArr x) = .ok b ∧ ¬ SameShapes (vArr x) (a Ds) ∧ (∀ r, expValCompile n r a = .ok a) ∧ ∀ r, expValCompile n r b = .error .valueError := by
  obtain ⟨q', l', n', ⟨y', hy', hys'⟩, ht⟩ := C109_observables nm a h (by rw [hy]; intro h; cases h)
  rw [hy] at hy'
  cases hy'
  rw [hys] at hys'
  simp only [List.cons.injEq] at hys'
  obtain ⟨rfl, rfl, rfl, -⟩ := hys'
  refine ⟨_, (ht _).1 ⟨⟨x, m, rfl, hx⟩, x, rfl, hh⟩, ?_, fun r => ?_, fun r => ?_⟩
  · rw [hy, shapes_arr, hx, hys]
    simpa using hm
  · unfold expValCompile
    rw [hy]
    simp [vArr, hys]
  · unfold expValCompile
    simp [setAttr, vArr, hx, hm]

/-- Observables of size four are replaced by observables of size seven. -/
example : ∃ a, Reach (expVal "E") expValNew expValComp a ∧ a Ds = vArr ⟨[1, 2, 4, 4], false, true, 0⟩ ∧ (expVal "E").setParams a (vArr ⟨[1, 2, 7, 7], false, true, 9⟩) = .ok (setAttr a Ds (vArr ⟨[1, 2, 7, 7], false, true, 9⟩)) ∧
    (expVal "E").setParams a (vArr ⟨[1, 3, 4, 4], false, true, 9⟩) = .error .valueError :=
  ⟨_, .compile (.new ⟨some 2, some 1, 1, true, none, rfl⟩) ⟨4, 0, rfl⟩, rfl, rfl, rfl⟩

/-! ### The low-rank matrices -/

/-- What is true of all `LowRankAffineHermitianMatrix` objects. -/
structure LowRankInv (a : Attrs Attr) : Prop where
  size : a matrixSize = .none ∨ ∃ n : Nat, a matrixSize = vInt n
  rank : a matrixRank = .none ∨ ∃ r : Nat, a matrixRank = vInt r
  arr : (a us = .none ∧ a ls = .none) ∨ ∃ (u l : Arr) (p q n r : Nat), a us = vArr u ∧ a ls = vArr l ∧ u.shape = [p, n, r] ∧ l.shape = [q, r] ∧ a matrixSize = vInt n ∧ a matrixRank = vInt r

theorem lowRank_set {a : Attrs Attr} (l u : Arr) (n r : Nat) (hn : a matrixSize = vInt n) (hr : a matrixRank = vInt r) :
    lowRankSetParams a (.tuple [vArr l, vArr u]) = if u.shape = [leadOf (a us) u, n, r] ∧ l.shape = [leadOf (a ls) l, r] then
      .ok (setAttr (setAttr a ls (vArr l)) us (vArr u)) else .error .valueError := by
  unfold lowRankSetParams vArr
  simp only [hn, hr, intOf, vInt]
  have h1 : (shapeInts u ≠ [(leadOf (a us) u : Int), n, r]) ↔ u.shape ≠ [leadOf (a us) u, n, r] := not_congr (shapeInts_eq (s := [leadOf (a us) u, n, r]))
  have h2 : (shapeInts l ≠ [(leadOf (a ls) l : Int), r]) ↔ l.shape ≠ [leadOf (a ls) l, r] := not_congr (shapeInts_eq (s := [leadOf (a ls) l, r]))
  by_cases h3 : u.shape = [leadOf (a us) u, n, r]
  · by_cases h4 : l.shape = [leadOf (a ls) l, r]
    · rw [if_neg (fun h => h1.1 h h3), if_neg (fun h => h2.1 h h4), if_pos ⟨h3, h4⟩]
    · rw [if_neg (fun h => h1.1 h h3), if_pos (h2.2 h4), if_neg (fun h => h4 h.2)]
  · rw [if_pos (h1.2 h3), if_neg (fun h => h3 h.1)]

theorem lowRank_set_ok {a b : Attrs Attr} {v : PyVal} (h : lowRankSetParams a v = .ok b) :
    ∃ l u, v = .tuple [vArr l, vArr u] ∧ (∃ n, intOf (a matrixSize) = some n) ∧ ∃ r, intOf (a matrixRank) = some r := by
  unfold lowRankSetParams at h
  split at h
  · next l u =>
    split at h
    · next n r hn hr => exact ⟨l, u, rfl, ⟨n, hn⟩, r, hr⟩
    · cases h
  · cases h

theorem lowRank_inv {a : Attrs Attr} (h : Reach lowRank lowRankNew lowRankComp a) : LowRankInv a := by
  induction h with
  | @new a h =>
    obtain ⟨n, r, s, g, b, rfl⟩ := h
    refine ⟨?_, ?_, Or.inl ⟨rfl, rfl⟩⟩
    · cases n with
      | none => exact Or.inl rfl
      | some n => exact Or.inr ⟨n, rfl⟩
    · cases r with
      | none => exact Or.inl rfl
      | some r => exact Or.inr ⟨r, rfl⟩
  | @compile a b _ hc ih =>
    obtain ⟨p, rnd, hc⟩ := hc
    unfold lowRankCompile at hc
    rcases ih.arr with ⟨hu, hl⟩ | ⟨u, l, p', q, n, r, hu, -⟩
    · simp only [hu] at hc
      rcases ih.size with hn | ⟨n, hn⟩
      · simp [hn, intOf] at hc
      rcases ih.rank with hr | ⟨r, hr⟩
      · simp [hn, hr, intOf, vInt] at hc
      simp only [hn, hr, intOf, vInt, Except.ok.injEq] at hc
      subst hc
      refine ⟨Or.inr ⟨n, by simp [setAttr, hn]⟩, Or.inr ⟨r, by simp [setAttr, hr]⟩, Or.inr ⟨⟨[p, n, r], false, false, rnd⟩, ⟨[p, r], true, false, rnd⟩, p, p, n, r, ?_, ?_, rfl, rfl, by simp [setAttr, hn], by simp [setAttr, hr]⟩⟩
      · simp [setAttr]
      · simp [setAttr]
    · simp only [hu, vArr] at hc
      split at hc
      · cases hc
      · cases hc; exact ih
  | @setParams a b v _ hs ih =>
    have hs' : lowRankSetParams a v = .ok b := hs
    obtain ⟨l, u, rfl, ⟨n, hn⟩, r, hr⟩ := lowRank_set_ok hs'
    rcases ih.size with h0 | ⟨n, h0⟩
    · simp [h0, intOf] at hn
    rcases ih.rank with h1 | ⟨r, h1⟩
    · simp [h1, intOf] at hr
    rw [lowRank_set l u n r h0 h1] at hs'
    split at hs'
    · next hh =>
      cases hs'
      exact ⟨Or.inr ⟨n, by simp [setAttr, h0]⟩, Or.inr ⟨r, by simp [setAttr, h1]⟩, Or.inr ⟨u, l, _, _, n, r, by simp [setAttr], by simp [setAttr], hh.1, hh.2, by simp [setAttr, h0], by simp [setAttr, h1]⟩⟩
    · cases hs'

theorem sameShapes_pair {v : PyVal} {y z : Arr} : SameShapes v (.tuple [vArr y, vArr z]) ↔ ∃ x w, v = .tuple [vArr x, vArr w] ∧ x.shape = y.shape ∧ w.shape = z.shape := by
  constructor
  · rintro ⟨t, h1, h2⟩
    simp only [vArr, Tree.norm, Tree.normL, shapes, shapesL, Option.map_some, Option.some.injEq] at h2
    subst h2
    cases v with
    | leaf b => cases b <;> simp [Tree.norm, shapes] at h1
    | none => simp [Tree.norm, shapes] at h1
    | list ts => simp [Tree.norm, shapes] at h1
    | dict kvs => simp [Tree.norm, shapes] at h1
    | tuple ts =>
      simp only [Tree.norm, shapes, Option.map_eq_some_iff, Tree.tuple.injEq, exists_eq_right] at h1
      have one : ∀ (w : PyVal) (n : List Nat), shapes w.norm = some (.leaf n) → ∃ x, w = vArr x ∧ x.shape = n := by
        intro w n hw
        exact sameShapes_arr (y := ⟨n, true, true, 0⟩) ⟨_, hw, rfl⟩
      cases ts with
      | nil => simp [Tree.normL, shapesL] at h1
      | cons t1 ts => cases ts with
        | nil =>
          simp only [Tree.normL, shapesL] at h1
          split at h1
          · next e => cases e; simp at h1
          · cases h1
        | cons t2 ts => cases ts with
          | nil =>
            simp only [Tree.normL, shapesL] at h1
            split at h1
            · next u r hu hr =>
              simp only [Option.some.injEq, List.cons.injEq] at h1
              obtain ⟨rfl, rfl⟩ := h1
              split at hr
              · next u' r' hu' hr' =>
                cases hr'
                simp only [Option.some.injEq, List.cons.injEq, and_true] at hr
                subst hr
                obtain ⟨x, rfl, hx⟩ := one _ _ hu
                obtain ⟨w, rfl, hw⟩ := one _ _ hu'
                exact ⟨x, w, rfl, hx, hw⟩
              · cases hr
            · cases h1
          | cons t3 ts =>
            exfalso
            have := congrArg (Option.map List.length) h1
            simp only [Tree.normL, shapesL, Option.map_some, List.length_cons, List.length_nil] at this
            revert this
            cases shapes t1.norm <;> cases shapes t2.norm <;> cases shapes t3.norm <;> cases shapesL (Tree.normL ts) <;> simp
  · rintro ⟨x, w, rfl, h1, h2⟩
    exact ⟨_, rfl, by simp [vArr, Tree.norm, Tree.normL, shapes, shapesL, h1, h2]⟩

/-- **C109** A compiled `LowRankAffineHermitianMatrix` takes exactly the pairs of arrays with the shapes of its weights and vectors. -/
theorem C109_low_rank (a : Attrs Attr) (h : Reach lowRank lowRankNew lowRankComp a) (hc : a us ≠ .none) :
    Takes lowRank.setParams (fun v => match v with | .tuple [l, u] => setAttr (setAttr a ls l) us u | _ => a) a fun v => SameShapes v (.tuple [a ls, a us]) := by
  obtain ⟨u, l, p, q, n, r, hu, hl, hus, hls, hn, hr⟩ := (lowRank_inv h).arr.resolve_left (fun h => hc h.1)
  have hp : ∀ x, leadOf (a us) x = p := fun x => by simp [hu, vArr, leadOf, hus]
  have hq : ∀ x, leadOf (a ls) x = q := fun x => by simp [hl, vArr, leadOf, hls]
  intro v
  show (_ → lowRankSetParams a v = _) ∧ (_ → lowRankSetParams a v = _)
  simp only [hu, hl, sameShapes_pair, hus, hls]
  constructor
  · rintro ⟨x, w, rfl, hx, hw⟩
    rw [lowRank_set x w n r hn hr, hp, hq, if_pos ⟨hw, hx⟩]
  · intro hP
    have key : ∀ x w : Arr, v = .tuple [vArr x, vArr w] → lowRankSetParams a v = .error .valueError := by
      rintro x w rfl
      rw [lowRank_set x w n r hn hr, hp, hq, if_neg]
      exact fun hh => hP ⟨x, w, rfl, hh.2, hh.1⟩
    unfold lowRankSetParams
    split
    · next x w =>
      have := key x w rfl
      unfold lowRankSetParams at this
      exact this
    · rfl

example : ∃ a, Reach lowRank lowRankNew lowRankComp a ∧ a us ≠ .none ∧
    lowRank.setParams a (.tuple [vArr ⟨[3, 2], true, false, 8⟩, vArr ⟨[3, 4, 2], false, false, 9⟩]) = .ok (setAttr (setAttr a ls (vArr ⟨[3, 2], true, false, 8⟩)) us (vArr ⟨[3, 4, 2], false, false, 9⟩)) ∧
    lowRank.setParams a (.tuple [vArr ⟨[3, 4, 2], true, false, 8⟩, vArr ⟨[3, 2], false, false, 9⟩]) = .error .valueError :=
  ⟨_, .compile (.new ⟨some 4, some 2, 0, 1, true, rfl⟩) ⟨3, 0, rfl⟩, (by intro h; cases h), rfl, rfl⟩

/-! ### PReLU -/

/-- What is true of all `PReLU` objects. -/
def PreluInv (a : Attrs Attr) : Prop :=
  ∃ s, a singleParameter = vBool s ∧ (a inputShape = .none ∨ (s = true ∧ OneSlope (a Attr.a)) ∨ (s = false ∧ a Attr.a ≠ .none ∧ fitsShape (a Attr.a).norm (a inputShape).norm = true))

theorem norm_none {t : PyVal} : t.norm = .none ↔ t = .none := by cases t <;> simp [Tree.norm]

theorem oneSlope_ne {v : PyVal} (h : OneSlope v) : v ≠ .none := by
  rcases h with ⟨x, rfl | rfl, -⟩ | ⟨x, rfl, -⟩ <;> intro h <;> cases h

theorem fits_ne {v s : PyVal} (hs : s ≠ .none) (h : fitsShape v.norm s.norm = true) : v ≠ .none := by
  rintro rfl
  have : s.norm ≠ .none := fun h => hs (norm_none.1 h)
  revert h this
  generalize s.norm = u
  cases u <;> simp [Tree.norm, fitsShape]

theorem prelu_set_single {a : Attrs Attr} (v : PyVal) (h0 : a Attr.a ≠ .none) (h1 : a inputShape ≠ .none) (hs : a singleParameter = vBool true) :
    (OneSlope v → preluSetParams a v = .ok (setAttr a Attr.a v)) ∧ (¬ OneSlope v → preluSetParams a v = .error .valueError) := by
  unfold preluSetParams
  constructor
  · intro hv
    split
    · next h => exact absurd h h0
    · next h _ => exact absurd h h1
    · simp only [hs, vBool]
      rcases hv with ⟨x, rfl | rfl, hx⟩ | ⟨x, rfl, hx⟩ <;> simp [vArr, hx]
  · intro hv
    split
    · next h => exact absurd h h0
    · next h _ => exact absurd h h1
    · simp only [hs, vBool]
      split
      · next x => exact if_neg fun hx => hv (Or.inl ⟨x, Or.inl rfl, hx⟩)
      · next x => exact if_neg fun hx => hv (Or.inl ⟨x, Or.inr rfl, hx⟩)
      · next x => exact if_neg fun hx => hv (Or.inr ⟨x, rfl, hx⟩)
      · rfl

theorem prelu_set_many {a : Attrs Attr} (v : PyVal) (h0 : a Attr.a ≠ .none) (h1 : a inputShape ≠ .none) (hs : a singleParameter = vBool false) :
    preluSetParams a v = if fitsShape v.norm (a inputShape).norm then .ok (setAttr a Attr.a v) else .error .valueError := by
  unfold preluSetParams
  split
  · next h => exact absurd h h0
  · next h _ => exact absurd h h1
  · simp only [hs, vBool]

theorem prelu_inv {a : Attrs Attr} (h : Reach preluCls preluNew preluComp a) : PreluInv a := by
  induction h with
  | @new a h =>
    obtain ⟨s, g, r, rfl⟩ := h
    exact ⟨s, rfl, Or.inl rfl⟩
  | @compile a b _ hc ih =>
    obtain ⟨rnd, sh, hc⟩ := hc
    obtain ⟨s, hs, ih'⟩ := id ih
    unfold preluCompile at hc
    split at hc
    · split at hc
      · cases hc
      · cases hc; exact ih
    · split at hc
      · next hf =>
        cases hc
        cases s with
        | false => rw [hs] at hf; cases hf
        | true => exact ⟨true, by simpa [setAttr] using hs, Or.inr (Or.inl ⟨rfl, Or.inl ⟨⟨[1], flagOn (a real), false, rnd⟩, Or.inl (by simp [setAttr]), rfl⟩⟩)⟩
      · next hf =>
        split at hc
        · next u hu =>
          cases hc
          cases s with
          | true => rw [hs] at hf; exact absurd rfl hf
          | false =>
            refine ⟨false, by simpa [setAttr] using hs, ?_⟩
            by_cases h0 : sh = .none
            · exact Or.inl (by simpa [setAttr] using h0)
            · have hfit : fitsShape u.norm sh.norm = true := by
                rw [arrTree_norm _ _ _ (Loaded.norm_idem sh) hu]
                exact (fits_iff _ _).2 (arrTree_shapes _ _ _ hu)
              exact Or.inr (Or.inr ⟨rfl, by simpa [setAttr] using fits_ne h0 hfit, by simpa [setAttr] using hfit⟩)
        · cases hc
  | @setParams a b v _ hv ih =>
    have hv' : preluSetParams a v = .ok b := hv
    obtain ⟨s, hs, ih⟩ := ih
    rcases ih with h0 | ⟨rfl, h0⟩ | ⟨rfl, h0, h2⟩
    · unfold preluSetParams at hv'
      rw [h0] at hv'
      refine ⟨s, ?_, Or.inl ?_⟩ <;> · split at hv' <;> first | (cases hv'; simp [setAttr, hs, h0]) | simp_all
    · by_cases h1 : a inputShape = .none
      · unfold preluSetParams at hv'
        rw [h1] at hv'
        refine ⟨true, ?_, Or.inl ?_⟩ <;> · split at hv' <;> first | (cases hv'; simp [setAttr, hs, h1]) | simp_all
      · by_cases hP : OneSlope v
        · rw [(prelu_set_single v (oneSlope_ne h0) h1 hs).1 hP] at hv'
          cases hv'
          exact ⟨true, by simpa [setAttr] using hs, Or.inr (Or.inl ⟨rfl, by simpa [setAttr] using hP⟩)⟩
        · rw [(prelu_set_single v (oneSlope_ne h0) h1 hs).2 hP] at hv'
          cases hv'
    · by_cases h1 : a inputShape = .none
      · unfold preluSetParams at hv'
        rw [h1] at hv'
        refine ⟨false, ?_, Or.inl ?_⟩ <;> · split at hv' <;> first | (cases hv'; simp [setAttr, hs, h1]) | simp_all
      · rw [prelu_set_many v h0 h1 hs] at hv'
        split at hv'
        · next hf =>
          cases hv'
          exact ⟨false, by simpa [setAttr] using hs, Or.inr (Or.inr ⟨rfl, by simpa [setAttr] using fits_ne h1 hf, by simpa [setAttr] using hf⟩)⟩
        · cases hv'

/-- **C109** A compiled `PReLU` with slopes for all features takes exactly the trees of arrays with the shapes of its slopes at the same places. -/
theorem C109_prelu (a : Attrs Attr) (h : Reach preluCls preluNew preluComp a) (hc : a inputShape ≠ .none) (hs : a singleParameter = vBool false) :
    Takes preluCls.setParams (fun v => setAttr a Attr.a v) a fun v => SameShapes v (a Attr.a) := by
  obtain ⟨s, hs', hi⟩ := prelu_inv h
  rw [hs] at hs'
  cases hs'
  rcases hi with h0 | ⟨h0, -⟩ | ⟨-, h0, hf⟩
  · exact absurd h0 hc
  · cases h0
  intro v
  show (_ → preluSetParams a v = _) ∧ (_ → preluSetParams a v = _)
  rw [prelu_set_many v h0 hc hs]
  have : fitsShape v.norm (a inputShape).norm = true ↔ SameShapes v (a Attr.a) := by
    obtain ⟨t, h1, h2⟩ := (fits_iff _ _).1 hf
    rw [fits_iff]
    constructor
    · rintro ⟨t', h3, h4⟩
      rw [h2] at h4
      cases h4
      exact ⟨t, h3, h1⟩
    · rintro ⟨t', h3, h4⟩
      rw [h1] at h4
      cases h4
      exact ⟨t, h3, h2⟩
  exact ⟨fun hP => if_pos (this.2 hP), fun hP => if_neg fun hf => hP (this.1 hf)⟩

/-- Slopes for a dictionary of two inputs. -/
example : ∃ a, Reach preluCls preluNew preluComp a ∧ a inputShape ≠ .none ∧ a singleParameter = vBool false ∧
    a Attr.a = .dict [("x".toList, vArr ⟨[2, 3], true, false, 0⟩), ("y".toList, .list [vArr ⟨[], true, false, 0⟩])] ∧
    preluCls.setParams a (.dict [("y".toList, .list [vArr ⟨[], true, false, 9⟩]), ("x".toList, vArr ⟨[2, 3], true, false, 9⟩)]) =
      .ok (setAttr a Attr.a (.dict [("y".toList, .list [vArr ⟨[], true, false, 9⟩]), ("x".toList, vArr ⟨[2, 3], true, false, 9⟩)])) ∧
    preluCls.setParams a (.dict [("x".toList, vArr ⟨[3, 2], true, false, 9⟩), ("y".toList, .list [vArr ⟨[], true, false, 9⟩])]) = .error .valueError :=
  ⟨_, .compile (.new ⟨false, 2, true, rfl⟩) ⟨0, .dict [("y".toList, .list [.tuple []]), ("x".toList, .tuple [vInt 2, vInt 3])], rfl⟩, (by intro h; cases h), rfl, rfl, rfl, rfl⟩

/-- **C109** A compiled `PReLU` with one slope takes exactly one array of shape `(1,)` in a tuple or a list, or an array of shape `(1, 1)`. -/
theorem C109_prelu_single (a : Attrs Attr) (h : Reach preluCls preluNew preluComp a) (hc : a inputShape ≠ .none) (hs : a singleParameter = vBool true) :
    OneSlope (a Attr.a) ∧ Takes preluCls.setParams (fun v => setAttr a Attr.a v) a OneSlope := by
  obtain ⟨s, hs', hi⟩ := prelu_inv h
  rw [hs] at hs'
  cases hs'
  rcases hi with h0 | ⟨-, h0⟩ | ⟨h0, -⟩
  · exact absurd h0 hc
  · exact ⟨h0, fun v => prelu_set_single v (oneSlope_ne h0) hc hs⟩
  · cases h0

example : ∃ a, Reach preluCls preluNew preluComp a ∧ a inputShape ≠ .none ∧ a singleParameter = vBool true ∧ a Attr.a = .tuple [vArr ⟨[1], true, false, 0⟩] :=
  ⟨_, .compile (.new ⟨true, 2, true, rfl⟩) ⟨0, .tuple [vInt 2, vInt 3], rfl⟩, (by intro h; cases h), rfl, rfl⟩

/-! ### Bias and the unchecked modules -/

/-- **C109** A compiled `Bias` takes exactly the values with the structure of its bias, arrays as leaves, real numbers if and only if it is real, and shape `(1,)` if it is a scalar. -/
theorem C109_bias (a : Attrs Attr) (hb : a bias ≠ .none) (r s : Bool) (hr : a real = vBool r) (hs : a scalar = vBool s) :
    Takes biasCls.setParams (fun v => setAttr a bias v) a fun v => v.norm.map (fun _ => ()) = (a bias).norm.map (fun _ => ()) ∧ ArrayTree v ∧
      (s = true → ∃ x, v = vArr x ∧ x.shape = [1]) ∧ (r = true ↔ ∀ x, Atom.arr x ∈ v.flat → x.real = true) := by
  intro v
  show (_ → biasSetParams a v = _) ∧ (_ → biasSetParams a v = _)
  have e1 : biasSetParams a v = if !Tree.sameStruct v.norm (a bias).norm then .error .valueError else if !v.flat.all isArr then .error .valueError
      else if flagOn (vBool s) && !isScalarArr v then .error .valueError
      else match vBool r with
        | .leaf (.bool true) => if v.flat.all isRealLeaf then .ok (setAttr a bias v) else .error .valueError
        | _ => if v.flat.all isRealLeaf then .error .valueError else .ok (setAttr a bias v) := by
    unfold biasSetParams
    rw [hr, hs]
    cases hx : a bias with
    | none => exact absurd hx hb
    | _ => rfl
  have e2 : v.flat.all isArr = true ↔ ArrayTree v := by
    rw [List.all_eq_true]
    constructor
    · intro h l hl
      have := h l hl
      cases l <;> simp [isArr] at this
      exact ⟨_, rfl⟩
    · intro h l hl
      obtain ⟨x, rfl⟩ := h l hl
      rfl
  have e3 : isScalarArr v = true ↔ ∃ x, v = vArr x ∧ x.shape = [1] := by
    constructor
    · intro h
      unfold isScalarArr at h
      split at h
      · next x => exact ⟨x, rfl, by simpa using h⟩
      · cases h
    · rintro ⟨x, rfl, hx⟩
      simp [isScalarArr, vArr, hx]
  have e4 : ArrayTree v → (v.flat.all isRealLeaf = true ↔ ∀ x, Atom.arr x ∈ v.flat → x.real = true) := by
    intro ha
    rw [List.all_eq_true]
    constructor
    · intro h x hx; exact h _ hx
    · intro h l hl
      obtain ⟨x, rfl⟩ := ha l hl
      exact h x hl
  rw [e1]
  constructor
  · rintro ⟨h1, h2, h3, h4⟩
    have h5 : Tree.sameStruct v.norm (a bias).norm = true := (sameStruct_iff _ _).2 h1
    have h6 := e2.2 h2
    have h7 : (flagOn (vBool s) && !isScalarArr v) = false := by
      cases s with
      | false => rfl
      | true => rw [e3.2 (h3 rfl)]; rfl
    rw [h5, h6, h7]
    cases r with
    | true =>
      have := (e4 h2).2 (h4.1 rfl)
      simp [vBool, this]
    | false =>
      have : v.flat.all isRealLeaf = false := by
        cases hx : v.flat.all isRealLeaf with
        | false => rfl
        | true => exact absurd (h4.2 ((e4 h2).1 hx)) (by decide)
      simp only [vBool, Bool.not_true, Bool.false_eq_true, if_false, this]
  · intro hP
    split
    · rfl
    · next h1 =>
      split
      · rfl
      · next h2 =>
        split
        · rfl
        · next h3 =>
          have h1' : Tree.sameStruct v.norm (a bias).norm = true := by simpa using h1
          have h2' : ArrayTree v := e2.1 (by simpa using h2)
          have h3' : s = true → ∃ x, v = vArr x ∧ x.shape = [1] := by
            rintro rfl
            exact e3.1 (by simpa [flagOn, vBool] using h3)
          have h4 : ¬ (r = true ↔ v.flat.all isRealLeaf = true) := fun h4 => hP ⟨(sameStruct_iff _ _).1 h1', h2', h3', h4.trans (e4 h2')⟩
          cases r with
          | true =>
            simp only [vBool]
            exact if_neg fun h => h4 ⟨fun _ => h, fun _ => rfl⟩
          | false =>
            simp only [vBool]
            refine if_pos ?_
            cases hx : v.flat.all isRealLeaf with
            | true => rfl
            | false => rw [hx] at h4; exact absurd Iff.rfl h4

/-- **C109** (refutation) A compiled `Bias` that is not a scalar takes arrays of any shape. -/
theorem C109_bias_refuted (a : Attrs Attr) (y x : Arr) (hb : a bias = vArr y) (r : Bool) (hr : a real = vBool r) (hs : a scalar = vBool false) (hx : x.real = r) :
    biasCls.setParams a (vArr x) = .ok (setAttr a bias (vArr x)) ∧ (x.shape ≠ y.shape → ¬ SameShapes (vArr x) (a bias)) := by
  constructor
  · refine (C109_bias a (by rw [hb]; intro h; cases h) r false hr hs (vArr x)).1 ⟨?_, ?_, fun h => (by cases h), ?_⟩
    · rw [hb]; rfl
    · intro l hl
      have : l = .arr x := by simpa [vArr, Tree.flat] using hl
      exact ⟨x, this⟩
    · rw [← hx]
      constructor
      · intro h z hz
        have : z = x := by simpa [vArr, Tree.flat] using hz
        rw [this, h]
      · intro h; exact h x (by simp [vArr, Tree.flat])
  · rw [hb, shapes_arr]; exact fun h => h

/-- A real bias of shape `(2, 3)` takes an array of shape `(7,)`. -/
example : biasCls.setParams (obj [(.real, vBool true), (.scalar, vBool false), (.bias, vArr ⟨[2, 3], true, false, 4⟩)]) (vArr ⟨[7], true, false, 9⟩) =
    .ok (setAttr (obj [(.real, vBool true), (.scalar, vBool false), (.bias, vArr ⟨[2, 3], true, false, 4⟩)]) bias (vArr ⟨[7], true, false, 9⟩)) :=
  (C109_bias_refuted _ _ _ rfl true rfl rfl rfl).1

/-- **C109** (refutation) `Constant`, `Einsum` and `MatMul` take every value, arrays or not. -/
theorem C109_unchecked_refuted (a : Attrs Attr) (v : PyVal) :
    constantCls.setParams a v = .ok (setAttr a constant v) ∧ einsumCls.setParams a v = .ok (setAttr a params v) ∧ matmulCls.setParams a v = .ok (setAttr a params v) :=
  ⟨rfl, rfl, rfl⟩

end Verif.Props
