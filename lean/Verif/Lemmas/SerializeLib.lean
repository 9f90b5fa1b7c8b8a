import Verif.Lemmas.Serialize
import Mathlib.Tactic.Set

/-! Invariants of the objects of the library's classes. -/

namespace Verif.Ser

open Verif.SerSpec Attr

theorem setUnlessNone_ok {K : Type} {f : Attrs K → PyVal → Except PyErr (Attrs K)} {a b : Attrs K} {v : PyVal}
    (h₀ : v = Tree.none → a = b) (h₁ : v ≠ Tree.none → f a v = .ok b) : setUnlessNone f a v = .ok b := by
  cases v <;> simp_all [setUnlessNone]

theorem flat_vInt (i : Int) : (vInt i).flat = [.int i] := rfl

theorem flat_ints (s : List Nat) : (Tree.tuple (s.map fun n : Nat => vInt n)).flat = s.map fun n : Nat => Atom.int n := by
  show Tree.flatL _ = _
  induction s with
  | nil => rfl
  | cons n s ih =>
    simp only [List.map_cons, Tree.flatL, ih]
    rfl

theorem ser_ints (s : List Nat) : serializable (Tree.tuple (s.map fun n : Nat => vInt n)) = true := by
  simp [serializable, flat_ints, Atom.is]

theorem intsOf_ints (s : List Nat) :
    intsOf (Tree.tuple (s.map fun n : Nat => vInt n)) = some (s.map fun n : Nat => (n : Int)) := by
  show List.mapM _ _ = _
  induction s with
  | nil => rfl
  | cons n s ih =>
    simp only [List.map_cons, List.mapM_cons, ih]
    rfl

/-! ### AffineHermitianMatrix -/

/-- What every reachable `AffineHermitianMatrix` satisfies. -/
structure AffHermInv (a : Attrs Attr) : Prop where
  only : Only [Ms, matrixSize, smoothing, initMagnitude, biasTerm] a
  writable : Writable [matrixSize, smoothing, initMagnitude, biasTerm] a
  size : a matrixSize = Tree.none ∨ ∃ n : Nat, a matrixSize = vInt n
  arr : a Ms = Tree.none ∨ ∃ (x : Arr) (p n : Nat), a Ms = vArr x ∧ x.shape = [p, n, n] ∧ x.herm = true ∧ a matrixSize = vInt n

theorem affHerm_setParams_ok {a b : Attrs Attr} {v : PyVal} (h : affHermSetParams a v = .ok b) :
    ∃ x n, v = vArr x ∧ a matrixSize = vInt n ∧ shapeInts x = [(leadOf (a Ms) x : Int), n, n] ∧ x.herm = true ∧
      b = setAttr a Ms v := by
  cases v with
  | leaf at' =>
    cases at' with
    | arr x =>
      simp only [affHermSetParams] at h
      cases hn : intOf (a matrixSize) with
      | none => simp [hn] at h
      | some n =>
        simp only [hn] at h
        split_ifs at h with h1 h2
        · refine ⟨x, n, rfl, ?_, by simpa using h1, by simpa using h2, by injection h with h; exact h.symm⟩
          cases hm : a matrixSize with
          | leaf y => cases y <;> simp_all [intOf, vInt]
          | _ => simp_all [intOf]
    | _ => simp [affHermSetParams] at h
  | _ => simp [affHermSetParams] at h

theorem shape_of_ints {x : Arr} {l n : Int} {p : Nat} (h : shapeInts x = [(p : Int), n, n]) (hl : l = n) :
    ∃ m : Nat, x.shape = [p, m, m] ∧ n = (m : Int) := by
  have _ := hl
  unfold shapeInts at h
  match hs : x.shape with
  | [d₀, d₁, d₂] =>
    rw [hs] at h
    simp only [List.map_cons, List.map_nil, List.cons.injEq, and_true] at h
    obtain ⟨h0, h1, h2⟩ := h
    refine ⟨d₁, ?_, h1.symm⟩
    have e0 : d₀ = p := by exact Int.ofNat.inj h0
    have e2 : d₂ = d₁ := Int.ofNat.inj (h2.trans h1.symm)
    rw [e0, e2]
  | [] => simp [hs] at h
  | [_] => simp [hs] at h
  | [_, _] => simp [hs] at h
  | _ :: _ :: _ :: _ :: _ => simp [hs] at h

theorem affHermInv_set {a : Attrs Attr} {x : Arr} {p n : Nat} (h : AffHermInv a) (hs : x.shape = [p, n, n]) (hh : x.herm = true)
    (hn : a matrixSize = vInt n) : AffHermInv (setAttr a Ms (vArr x)) where
  only := fun k hk => by
    have : k ≠ Ms := by rintro rfl; simp at hk
    simp only [setAttr, this, if_false]
    exact h.only k hk
  writable := fun k hk => by
    have : k ≠ Ms := by rintro rfl; simp at hk
    simp only [setAttr, this, if_false]
    exact h.writable k hk
  size := by simpa [setAttr] using h.size
  arr := Or.inr ⟨x, p, n, by simp [setAttr], hs, hh, by simpa [setAttr] using hn⟩

theorem intOf_eq {v : PyVal} {n : Int} (h : intOf v = some n) : v = vInt n := by
  cases v with
  | leaf y => cases y <;> simp_all [intOf, vInt]
  | _ => simp_all [intOf]

theorem affHerm_new_inv {a : Attrs Attr} (h : affHermNew a) : AffHermInv a := by
  obtain ⟨n, s, g, b, M, h⟩ := h
  unfold affHermInit at h
  split_ifs at h with hpos
  have base : ∀ (nv mv : PyVal), serializable nv = true →
      Only [Ms, matrixSize, smoothing, initMagnitude, biasTerm] (obj [(matrixSize, nv), (smoothing, vFloat s),
        (initMagnitude, vFloat g), (biasTerm, vBool b), (Ms, mv)]) ∧
      Writable [matrixSize, smoothing, initMagnitude, biasTerm] (obj [(matrixSize, nv), (smoothing, vFloat s),
        (initMagnitude, vFloat g), (biasTerm, vBool b), (Ms, mv)]) := by
    intro nv mv hnv
    constructor
    · intro k hk
      apply obj_none
      simpa [or_comm, or_assoc, or_left_comm] using hk
    · intro k hk
      simp only [List.mem_cons, List.not_mem_nil, or_false] at hk
      rcases hk with rfl | rfl | rfl | rfl
      · simpa [obj, setAll, setAttr] using hnv
      all_goals simp [obj, setAll, setAttr, vFloat, vBool, serializable, Tree.flat, Atom.is]
  cases M with
  | none =>
    simp only [Except.ok.injEq] at h
    subst h
    cases n with
    | none =>
      obtain ⟨h1, h2⟩ := base Tree.none Tree.none (by simp [serializable, Tree.flat])
      exact ⟨h1, h2, Or.inl (by simp [obj, setAll, setAttr]), Or.inl (by simp [obj, setAll, setAttr])⟩
    | some n =>
      obtain ⟨h1, h2⟩ := base (vInt n) Tree.none (by simp [serializable, Tree.flat, vInt, Atom.is])
      simp only [decide_eq_true_eq, Int.not_le] at hpos
      exact ⟨h1, h2, Or.inr ⟨n.toNat, by
        have e : ((n.toNat : Nat) : Int) = n := by omega
        rw [e]
        rfl⟩, Or.inl (by simp [obj, setAll, setAttr])⟩
  | some x =>
    match hs : x.shape with
    | [] => simp [hs] at h
    | [_] => simp [hs] at h
    | d₀ :: d₁ :: tl =>
      simp only [hs] at h
      split_ifs at h with h1 h2
      simp only [Except.ok.injEq] at h
      subst h
      simp only [ne_eq, Decidable.not_not] at h1
      obtain ⟨m, hm, hn⟩ := shape_of_ints (l := n.getD d₁) h1 rfl
      obtain ⟨q1, q2⟩ := base (vInt (n.getD d₁)) (vArr x) (by simp [serializable, Tree.flat, vInt, Atom.is])
      refine ⟨q1, q2, Or.inr ⟨m, by simp [obj, setAll, setAttr, hn]⟩, Or.inr ⟨x, d₀, m, ?_, hm, by simpa using h2, ?_⟩⟩
      · simp [obj, setAll, setAttr]
      · simp [obj, setAll, setAttr, hn]

theorem affHerm_reach_inv {a : Attrs Attr} (h : Reach affHerm affHermNew affHermComp a) : AffHermInv a := by
  induction h with
  | new h => exact affHerm_new_inv h
  | @compile a b _ hc ih =>
    obtain ⟨p, r, hc⟩ := hc
    unfold affHermCompile at hc
    rcases ih.arr with hM | ⟨x, q, n, hM, -⟩
    · simp only [hM] at hc
      rcases ih.size with hn | ⟨n, hn⟩
      · simp [hn, intOf] at hc
      · simp only [hn, intOf, vInt, Except.ok.injEq] at hc
        subst hc
        exact affHermInv_set ih (p := p) (n := n) (by simp) rfl hn
    · simp only [hM, vArr] at hc
      split_ifs at hc
      simp only [Except.ok.injEq] at hc
      exact hc ▸ ih
  | @setParams a b v _ hs ih =>
    have hs' : affHermSetParams a v = .ok b := hs
    obtain ⟨x, n, rfl, hn, hsh, hh, rfl⟩ := affHerm_setParams_ok hs'
    obtain ⟨m, hm, rfl⟩ := shape_of_ints (l := n) hsh rfl
    exact affHermInv_set ih hm hh hn

/-- Setting legal matrices on an object with the right size. -/
theorem affHerm_set_ok {a : Attrs Attr} {x : Arr} {p n : Nat} (hs : x.shape = [p, n, n]) (hh : x.herm = true)
    (hn : a matrixSize = vInt n) (hM : leadOf (a Ms) x = p) : affHermSetParams a (vArr x) = .ok (setAttr a Ms (vArr x)) := by
  simp [affHermSetParams, vArr, hn, intOf, vInt, shapeInts, hs, hh, hM]

/-- Attributes other than `p` are not touched by setting `p`. -/
theorem only_set {own : List Attr} {a : Attrs Attr} {p : Attr} {v : PyVal} (h : Only own a) (hp : p ∈ own) :
    Only own (setAttr a p v) := fun k hk => by
  have : k ≠ p := by rintro rfl; exact hk hp
  simp only [setAttr, this, if_false]
  exact h k hk

theorem writable_set {ks : List Attr} {a : Attrs Attr} {p : Attr} {v : PyVal} (h : Writable ks a) (hp : p ∉ ks) :
    Writable ks (setAttr a p v) := fun k hk => by
  have : k ≠ p := by rintro rfl; exact hp hk
  simp only [setAttr, this, if_false]
  exact h k hk

/-- A guarded class restores every object whose parameters its setter accepts on the object without parameters. -/
theorem copy_guarded_ok (pkg : Str) {nm : String} {fresh : List (Attr × PyVal)} {ks : List Attr} {p : Attr}
    {setP : Attrs Attr → PyVal → Except PyErr (Attrs Attr)} {m : MObj Attr} (hw : Writable ks m.attrs)
    (ho : Only (p :: ks) m.attrs) (hf : ∀ k ∈ fresh.map Prod.fst, k ∈ ks) (hp : p ∉ ks)
    (hset : m.attrs p ≠ Tree.none → ∀ b : Attrs Attr, (∀ k, k ≠ p → b k = m.attrs k) → b p = Tree.none →
      setP b (m.attrs p) = .ok (setAttr b p (m.attrs p))) :
    copy pkg (guardedCls nm fresh ks p setP) m = .ok m := by
  have hpf : p ∉ fresh.map Prod.fst := fun h => hp (hf p h)
  rw [copy_guarded pkg nm fresh ks p setP m hpf]
  set b := setAll (obj fresh) ((hypers ks m.attrs).filter fun kv => serializable kv.2) with hb
  have hbk : ∀ k, k ≠ p → b k = m.attrs k := restore_but hw ho hf
  have hbp : b p = Tree.none := by
    rw [hb, setAll_writable hw, if_neg hp, obj_none hpf]
  have : setUnlessNone setP b (m.attrs p) = .ok m.attrs := by
    refine setUnlessNone_ok (fun h0 => ?_) (fun h1 => ?_)
    · funext k
      by_cases hk : k = p
      · rw [hk, hbp, h0]
      · exact hbk k hk
    · rw [hset h1 b hbk hbp, setAttr_eq hbk]
  rw [this]

/-! ### AffineTensor -/

/-- What every reachable `AffineTensor` satisfies. -/
structure AffTensorInv (a : Attrs Attr) : Prop where
  only : Only [Ms, tensorShape, initMagnitude, biasTerm, real] a
  writable : Writable [tensorShape, initMagnitude, biasTerm, real] a
  size : a tensorShape = Tree.none ∨ ∃ s : List Nat, a tensorShape = .tuple (s.map fun n : Nat => vInt n)
  arr : a Ms = Tree.none ∨ ∃ (x : Arr) (p : Nat) (s : List Nat), a Ms = vArr x ∧ x.shape = p :: s ∧
    a tensorShape = .tuple (s.map fun n : Nat => vInt n)

theorem affTensor_setParams_ok {a b : Attrs Attr} {v : PyVal} (h : affTensorSetParams a v = .ok b) :
    ∃ x s, v = vArr x ∧ intsOf (a tensorShape) = some s ∧ shapeInts x = (leadOf (a Ms) x : Int) :: s ∧
      b = setAttr a Ms v := by
  cases v with
  | leaf at' =>
    cases at' with
    | arr x =>
      simp only [affTensorSetParams] at h
      cases hn : intsOf (a tensorShape) with
      | none => simp [hn] at h
      | some n =>
        simp only [hn] at h
        split_ifs at h with h1
        exact ⟨x, n, rfl, rfl, by simpa using h1, by injection h with h; exact h.symm⟩
    | _ => simp [affTensorSetParams] at h
  | _ => simp [affTensorSetParams] at h

theorem map_ofNat_inj {s t : List Nat} (h : s.map Int.ofNat = t.map Int.ofNat) : s = t := by
  induction s generalizing t with
  | nil => cases t <;> simp_all
  | cons a s ih =>
    cases t with
    | nil => simp at h
    | cons b t =>
      simp only [List.map_cons, List.cons.injEq] at h
      rw [Int.ofNat.inj h.1, ih h.2]

theorem affTensor_new_inv {a : Attrs Attr} (h : affTensorNew a) : AffTensorInv a := by
  obtain ⟨ts, g, b, r, M, h⟩ := h
  unfold affTensorInit at h
  have base : ∀ (nv mv : PyVal), serializable nv = true →
      Only [Ms, tensorShape, initMagnitude, biasTerm, real] (obj [(tensorShape, nv), (initMagnitude, vFloat g),
        (biasTerm, vBool b), (real, vBool r), (Ms, mv)]) ∧
      Writable [tensorShape, initMagnitude, biasTerm, real] (obj [(tensorShape, nv), (initMagnitude, vFloat g),
        (biasTerm, vBool b), (real, vBool r), (Ms, mv)]) := by
    intro nv mv hnv
    constructor
    · intro k hk
      apply obj_none
      simpa [or_comm, or_assoc, or_left_comm] using hk
    · intro k hk
      simp only [List.mem_cons, List.not_mem_nil, or_false] at hk
      rcases hk with rfl | rfl | rfl | rfl
      · simpa [obj, setAll, setAttr] using hnv
      all_goals simp [obj, setAll, setAttr, vFloat, vBool, serializable, Tree.flat, Atom.is]
  cases M with
  | none =>
    simp only [Except.ok.injEq] at h
    subst h
    cases ts with
    | none =>
      obtain ⟨h1, h2⟩ := base Tree.none Tree.none (by simp [serializable, Tree.flat])
      exact ⟨h1, h2, Or.inl rfl, Or.inl rfl⟩
    | some s =>
      obtain ⟨h1, h2⟩ := base _ Tree.none (ser_ints s)
      exact ⟨h1, h2, Or.inr ⟨s, rfl⟩, Or.inl rfl⟩
  | some x =>
    match hs : x.shape with
    | [] => simp [hs] at h
    | d₀ :: tl =>
      simp only [hs] at h
      split_ifs at h with h1
      simp only [Except.ok.injEq] at h
      subst h
      obtain ⟨q1, q2⟩ := base _ (vArr x) (ser_ints (shapeOr ts tl))
      refine ⟨q1, q2, Or.inr ⟨_, rfl⟩, Or.inr ⟨x, d₀, _, rfl, ?_, rfl⟩⟩
      rw [hs]
      simpa using h1

theorem affTensor_set_inv {a : Attrs Attr} {x : Arr} {p : Nat} {s : List Nat} (h : AffTensorInv a) (hs : x.shape = p :: s)
    (hn : a tensorShape = .tuple (s.map fun n : Nat => vInt n)) : AffTensorInv (setAttr a Ms (vArr x)) where
  only := only_set h.only (by simp)
  writable := writable_set h.writable (by simp)
  size := by simpa [setAttr] using h.size
  arr := Or.inr ⟨x, p, s, by simp [setAttr], hs, by simpa [setAttr] using hn⟩

theorem affTensor_reach_inv {a : Attrs Attr} (h : Reach affTensor affTensorNew affTensorComp a) : AffTensorInv a := by
  induction h with
  | new h => exact affTensor_new_inv h
  | @compile a b _ hc ih =>
    obtain ⟨p, r, hc⟩ := hc
    unfold affTensorCompile at hc
    rcases ih.arr with hM | ⟨x, q, n, hM, -⟩
    · simp only [hM] at hc
      rcases ih.size with hn | ⟨s, hn⟩
      · simp [hn, intsOf] at hc
      · rw [hn, intsOf_ints] at hc
        simp only [Except.ok.injEq] at hc
        subst hc
        refine affTensor_set_inv ih (p := p) (s := s) ?_ hn
        simp [Function.comp_def]
    · simp only [hM, vArr] at hc
      split_ifs at hc
      simp only [Except.ok.injEq] at hc
      exact hc ▸ ih
  | @setParams a b v _ hs ih =>
    have hs' : affTensorSetParams a v = .ok b := hs
    obtain ⟨x, t, rfl, hn, hsh, rfl⟩ := affTensor_setParams_ok hs'
    rcases ih.size with h0 | ⟨s, h0⟩
    · simp [h0, intsOf] at hn
    · rw [h0, intsOf_ints] at hn
      injection hn with hn
      subst hn
      refine affTensor_set_inv ih (p := leadOf (a Ms) x) (s := s) ?_ h0
      exact map_ofNat_inj hsh

/-! ### Expectation values and transition amplitudes -/

/-- What every reachable object satisfies. -/
structure ExpValInv (a : Attrs Attr) : Prop where
  only : Only [Ds, numObservables, outputSize, initMagnitude, centered] a
  writable : Writable [numObservables, outputSize, initMagnitude, centered] a
  size : (a outputSize = Tree.none ∨ ∃ q : Nat, a outputSize = vInt q) ∧
    (a numObservables = Tree.none ∨ ∃ l : Nat, a numObservables = vInt l)
  arr : a Ds = Tree.none ∨ ∃ (x : Arr) (q l n : Nat), a Ds = vArr x ∧ x.shape = [q, l, n, n] ∧ x.herm = true ∧
    a outputSize = vInt q ∧ a numObservables = vInt l

theorem expVal_set_ok {a : Attrs Attr} {x : Arr} {q l n : Nat} (hs : x.shape = [q, l, n, n]) (hh : x.herm = true)
    (hq : a outputSize = vInt q) (hl : a numObservables = vInt l) :
    expValSetParams a (vArr x) = .ok (setAttr a Ds (vArr x)) := by
  simp [expValSetParams, vArr, hq, hl, intOf, vInt, shapeInts, hs, hh]

theorem expVal_setParams_ok {a b : Attrs Attr} {v : PyVal} (h : expValSetParams a v = .ok b) :
    ∃ (x : Arr) (q l n : Nat), v = vArr x ∧ x.shape = [q, l, n, n] ∧ x.herm = true ∧ a outputSize = vInt q ∧
      a numObservables = vInt l ∧ b = setAttr a Ds v := by
  cases v with
  | leaf at' =>
    cases at' with
    | arr x =>
      simp only [expValSetParams] at h
      match hs : x.shape with
      | [d₀, d₁, d₂, d₃] =>
        cases hq : intOf (a outputSize) with
        | none => simp [shapeInts, hs, hq] at h
        | some q =>
          cases hl : intOf (a numObservables) with
          | none => simp [shapeInts, hs, hq, hl] at h
          | some l =>
            simp only [shapeInts, hs, hq, hl, List.map_cons, List.map_nil] at h
            split_ifs at h with h1 h2
            simp only [ne_eq, Decidable.not_not, List.cons.injEq, and_true] at h1
            obtain ⟨e0, e1, -, e3⟩ := h1
            refine ⟨x, d₀, d₁, d₂, rfl, ?_, by simpa using h2, ?_, ?_, by injection h with h; exact h.symm⟩
            · rw [hs, Int.ofNat.inj e3]
            · rw [intOf_eq hq, ← e0]; rfl
            · rw [intOf_eq hl, ← e1]; rfl
      | [] => simp [shapeInts, hs] at h
      | [_] => simp [shapeInts, hs] at h
      | [_, _] => simp [shapeInts, hs] at h
      | [_, _, _] => simp [shapeInts, hs] at h
      | _ :: _ :: _ :: _ :: _ :: _ => simp [shapeInts, hs] at h
    | _ => simp [expValSetParams] at h
  | _ => simp [expValSetParams] at h

theorem expVal_set_inv {a : Attrs Attr} {x : Arr} {q l n : Nat} (h : ExpValInv a) (hs : x.shape = [q, l, n, n])
    (hh : x.herm = true) (hq : a outputSize = vInt q) (hl : a numObservables = vInt l) :
    ExpValInv (setAttr a Ds (vArr x)) where
  only := only_set h.only (by simp)
  writable := writable_set h.writable (by simp)
  size := by simpa [setAttr] using h.size
  arr := Or.inr ⟨x, q, l, n, by simp [setAttr], hs, hh, by simpa [setAttr] using hq, by simpa [setAttr] using hl⟩

theorem expVal_new_inv {a : Attrs Attr} (h : expValNew a) : ExpValInv a := by
  obtain ⟨l, q, g, c, D, h⟩ := h
  unfold expValInit at h
  have base : ∀ (lv qv mv : PyVal), serializable lv = true → serializable qv = true →
      Only [Ds, numObservables, outputSize, initMagnitude, centered] (obj [(numObservables, lv), (outputSize, qv),
        (initMagnitude, vFloat g), (centered, vBool c), (Ds, mv)]) ∧
      Writable [numObservables, outputSize, initMagnitude, centered] (obj [(numObservables, lv), (outputSize, qv),
        (initMagnitude, vFloat g), (centered, vBool c), (Ds, mv)]) := by
    intro lv qv mv hl hq
    constructor
    · intro k hk
      apply obj_none
      simpa [or_comm, or_assoc, or_left_comm] using hk
    · intro k hk
      simp only [List.mem_cons, List.not_mem_nil, or_false] at hk
      rcases hk with rfl | rfl | rfl | rfl
      · simpa [obj, setAll, setAttr] using hl
      · simpa [obj, setAll, setAttr] using hq
      all_goals simp [obj, setAll, setAttr, vFloat, vBool, serializable, Tree.flat, Atom.is]
  have sv : ∀ i : Int, serializable (vInt i) = true := fun i => by simp [serializable, Tree.flat, vInt, Atom.is]
  have sn : serializable (Tree.none : PyVal) = true := by simp [serializable, Tree.flat]
  cases D with
  | none =>
    simp only [Except.ok.injEq] at h
    subst h
    cases l with
    | none =>
      cases q with
      | none => obtain ⟨h1, h2⟩ := base _ _ Tree.none sn sn; exact ⟨h1, h2, ⟨Or.inl rfl, Or.inl rfl⟩, Or.inl rfl⟩
      | some q => obtain ⟨h1, h2⟩ := base _ _ Tree.none sn (sv q); exact ⟨h1, h2, ⟨Or.inr ⟨q, rfl⟩, Or.inl rfl⟩, Or.inl rfl⟩
    | some l =>
      cases q with
      | none => obtain ⟨h1, h2⟩ := base _ _ Tree.none (sv l) sn; exact ⟨h1, h2, ⟨Or.inl rfl, Or.inr ⟨l, rfl⟩⟩, Or.inl rfl⟩
      | some q =>
        obtain ⟨h1, h2⟩ := base _ _ Tree.none (sv l) (sv q)
        exact ⟨h1, h2, ⟨Or.inr ⟨q, rfl⟩, Or.inr ⟨l, rfl⟩⟩, Or.inl rfl⟩
  | some x =>
    match hs : x.shape with
    | [d₀, d₁, d₂, d₃] =>
      simp only [hs] at h
      split_ifs at h with h1 h2 h3 h4
      simp only [Except.ok.injEq] at h
      subst h
      simp only [ne_eq, Decidable.not_not] at h1
      obtain ⟨q1, q2⟩ := base _ _ (vArr x) (sv d₁) (sv d₀)
      exact ⟨q1, q2, ⟨Or.inr ⟨d₀, rfl⟩, Or.inr ⟨d₁, rfl⟩⟩,
        Or.inr ⟨x, d₀, d₁, d₂, rfl, by rw [hs, h1], by simpa using h2, rfl, rfl⟩⟩
    | [] => simp [hs] at h
    | [_] => simp [hs] at h
    | [_, _] => simp [hs] at h
    | [_, _, _] => simp [hs] at h
    | _ :: _ :: _ :: _ :: _ :: _ => simp [hs] at h

theorem expVal_reach_inv {nm : String} {a : Attrs Attr} (h : Reach (expVal nm) expValNew expValComp a) : ExpValInv a := by
  induction h with
  | new h => exact expVal_new_inv h
  | @compile a b _ hc ih =>
    obtain ⟨n, r, hc⟩ := hc
    unfold expValCompile at hc
    rcases ih.arr with hM | ⟨x, q, l, k, hM, -⟩
    · simp only [hM] at hc
      rcases ih.size.1 with hq | ⟨q, hq⟩
      · simp [hq, intOf] at hc
      · rcases ih.size.2 with hl | ⟨l, hl⟩
        · simp [hl, hq, intOf, vInt] at hc
        · simp only [hq, hl, intOf, vInt, Except.ok.injEq] at hc
          subst hc
          exact expVal_set_inv ih (q := q) (l := l) (n := n) (by simp) rfl hq hl
    · simp only [hM, vArr] at hc
      split_ifs at hc
      simp only [Except.ok.injEq] at hc
      exact hc ▸ ih
  | @setParams a b v _ hs ih =>
    have hs' : expValSetParams a v = .ok b := hs
    obtain ⟨x, q, l, n, rfl, hsh, hh, hq, hl, rfl⟩ := expVal_setParams_ok hs'
    exact expVal_set_inv ih hsh hh hq hl

/-! ### LowRankAffineHermitianMatrix -/

/-- Restoring never brings the rank back, so the parameters are refused. -/
theorem lowRank_copy_fails (pkg : Str) (m : MObj Attr) : copy pkg lowRank m = .error .valueError := by
  rw [copy_eq]
  have h : lowRank.setHyper lowRank.freshTrainable lowRank.fresh
      ((lowRank.getHyper m.trainable m.attrs).filter fun kv => serializable kv.2)
      = .ok (setAll lowRank.fresh ((hypers [matrixSize, smoothing, initMagnitude, biasTerm] m.attrs).filter
        fun kv => serializable kv.2)) := rfl
  rw [h]
  have hr : setAll lowRank.fresh ((hypers [matrixSize, smoothing, initMagnitude, biasTerm] m.attrs).filter
        fun kv => serializable kv.2) matrixRank = Tree.none := by
    rw [setAll_ser]
    rfl
  have : setUnlessNone lowRank.setParams (setAll lowRank.fresh
      ((hypers [matrixSize, smoothing, initMagnitude, biasTerm] m.attrs).filter fun kv => serializable kv.2))
      (lowRank.getParams m.attrs) = .error .valueError := by
    show lowRankSetParams _ (.tuple [m.attrs ls, m.attrs us]) = _
    unfold lowRankSetParams
    split
    · split
      · rename_i h2
        rw [hr] at h2
        simp [intOf] at h2
      · rfl
    · rfl
  simp only [this]

/-! ### Einsum and MatMul -/

theorem foldl_keys (keys : List Attr) (ks : List Attr) (a b : Attrs Attr) (k : Attr) :
    ((hypers ks a).foldl (fun a kv => if kv.1 ∈ keys then setAttr a kv.1 kv.2 else a) b) k
      = if k ∈ ks ∧ k ∈ keys then a k else b k := by
  induction ks generalizing b with
  | nil => simp [hypers]
  | cons k₀ ks ih =>
    have : hypers (k₀ :: ks) a = (k₀, a k₀) :: hypers ks a := rfl
    rw [this, List.foldl_cons, ih]
    by_cases h0 : k₀ ∈ keys
    · simp only [h0, if_true, setAttr]
      by_cases hk : k = k₀
      · subst hk; simp [h0]
      · simp [hk]
    · simp only [h0, if_false]
      by_cases hk : k = k₀
      · subst hk; simp [h0]
      · simp [hk]

theorem filter_hypers_keys (ks : List Attr) (a : Attrs Attr) :
    ((hypers ks a).filter fun kv => serializable kv.2) = hypers (ks.filter fun k => serializable (a k)) a := by
  unfold hypers
  rw [List.filter_map]
  rfl

/-- The keys that an `Einsum` always writes. -/
def einsumPlain : List Attr := [einsumStr, dimMap, initMagnitude, real, inputShape]

theorem mem_einsumKeys (t : Bool) (k : Attr) : k ∈ einsumKeys t ↔ k ∈ einsumPlain ∨ (t = false ∧ k = params) := by
  cases t <;> cases k <;> decide

theorem einsum_restored {m : MObj Attr} (hw : Writable einsumPlain m.attrs) (b : Attrs Attr) (ks : List Attr)
    (hks : ∀ k ∈ einsumKeys m.trainable, k ∈ ks) (k : Attr) (hk : k ≠ params) :
    einsumSetHyper false b ((hypers ks m.attrs).filter fun kv => serializable kv.2) k
      = if k ∈ einsumPlain then m.attrs k else b k := by
  unfold einsumSetHyper
  rw [filter_hypers_keys, foldl_keys]
  simp only [List.mem_filter, mem_einsumKeys, hk, and_false, or_false]
  by_cases h : k ∈ einsumPlain
  · have : k ∈ ks := hks k ((mem_einsumKeys _ _).2 (.inl h))
    simp [h, this, hw k h]
  · simp [h]

theorem einsum_restored_params {m : MObj Attr} (hp : m.attrs params = Tree.none) {b : Attrs Attr} (hb : b params = Tree.none)
    (ks : List Attr) : einsumSetHyper false b ((hypers ks m.attrs).filter fun kv => serializable kv.2) params = Tree.none := by
  unfold einsumSetHyper
  rw [filter_hypers_keys, foldl_keys, hp, hb]
  simp

/-- The last two steps of `copy` for the classes whose parameters are one attribute set without checks. -/
theorem finish_params {a b : Attrs Attr} {p : Attr} {v : PyVal} (h : ∀ k, k ≠ p → b k = a k) (hv : v = a p)
    (hb : a p = Tree.none → b p = Tree.none) :
    setUnlessNone (fun a v => Except.ok (setAttr a p v)) b v = (Except.ok a : Except PyErr (Attrs Attr)) := by
  subst hv
  refine setUnlessNone_ok (fun h0 => ?_) (fun _ => ?_)
  · funext k
    by_cases hk : k = p
    · rw [hk, hb h0, h0]
    · exact h k hk
  · rw [setAttr_eq h]

end Verif.Ser
