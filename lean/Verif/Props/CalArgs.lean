import Verif.Model.CalArgs
import Verif.Lemmas.TrainArgs
import Verif.Props.Elementwise
import Verif.Props.Compare

/-! # Which arguments `calibrate` takes -/

namespace Verif.Props

open Verif.Tree Verif.CalArgs Verif.ForwardSpec

/-- A tree of flags, if given, has the given containers. -/
def FlagsFit {A : Type} (places : Tree A) (f : Flags) : Prop := ∀ t, f = .inr t → SameContainers t places

/-- The data fits the model and the flags fit the data. -/
structure GoodCal (m : Mdl) (a : Args) : Prop where
  input : m.inShape.norm = map (List.drop 1) a.X.norm
  output : m.outShape.norm = map (List.drop 1) (a.Y.getD a.X).norm
  train : ∀ T, a.Xtrain = some T → m.inShape.norm = map (List.drop 1) T.norm
  samples : ∀ Y, a.Y = some Y → (∃ p s, At a.X p s) ∧ (∃ p s, At Y p s) ∧ ∃ n, (∀ p s, At a.X p s → s.head? = some n) ∧ ∀ p s, At Y p s → s.head? = some n
  yunc : ∀ Y u, a.Y = some Y → a.Yunc = some u → Y.norm = u.norm
  xunc : ∀ u, a.Xunc = some u → a.X.norm = u.norm
  cont : ∀ c, a.cont = some c → SameContainers c a.X
  strat : ∀ s, a.strat = some (.inr s) → SameContainers s a.X ∧ ∀ p, At s p true → ∃ c, a.cont = some c ∧ At c p false
  axes : a.skip = false → ∀ p s, At (a.Xtrain.getD a.X) p s → 2 ≤ s.length
  paramSens : FlagsFit m.params a.params
  inputSens : FlagsFit m.inShape a.input
  distSens : FlagsFit m.inShape a.dist

/-- The keys of all dictionaries are different. -/
structure CalKeys (m : Mdl) (a : Args) : Prop where
  inShape : KeysOk m.inShape
  outShape : KeysOk m.outShape
  X : KeysOk a.X
  Y : ∀ t, a.Y = some t → KeysOk t
  T : ∀ t, a.Xtrain = some t → KeysOk t
  cont : ∀ t, a.cont = some t → KeysOk t

/-- No empty tuple and no `None` in the shapes of the model and the data. -/
structure NoGaps (m : Mdl) (a : Args) : Prop where
  inShape : NoUnit m.inShape.norm
  inNone : ∀ p, ¬ Sub m.inShape.norm p .none
  outShape : NoUnit m.outShape.norm
  X : NoUnit (map (List.drop 1) a.X.norm)
  Y : ∀ t, a.Y = some t → NoUnit (map (List.drop 1) t.norm)
  T : ∀ t, a.Xtrain = some t → NoUnit (map (List.drop 1) t.norm)

theorem need_ok {b : Bool} : need b = .ok () ↔ b = true := by cases b <;> simp [need]

theorem needE_ok {b : Except PyErr Bool} : needE b = .ok () ↔ b = .ok true := by
  cases b with
  | error e => simp [needE]
  | ok b => simp [needE, need_ok]

theorem rest_keys {t : Tree (List Nat)} (h : KeysOk t) : KeysOk (rest t) ∧ (rest t).norm = rest t := by
  refine ⟨(keysOk_map _ _).2 (keysOk_norm' h), ?_⟩
  unfold rest
  rw [Tree.norm_map, norm_norm h]

theorem cmp_ok {s t : Tree (List Nat)} (hs : KeysOk s) (ht : KeysOk t) (ns : NoUnit s.norm) (nt : NoUnit (rest t)) :
    needE (Compare.shapesEqual s (rest t)) = .ok () ↔ s.norm = map (List.drop 1) t.norm := by
  rw [needE_ok, shapesEqual_eq hs (rest_keys ht).1, (rest_keys ht).2, Except.ok.injEq, decide_eq_true_iff]
  exact ⟨fun h => ints_inj _ _ ns nt h, fun h => by rw [h]; rfl⟩

theorem uniformFrom_iff {ref : List Nat} : ∀ {ss : List (List Nat)}, TrainArgs.uniformFrom ref ss = .ok true ↔ ∀ s ∈ ss, ∃ n, s.head? = some n ∧ ref.head? = some n
  | [] => by simp [TrainArgs.uniformFrom]
  | s :: ss => by
    simp only [TrainArgs.uniformFrom, List.forall_mem_cons, ← uniformFrom_iff (ss := ss)]
    cases s with
    | nil => simp [TrainArgs.dim0, Bind.bind, Except.bind]
    | cons x s =>
      cases ref with
      | nil => simp [TrainArgs.dim0, Bind.bind, Except.bind]
      | cons y r =>
        by_cases h : x = y
        · simp [TrainArgs.dim0, Bind.bind, Except.bind, h]
        · simp [TrainArgs.dim0, Bind.bind, Except.bind, h, pure, Except.pure, eq_comm (a := y)]

theorem uniformEqual0_iff {σ : Type} {a b : TrainArgs.Shaped σ} :
    TrainArgs.uniformEqual0 a b = .ok true ↔ a.shapes ≠ [] ∧ b.shapes ≠ [] ∧ ∃ n, (∀ s ∈ a.shapes, s.head? = some n) ∧ ∀ s ∈ b.shapes, s.head? = some n := by
  unfold TrainArgs.uniformEqual0 TrainArgs.hasUniform0
  rcases ha : a.shapes with _ | ⟨s, ss⟩
  · rcases hb : b.shapes with _ | ⟨t, ts⟩
    · simp [Bind.bind, Except.bind, throw, throwThe, MonadExceptOf.throw]
    · simp only [Bind.bind, Except.bind, Bool.not_true, Bool.false_eq_true, if_false, ne_eq, not_true_eq_false, false_and, iff_false]
      split
      · simp
      · split <;> simp [pure, Except.pure, throw, throwThe, MonadExceptOf.throw]
  · rcases hu : TrainArgs.uniformFrom s ss with e | x
    · have : ¬ TrainArgs.uniformFrom s ss = .ok true := by rw [hu]; simp
      rw [uniformFrom_iff] at this
      simp only [Bind.bind, Except.bind, hu, reduceCtorEq, false_iff]
      rintro ⟨-, -, n, h, -⟩
      exact this fun r hr => ⟨n, h r (List.mem_cons_of_mem _ hr), h s List.mem_cons_self⟩
    · cases x with
      | false =>
        have : ¬ TrainArgs.uniformFrom s ss = .ok true := by rw [hu]; simp
        rw [uniformFrom_iff] at this
        simp only [Bind.bind, Except.bind, hu, Bool.not_false, if_true, pure, Except.pure, Except.ok.injEq, Bool.false_eq_true, false_iff]
        rintro ⟨-, -, n, h, -⟩
        exact this fun r hr => ⟨n, h r (List.mem_cons_of_mem _ hr), h s List.mem_cons_self⟩
      | true =>
        have hu' := uniformFrom_iff.1 hu
        rcases hb : b.shapes with _ | ⟨t, ts⟩
        · simp [Bind.bind, Except.bind, hu, throw, throwThe, MonadExceptOf.throw]
        · rcases hv : TrainArgs.uniformFrom t ts with e | y
          · have : ¬ TrainArgs.uniformFrom t ts = .ok true := by rw [hv]; simp
            rw [uniformFrom_iff] at this
            simp only [Bind.bind, Except.bind, Bool.not_true, Bool.false_eq_true, if_false, hu, hv, reduceCtorEq, false_iff]
            rintro ⟨-, -, n, -, h⟩
            exact this fun r hr => ⟨n, h r (List.mem_cons_of_mem _ hr), h t List.mem_cons_self⟩
          · cases y with
            | false =>
              have : ¬ TrainArgs.uniformFrom t ts = .ok true := by rw [hv]; simp
              rw [uniformFrom_iff] at this
              simp only [Bind.bind, Except.bind, Bool.not_true, Bool.not_false, Bool.false_eq_true, if_false, if_true, hu, hv, pure, Except.pure, Except.ok.injEq, false_iff]
              rintro ⟨-, -, n, -, h⟩
              exact this fun r hr => ⟨n, h r (List.mem_cons_of_mem _ hr), h t List.mem_cons_self⟩
            | true =>
              have hv' := uniformFrom_iff.1 hv
              simp only [Bind.bind, Except.bind, Bool.not_true, Bool.false_eq_true, if_false, hu, hv]
              constructor
              · intro h
                cases s with
                | nil => simp [TrainArgs.dim0] at h
                | cons x s =>
                  cases t with
                  | nil => simp [TrainArgs.dim0] at h
                  | cons y t =>
                    simp only [TrainArgs.dim0, pure, Except.pure, Except.ok.injEq, decide_eq_true_eq] at h
                    subst h
                    refine ⟨by simp, by simp, x, ?_, ?_⟩
                    · rintro r hr
                      rcases List.mem_cons.1 hr with rfl | hr
                      · rfl
                      · obtain ⟨n, h1, h2⟩ := hu' r hr
                        rw [h1, ← h2]; rfl
                    · rintro r hr
                      rcases List.mem_cons.1 hr with rfl | hr
                      · rfl
                      · obtain ⟨n, h1, h2⟩ := hv' r hr
                        rw [h1, ← h2]; rfl
              · rintro ⟨-, -, n, h1, h2⟩
                have e1 := h1 s List.mem_cons_self
                have e2 := h2 t List.mem_cons_self
                cases s with
                | nil => simp at e1
                | cons x s =>
                  cases t with
                  | nil => simp at e2
                  | cons y t =>
                    simp only [List.head?_cons, Option.some.injEq] at e1 e2
                    simp [TrainArgs.dim0, pure, Except.pure, e1, e2]

theorem containers_at {A B : Type} {t : Tree A} {u : Tree B} (h : SameContainers t u) {p : List ForwardSpec.Step} {x : A} (hx : At t p x) : ∃ y, At u p y := by
  have h1 : At (map (fun _ => ()) t.norm) p () := at_map.2 ⟨x, at_norm.2 hx, rfl⟩
  rw [h] at h1
  obtain ⟨y, hy, -⟩ := at_map.1 h1
  exact ⟨y, at_norm.1 hy⟩

theorem containers_length {A B : Type} {t : Tree A} {u : Tree B} (h : map (fun _ => ()) t = map (fun _ => ()) u) : (flat t).length = (flat u).length := by
  have := congrArg (fun z => (flat z).length) h
  simpa [Props.flat_map] using this

theorem shaped_eq {t u : Tree (List Nat)} : TrainArgs.shapesEqual 0 (shaped t) (shaped u) = true ↔ t.norm = u.norm := by
  rw [TrainArgs.shapesEqual0_iff fun h => containers_length h]
  exact ⟨fun h => tree_ext h.1 h.2, fun h => by simp [TrainArgs.SameShape, shaped, jaxLeaves, h]⟩

theorem leaves_at {t : Tree (List Nat)} {P : List Nat → Prop} : (∀ s ∈ (shaped t).shapes, P s) ↔ ∀ p s, At t p s → P s := by
  show (∀ s ∈ flat t.norm, P s) ↔ _
  constructor
  · exact fun h p s hs => h s (mem_flat_at.2 ⟨p, at_norm.2 hs⟩)
  · intro h s hs
    obtain ⟨p, hp⟩ := mem_flat_at.1 hs
    exact h p s (at_norm.1 hp)

theorem leaves_ne {t : Tree (List Nat)} : (shaped t).shapes ≠ [] ↔ ∃ p s, At t p s := by
  rw [List.ne_nil_iff_exists_cons]
  constructor
  · rintro ⟨s, l, h⟩
    have : s ∈ flat t.norm := by
      have h' : flat t.norm = s :: l := h
      rw [h']; exact List.mem_cons_self
    obtain ⟨p, hp⟩ := mem_flat_at.1 this
    exact ⟨p, s, at_norm.1 hp⟩
  · rintro ⟨p, s, h⟩
    have : s ∈ flat t.norm := mem_flat_at.2 ⟨p, at_norm.2 h⟩
    exact List.ne_nil_iff_exists_cons.1 (List.ne_nil_of_mem this)

theorem bind_ok_unit {B : Type} {x : Except PyErr Unit} {f : Unit → Except PyErr B} {r : B} : (x >>= f) = .ok r ↔ x = .ok () ∧ f () = .ok r := by
  cases x <;> simp [Bind.bind, Except.bind]

theorem bind_ok_iff {A B : Type} {x : Except PyErr A} {f : A → Except PyErr B} {r : B} : (x >>= f) = .ok r ↔ ∃ a, x = .ok a ∧ f a = .ok r := by
  cases x <;> simp [Bind.bind, Except.bind]

theorem checkData_ok {m : Mdl} {a : Args} (hk : CalKeys m a) (hg : NoGaps m a) : checkData m a = .ok () ↔
    m.inShape.norm = map (List.drop 1) a.X.norm ∧ m.outShape.norm = map (List.drop 1) (a.Y.getD a.X).norm ∧ (∀ T, a.Xtrain = some T → m.inShape.norm = map (List.drop 1) T.norm) ∧
    (∀ Y, a.Y = some Y → (∃ p s, At a.X p s) ∧ (∃ p s, At Y p s) ∧ ∃ n, (∀ p s, At a.X p s → s.head? = some n) ∧ ∀ p s, At Y p s → s.head? = some n) ∧
    (∀ Y u, a.Y = some Y → a.Yunc = some u → Y.norm = u.norm) ∧ (∀ u, a.Xunc = some u → a.X.norm = u.norm) := by
  unfold checkData
  simp only [bind_ok_unit]
  have e1 : ifGiven a.Y (fun Y => needE (TrainArgs.uniformEqual0 (shaped a.X) (shaped Y))) = .ok () ↔
      (∀ Y, a.Y = some Y → (∃ p s, At a.X p s) ∧ (∃ p s, At Y p s) ∧ ∃ n, (∀ p s, At a.X p s → s.head? = some n) ∧ ∀ p s, At Y p s → s.head? = some n) := by
    rcases a.Y with _ | Y
    · simp [ifGiven]
    · simp only [ifGiven, Option.some.injEq, forall_eq']
      rw [needE_ok, uniformEqual0_iff, leaves_ne, leaves_ne]
      simp only [leaves_at]
  have e2 : ifGiven a.Yunc (fun u => ifGiven a.Y fun Y => need (TrainArgs.shapesEqual 0 (shaped Y) (shaped u))) = .ok () ↔ (∀ Y u, a.Y = some Y → a.Yunc = some u → Y.norm = u.norm) := by
    rcases a.Y with _ | Y <;> rcases a.Yunc with _ | u <;> simp [ifGiven, need_ok, shaped_eq]
  have e3 : ifGiven a.Xunc (fun u => need (TrainArgs.shapesEqual 0 (shaped a.X) (shaped u))) = .ok () ↔ (∀ u, a.Xunc = some u → a.X.norm = u.norm) := by
    rcases a.Xunc with _ | u <;> simp [ifGiven, need_ok, shaped_eq]
  have e4 := cmp_ok hk.inShape hk.X hg.inShape hg.X
  have e5 : ifGiven a.Xtrain (fun T => needE (Compare.shapesEqual m.inShape (rest T))) = .ok () ↔ (∀ T, a.Xtrain = some T → m.inShape.norm = map (List.drop 1) T.norm) := by
    rcases hT : a.Xtrain with _ | T
    · simp [ifGiven]
    · simp only [ifGiven, Option.some.injEq, forall_eq']
      exact cmp_ok hk.inShape (hk.T T hT) hg.inShape (hg.T T hT)
  have e6 : checkOutput m a = .ok () ↔ m.outShape.norm = map (List.drop 1) (a.Y.getD a.X).norm := by
    unfold checkOutput
    rcases hY : a.Y with _ | Y
    · exact cmp_ok hk.outShape hk.X hg.outShape hg.X
    · exact cmp_ok hk.outShape (hk.Y Y hY) hg.outShape (hg.Y Y hY)
  rw [e1, e2, e3, e4, e5, e6]
  tauto

/-- The flags of continuous features that calibration uses. -/
def contVal (a : Args) : Tree Bool := a.cont.getD (map (fun _ => true) a.X.norm)

theorem contOf_ok {a : Args} {c : Tree Bool} : contOf a = .ok c ↔ (∀ c, a.cont = some c → SameContainers c a.X) ∧ c = contVal a := by
  unfold contOf contVal
  rcases a.cont with _ | d
  · simpa using eq_comm
  · simp only [Option.some.injEq, forall_eq', Option.getD_some]
    by_cases h : SameContainers d a.X
    · rw [if_pos ((sameStruct_iff _ _).2 h)]
      simp [h, eq_comm]
    · rw [if_neg (fun h' => h ((sameStruct_iff _ _).1 h'))]
      simp [h]

theorem contVal_fit {a : Args} (hX : KeysOk a.X) (h : ∀ c, a.cont = some c → SameContainers c a.X) : SameContainers (contVal a) a.X := by
  unfold contVal
  rcases hc : a.cont with _ | d
  · simp only [Option.getD_none, SameContainers, Tree.norm_map, norm_norm hX, Tree.map_map]
  · exact h d hc

theorem strat_ok {a : Args} (hk : KeysOk a.X) (hkc : ∀ t, a.cont = some t → KeysOk t) (hc : ∀ c, a.cont = some c → SameContainers c a.X) {f : Flags} :
    stratOf a (contVal a) = .ok f ↔
      (∀ s, a.strat = some (.inr s) → SameContainers s a.X ∧ ∀ p, At s p true → ∃ c, a.cont = some c ∧ At c p false) ∧ f = a.strat.getD (.inl false) := by
  unfold stratOf
  rcases a.strat with _ | (b | s)
  · simpa using eq_comm
  · simpa using eq_comm
  · simp only [Option.some.injEq, Sum.inr.injEq, forall_eq', Option.getD_some]
    by_cases h : SameContainers s a.X
    swap
    · rw [if_pos (by simpa [← Bool.not_eq_true, sameStruct_iff] using (show ¬ map (fun _ => ()) s.norm = map (fun _ => ()) a.X.norm from h))]
      simp [h]
    rw [if_neg (by simp [(sameStruct_iff _ _).2 h])]
    have hfit := contVal_fit hk hc
    have hkv : KeysOk (contVal a) := by
      unfold contVal
      rcases hca : a.cont with _ | d
      · exact (keysOk_map _ _).2 (keysOk_norm' hk)
      · exact hkc d hca
    have key : (∀ p, At s p true → ∃ c, a.cont = some c ∧ At c p false) ↔ ∀ p, ¬ (At s p true ∧ At (contVal a) p true) := by
      constructor
      · rintro h0 p ⟨h1, h2⟩
        obtain ⟨c, hca, hcp⟩ := h0 p h1
        have : contVal a = c := by unfold contVal; rw [hca]; rfl
        rw [this] at h2 hkv
        exact absurd (at_unique hkv h2 hcp) (by simp)
      · intro h0 p h1
        obtain ⟨x, hx⟩ := containers_at h h1
        obtain ⟨y, hy⟩ := containers_at hfit.symm hx
        have hy' : y = false := by
          cases y with
          | false => rfl
          | true => exact absurd ⟨h1, hy⟩ (h0 p)
        subst hy'
        rcases hca : a.cont with _ | d
        · unfold contVal at hy
          rw [hca] at hy
          obtain ⟨_, _, h2⟩ := at_map.1 hy
          simp at h2
        · refine ⟨d, rfl, ?_⟩
          unfold contVal at hy
          rw [hca] at hy
          exact hy
    by_cases hn : ∀ p, ¬ (At s p true ∧ At (contVal a) p true)
    · obtain ⟨r, hr⟩ := jaxMap_total (f := stratLeaf) (t := s) (us := [contVal a]) (fun u hu => by
          rw [List.mem_singleton] at hu
          subst hu
          exact ⟨hkv, h.trans hfit.symm⟩)
        (fun p x bs hx hb => by
          rcases hb with _ | ⟨hb, _ | _⟩
          rename_i b
          refine ⟨.leaf (), ?_⟩
          simp only [List.map_cons, List.map_nil, stratLeaf]
          rw [if_neg]
          intro hxb
          rw [Bool.and_eq_true] at hxb
          rw [hxb.1] at hx
          rw [hxb.2] at hb
          exact hn p ⟨hx, hb⟩)
      rw [hr]
      simp only [Except.ok.injEq, h, true_and]
      rw [key]
      exact ⟨fun e => ⟨hn, e.symm⟩, fun e => e.2.symm⟩
    · have hex : ∀ r, jaxMap stratLeaf s [contVal a] ≠ .ok r := by
        intro r hr
        push Not at hn
        obtain ⟨p, h1, h2⟩ := hn
        obtain ⟨vs, w, hl, hsub, hf, -⟩ := jaxMap_at hr h1
        match vs, hl with
        | [v], _ =>
          have h3 := hsub 0 _ _ rfl rfl
          have h4 := sub_leaf.2 h2
          have := sub_unique hkv h3 h4
          subst this
          simp [stratLeaf] at hf
      rcases hr : jaxMap stratLeaf s [contVal a] with e | r
      · simp only [reduceCtorEq, false_iff]
        rintro ⟨⟨-, h0⟩, -⟩
        exact hn (key.1 h0)
      · exact absurd hr (hex r)

theorem sanity_ok {a : Args} : sanity a = .ok () ↔ (a.skip = false → ∀ p s, At (a.Xtrain.getD a.X) p s → 2 ≤ s.length) := by
  unfold sanity
  cases a.skip with
  | true => simp
  | false =>
    simp only [Bool.false_eq_true, if_false, forall_const]
    rw [← leaves_at (P := fun s => 2 ≤ s.length)]
    show (if (flat (a.Xtrain.getD a.X).norm).all _ = true then _ else _) = _ ↔ ∀ s ∈ flat (a.Xtrain.getD a.X).norm, _
    by_cases h : (flat (a.Xtrain.getD a.X).norm).all (fun s => decide (2 ≤ s.length)) = true
    · rw [if_pos h]
      simpa [List.all_eq_true] using h
    · rw [if_neg h]
      simpa [List.all_eq_true] using h

mutual
theorem mark_eq : ∀ (s : Tree (List Nat)), NoUnit s → (∀ p, ¬ Sub s p .none) → mark s = map (fun _ => ()) s
  | .leaf _, _, _ => rfl
  | .none, _, h => absurd (Sub.here _) (h [])
  | .tuple [], h, _ => absurd (Sub.here _) (h [])
  | .tuple (t :: ts), h1, h2 => by
    rw [mark, map, markL_eq (t :: ts) (fun i t hi p hp => h1 _ (.tuple hi hp)) (fun i t hi p hp => h2 _ (.tuple hi hp))]
  | .list ts, h1, h2 => by
    rw [mark, map, markL_eq ts (fun i t hi p hp => h1 _ (.list hi hp)) (fun i t hi p hp => h2 _ (.list hi hp))]
  | .dict ts, h1, h2 => by
    rw [mark, map, markD_eq ts (fun i t hi p hp => h1 _ (.dict hi hp)) (fun i t hi p hp => h2 _ (.dict hi hp))]
theorem markL_eq : ∀ (ts : List (Tree (List Nat))), (∀ (i : Nat) t, ts[i]? = some t → NoUnit t) → (∀ (i : Nat) t, ts[i]? = some t → ∀ p, ¬ Sub t p .none) →
    markL ts = mapL (fun _ => ()) ts
  | [], _, _ => rfl
  | t :: ts, h1, h2 => by
    rw [markL, mapL, mark_eq t (h1 0 t rfl) (h2 0 t rfl), markL_eq ts (fun i t hi => h1 (i + 1) t hi) (fun i t hi => h2 (i + 1) t hi)]
theorem markD_eq : ∀ (ts : List (Str × Tree (List Nat))), (∀ k t, (k, t) ∈ ts → NoUnit t) → (∀ k t, (k, t) ∈ ts → ∀ p, ¬ Sub t p .none) →
    markD ts = mapD (fun _ => ()) ts
  | [], _, _ => rfl
  | (k, t) :: ts, h1, h2 => by
    rw [markD, mapD, mark_eq t (h1 k t List.mem_cons_self) (h2 k t List.mem_cons_self),
      markD_eq ts (fun i t hi => h1 i t (List.mem_cons_of_mem _ hi)) (fun i t hi => h2 i t (List.mem_cons_of_mem _ hi))]
end

/-- The selection that a flag or a tree of flags stands for. -/
def flagVal {A : Type} (places : Tree A) : Flags → Tree Bool
  | .inl b => map (fun _ => b) places.norm
  | .inr t => t

theorem flagsOf_ok {A : Type} {places : Tree A} {f : Flags} {t : Tree Bool} : flagsOf (map (fun _ => ()) places.norm) f = .ok t ↔ FlagsFit places f ∧ t = flagVal places f := by
  cases f with
  | inl b => simpa [flagsOf, FlagsFit, flagVal, Tree.map_map] using eq_comm
  | inr u =>
    simp only [flagsOf, FlagsFit, flagVal, Sum.inr.injEq, forall_eq']
    have e : sameStruct u.norm (map (fun _ => ()) places.norm) = true ↔ SameContainers u places := by
      rw [sameStruct_iff, Tree.map_map]; rfl
    by_cases h : SameContainers u places
    · rw [if_pos (e.2 h)]
      simp [h, eq_comm]
    · rw [if_neg (fun h' => h (e.1 h'))]
      simp [h]

/-- What calibration goes on with: the given flags, where a single flag stands for all arrays. -/
def calPlan (m : Mdl) (a : Args) : Plan :=
  ⟨contVal a, a.strat.getD (.inl false), flagVal m.params a.params, flagVal m.inShape a.input, flagVal m.inShape a.dist⟩

/-- `calibrate` goes on exactly if the data fits the model and the flags fit the data, and it goes on with the given flags. -/
theorem C91_accepts {m : Mdl} {a : Args} (hk : CalKeys m a) (hg : NoGaps m a) (r : Plan) : plan m a = .ok r ↔ GoodCal m a ∧ r = calPlan m a := by
  have hp : norm m.params = map (fun _ => ()) m.params.norm := (Tree.map_id _).symm
  unfold plan
  rw [mark_eq _ hg.inShape hg.inNone, hp, bind_ok_unit, checkData_ok hk hg]
  simp only [bind_ok_iff, contOf_ok, flagsOf_ok, pure, Except.pure, Except.ok.injEq]
  constructor
  · rintro ⟨⟨h1, h2, h3, h4, h5, h6⟩, c, ⟨hc, rfl⟩, s, hs, _, hsan, x, ⟨hx, rfl⟩, y, ⟨hy, rfl⟩, z, ⟨hz, rfl⟩, rfl⟩
    obtain ⟨hs1, rfl⟩ := (strat_ok hk.X hk.cont hc).1 hs
    exact ⟨⟨h1, h2, h3, h4, h5, h6, hc, hs1, sanity_ok.1 hsan, hx, hy, hz⟩, rfl⟩
  · rintro ⟨h, rfl⟩
    exact ⟨⟨h.input, h.output, h.train, h.samples, h.yunc, h.xunc⟩, _, ⟨h.cont, rfl⟩, _, (strat_ok hk.X hk.cont h.cont).2 ⟨h.strat, rfl⟩, (), sanity_ok.2 h.axes, _, ⟨h.paramSens, rfl⟩, _,
      ⟨h.inputSens, rfl⟩, _, ⟨h.distSens, rfl⟩, rfl⟩

/-- A model with one input of two features and one number as output. -/
def calModel : Mdl := ⟨.leaf [2], .leaf [1], .list [.leaf (), .tuple []]⟩

/-- Five samples, three training samples, no categories. -/
def calArgs : Args := ⟨.leaf [5, 2], some (.leaf [5, 1]), Option.none, Option.none, some (.leaf [3, 2]), .inl true, .inl true, .inr (.leaf false), Option.none, Option.none, false⟩

/-- A concrete case. -/
example : GoodCal calModel calArgs ∧ plan calModel calArgs = .ok (calPlan calModel calArgs) := by
  have hk : CalKeys calModel calArgs := ⟨trivial, trivial, trivial, fun _ h => by cases h; trivial, fun _ h => by cases h; trivial, fun _ h => nomatch h⟩
  have hg : NoGaps calModel calArgs :=
    ⟨fun p h => (by cases h), fun p h => (by cases h), fun p h => (by cases h), fun p h => (by cases h), fun t ht p h => (by cases ht; cases h), fun t ht p h => (by cases ht; cases h)⟩
  have h : plan calModel calArgs = .ok (calPlan calModel calArgs) := rfl
  exact ⟨((C91_accepts hk hg _).1 h).1, h⟩

/-- Without targets the numbers of samples are not compared: features with different numbers of samples are taken. -/
theorem C91_ragged_refuted : ∃ (m : Mdl) (a : Args) (r : Plan), plan m a = .ok r ∧ a.Y = Option.none ∧ a.X = .list [.leaf [5, 2], .leaf [4, 2]] :=
  ⟨⟨.list [.leaf [2], .leaf [2]], .list [.leaf [2], .leaf [2]], .tuple []⟩,
    ⟨.list [.leaf [5, 2], .leaf [4, 2]], Option.none, Option.none, Option.none, Option.none, .inl true, .inl true, .inl true, Option.none, Option.none, false⟩, _, rfl, rfl, rfl⟩

/-- The numbers of samples of the training data are never compared. -/
theorem C91_training_ragged_refuted : ∃ (m : Mdl) (a : Args) (r : Plan), plan m a = .ok r ∧ a.Y.isSome = true ∧ a.Xtrain = some (.list [.leaf [5, 2], .leaf [4, 2]]) :=
  ⟨⟨.list [.leaf [2], .leaf [2]], .leaf [1], .tuple []⟩,
    ⟨.list [.leaf [5, 2], .leaf [5, 2]], some (.leaf [5, 1]), Option.none, Option.none, some (.list [.leaf [5, 2], .leaf [4, 2]]), .inl true, .inl true, .inl true, Option.none, Option.none, false⟩,
    _, rfl, rfl, rfl⟩

/-- Without targets, uncertainties of targets are ignored, whatever they are. -/
theorem C91_uncertainty_refuted (m : Mdl) (a : Args) (u : Tree (List Nat)) (hY : a.Y = Option.none) : plan m { a with Yunc := some u } = plan m { a with Yunc := Option.none } := by
  unfold plan checkData
  simp only [hY, ifGiven, contOf, stratOf, sanity, checkOutput]

/-- `None` counts as a shape: with `None` among the inputs, a single flag becomes a tree that does not fit the data, so that the next step (577-591) raises. -/
theorem C91_none_refuted : ∃ (m : Mdl) (a : Args) (r : Plan), plan m a = .ok r ∧ a.input = .inl true ∧
    ∀ f : List Nat → List (Tree Bool) → Except PyErr (Tree Nat), ∃ e, jaxMap f a.X [r.input] = .error e :=
  ⟨⟨.list [.leaf [2], .none], .leaf [1], .tuple []⟩,
    ⟨.list [.leaf [5, 2], .none], some (.leaf [5, 1]), Option.none, Option.none, Option.none, .inl true, .inl true, .inl true, Option.none, Option.none, false⟩, _, rfl, rfl, fun f => ⟨_, rfl⟩⟩

end Verif.Props
