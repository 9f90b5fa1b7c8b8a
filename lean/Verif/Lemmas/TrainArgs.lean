import Verif.Spec.TrainArgs

namespace Verif.TrainArgs

variable {σ : Type} [DecidableEq σ]

theorem uniformFrom_ok {ref : List Nat} {ss : List (List Nat)} {n : Nat} (hr : ref.head? = some n)
    (h : ∀ s ∈ ss, s ≠ []) : ∃ b, uniformFrom ref ss = .ok b ∧ (b = true ↔ ∀ s ∈ ss, s.head? = some n) := by
  induction ss with
  | nil => exact ⟨true, rfl, by simp⟩
  | cons s ss ih =>
    obtain ⟨b, hb, hbi⟩ := ih fun s hs => h s (List.mem_cons_of_mem _ hs)
    cases ref with
    | nil => simp at hr
    | cons m r =>
      cases s with
      | nil => exact absurd rfl (h [] (by simp))
      | cons k s =>
        simp only [List.head?_cons, Option.some.injEq] at hr
        subst hr
        by_cases hk : k = m
        · subst hk
          refine ⟨b, ?_, by simp [hbi]⟩
          simpa [uniformFrom, dim0, bind, Except.bind, pure, Except.pure] using hb
        · refine ⟨false, by simp [uniformFrom, dim0, bind, Except.bind, pure, Except.pure, hk], by simp [hk]⟩

omit [DecidableEq σ] in
theorem isData_head {d : Shaped σ} (h : IsData d) : ∃ s ss n, d.shapes = s :: ss ∧ s.head? = some n ∧ dim0 s = .ok n := by
  obtain ⟨h1, h2⟩ := h
  cases hs : d.shapes with
  | nil => exact absurd hs h1
  | cons s ss =>
    cases s with
    | nil => exact absurd rfl (h2 [] (by rw [hs]; simp))
    | cons n s => exact ⟨n :: s, ss, n, rfl, rfl, rfl⟩

omit [DecidableEq σ] in
theorem hasUniform0_ok {d : Shaped σ} (h : IsData d) :
    ∃ b, hasUniform0 d = .ok b ∧ (b = true ↔ ∃ n, ∀ s ∈ d.shapes, s.head? = some n) := by
  obtain ⟨s, ss, n, hs, hn, -⟩ := isData_head h
  obtain ⟨b, hb, hbi⟩ := uniformFrom_ok (ss := ss) hn fun t ht => h.2 t (by rw [hs]; exact List.mem_cons_of_mem _ ht)
  refine ⟨b, by unfold hasUniform0; rw [hs]; exact hb, ?_⟩
  rw [hbi, hs]
  constructor
  · intro hall
    refine ⟨n, fun t ht => ?_⟩
    rcases List.mem_cons.1 ht with rfl | ht
    · exact hn
    · exact hall t ht
  · rintro ⟨m, hm⟩ t ht
    have e := hm s (by simp)
    rw [hn] at e
    cases e
    exact hm t (List.mem_cons_of_mem _ ht)

omit [DecidableEq σ] in
theorem uniformEqual0_ok {a b : Shaped σ} (ha : IsData a) (hb : IsData b) :
    ∃ r, uniformEqual0 a b = .ok r ∧ (r = true ↔ SameSamples a b) := by
  obtain ⟨s, ss, n, hs, hn, hd⟩ := isData_head ha
  obtain ⟨t, ts, m, ht, hm, hd'⟩ := isData_head hb
  obtain ⟨x, hx, hxi⟩ := hasUniform0_ok ha
  obtain ⟨y, hy, hyi⟩ := hasUniform0_ok hb
  cases hx' : x
  · refine ⟨false, by simp [uniformEqual0, hx, hx', bind, Except.bind, pure, Except.pure], ?_⟩
    simp only [Bool.false_eq_true, false_iff]
    rintro ⟨k, hk, -⟩
    rw [hx'] at hxi
    exact absurd (hxi.2 ⟨k, hk⟩) (by simp)
  · cases hy' : y
    · refine ⟨false, by simp [uniformEqual0, hx, hx', hy, hy', bind, Except.bind, pure, Except.pure], ?_⟩
      simp only [Bool.false_eq_true, false_iff]
      rintro ⟨k, -, hk⟩
      rw [hy'] at hyi
      exact absurd (hyi.2 ⟨k, hk⟩) (by simp)
    · refine ⟨decide (n = m), ?_, ?_⟩
      · simp [uniformEqual0, hx, hx', hy, hy', bind, Except.bind, pure, Except.pure, hs, ht, hd, hd']
      · obtain ⟨k, hk⟩ := hxi.1 hx'
        obtain ⟨l, hl⟩ := hyi.1 hy'
        have e1 : k = n := by have := hk s (by rw [hs]; simp); rw [hn] at this; exact (Option.some.inj this).symm
        have e2 : l = m := by have := hl t (by rw [ht]; simp); rw [hm] at this; exact (Option.some.inj this).symm
        subst e1; subst e2
        rw [decide_eq_true_eq]
        constructor
        · rintro rfl; exact ⟨k, hk, hl⟩
        · rintro ⟨j, hj1, hj2⟩
          have := hj1 s (by rw [hs]; simp); rw [hn] at this
          have h2 := hj2 t (by rw [ht]; simp); rw [hm] at h2
          cases this; cases h2; rfl

theorem zip_all {A : Type} [DecidableEq A] (f : List Nat → A) :
    ∀ (l m : List (List Nat)), l.length = m.length →
      ((List.zipWith (fun s t => decide (f s = f t)) l m).all id = true ↔ l.map f = m.map f)
  | [], [], _ => by simp
  | [], _ :: _, h => by simp at h
  | _ :: _, [], h => by simp at h
  | a :: l, b :: m, h => by
    have := zip_all f l m (by simpa using h)
    simp only [List.zipWith_cons_cons, List.all_cons, id, Bool.and_eq_true, decide_eq_true_eq, List.map_cons,
      List.cons.injEq]
    rw [← this]

theorem shapesEqual_iff {skip : Nat} {a b : Shaped σ} (h : a.struct = b.struct → a.shapes.length = b.shapes.length) :
    shapesEqual skip a b = true ↔ a.struct = b.struct ∧ a.shapes.map (·.drop skip) = b.shapes.map (·.drop skip) := by
  unfold shapesEqual
  rw [Bool.and_eq_true, decide_eq_true_eq]
  constructor
  · rintro ⟨h1, h2⟩
    exact ⟨h1, (zip_all (fun s => s.drop skip) _ _ (h h1)).1 h2⟩
  · rintro ⟨h1, h2⟩
    exact ⟨h1, (zip_all (fun s => s.drop skip) _ _ (h h1)).2 h2⟩

theorem shapesEqual0_iff {a b : Shaped σ} (h : a.struct = b.struct → a.shapes.length = b.shapes.length) :
    shapesEqual 0 a b = true ↔ SameShape a b := by
  rw [shapesEqual_iff h]
  simp [SameShape]

theorem shapesEqual1_iff {a b : Shaped σ} (h : a.struct = b.struct → a.shapes.length = b.shapes.length) :
    shapesEqual 1 a b = true ↔ SameFeatures a b := by
  rw [shapesEqual_iff h]
  simp [SameFeatures]

theorem raiseIf_ok {b : Bool} {u : Unit} : raiseIf b = .ok u ↔ b = false := by
  cases b <;> simp [raiseIf]

theorem bind_raise {B : Type} {b : Bool} {f : Unit → Except PyErr B} {r : B} :
    (raiseIf b >>= f) = .ok r ↔ b = false ∧ f () = .ok r := by
  cases b <;> simp [raiseIf, bind, Except.bind]

theorem bind_unit {B : Type} {x : Except PyErr Unit} {f : Unit → Except PyErr B} {r : B} :
    (x >>= f) = .ok r ↔ x = .ok () ∧ f () = .ok r := by
  cases x <;> simp [bind, Except.bind]

omit [DecidableEq σ] in
theorem checkSamples_ok {x : Shaped σ} {y : Option (Shaped σ)} (hx : IsData x) (hy : ∀ d, y = some d → IsData d) :
    checkSamples x y = .ok () ↔ ∀ d, y = some d → SameSamples x d := by
  cases y with
  | none => simp [checkSamples]
  | some d =>
    obtain ⟨r, hr, hri⟩ := uniformEqual0_ok hx (hy d rfl)
    simp only [checkSamples, hr, bind, Except.bind, Option.some.injEq, forall_eq']
    rw [raiseIf_ok, ← hri]
    simp

theorem checkUnc_ok {y u : Option (Shaped σ)}
    (h : ∀ a b, y = some a → u = some b → a.struct = b.struct → a.shapes.length = b.shapes.length) :
    checkUnc y u = .ok () ↔ ∀ a b, y = some a → u = some b → SameShape a b := by
  cases y with
  | none => simp [checkUnc]
  | some a =>
    cases u with
    | none => simp [checkUnc]
    | some b =>
      simp only [checkUnc, Option.some.injEq]
      rw [raiseIf_ok, Bool.not_eq_false', shapesEqual0_iff (h a b rfl rfl)]
      constructor
      · rintro h a' b' rfl rfl; exact h
      · intro h; exact h a b rfl rfl

omit [DecidableEq σ] in
theorem numSamples_ok {d : Shaped σ} (h : IsData d) : ∃ n, numSamples d = .ok n ∧ ∃ s ss, d.shapes = (n :: s) :: ss := by
  obtain ⟨s, ss, n, hs, hn, hd⟩ := isData_head h
  refine ⟨n, by unfold numSamples; rw [hs]; exact hd, ?_⟩
  cases s with
  | nil => simp at hn
  | cons m s => cases hn; exact ⟨s, ss, hs⟩

theorem structDiffers_false {s : Option σ} {f : σ} : structDiffers s f = false ↔ ∀ t, s = some t → t = f := by
  cases s <;> simp [structDiffers]

/-- The accepted arguments and what is done with them. -/
theorem validate_iff {a : Args σ} (hw : WellFormed a) {n nv : Nat} (hn : numSamples a.X = .ok n)
    (hnv : numSamples (a.Xval.getD a.X) = .ok nv) (p : Plan σ) :
    validate a = .ok p ↔ Consistent a ∧ p =
      ⟨a.Xval.getD a.X, if a.Xval.isNone then a.Y else a.Yval,
        if a.Xval.isNone then a.Yunc else if a.Yunc.isNone && a.Yval.isSome then none else a.YvalUnc,
        if a.batchSize > n then n else a.batchSize,
        if 0 < a.valBatchSize ∧ (nv : Int) < a.valBatchSize then nv
          else if a.valBatchSize ≤ 0 then nv else a.valBatchSize.toNat⟩ := by
  have hXv : IsData (a.Xval.getD a.X) := by
    cases h : a.Xval with
    | none => exact hw.X
    | some x => exact hw.Xval x h
  have hYv : ∀ d, (if a.Xval.isNone then a.Y else a.Yval) = some d → IsData d := by
    intro d hd; split at hd
    · exact hw.Y d hd
    · exact hw.Yval d hd
  have hlv : ∀ x y, (if a.Xval.isNone then a.Y else a.Yval) = some x →
      (if a.Xval.isNone then a.Yunc else if a.Yunc.isNone && a.Yval.isSome then none else a.YvalUnc) = some y →
      x.struct = y.struct → x.shapes.length = y.shapes.length := by
    intro x y hx hy
    split at hx
    · rename_i hc
      rw [if_pos hc] at hy
      exact hw.leaves a.Y (by simp) a.Yunc (by simp) x y hx hy
    · rename_i hc
      rw [if_neg hc] at hy
      split at hy
      · cases hy
      · exact hw.leaves a.Yval (by simp) a.YvalUnc (by simp) x y hx hy
  have hl2 : ∀ x y, a.Y = some x → a.Yunc = some y → x.struct = y.struct → x.shapes.length = y.shapes.length :=
    hw.leaves a.Y (by simp) a.Yunc (by simp)
  unfold validate
  have ok_bind : ∀ {A B : Type} (x : A) (f : A → Except PyErr B), ((Except.ok x : Except PyErr A) >>= f) = f x := fun _ _ => rfl
  simp only [hn, hnv, ok_bind, bind_unit, checkSamples_ok hw.X hw.Y, checkUnc_ok hl2, checkSamples_ok hXv hYv,
    checkUnc_ok hlv, pure, Except.pure, Except.ok.injEq, raiseIf_ok, structDiffers_false, Bool.not_eq_false']
  constructor
  · rintro ⟨h1, h2, h3, h4, h5, h6, h7, h8, h9, h10, h11, h12, h13, h14, rfl⟩
    refine ⟨⟨?_, ?_, h13, ?_, ?_, ?_, ?_, h7, h8, ?_, ?_, ?_⟩, rfl⟩
    · intro hr
      rw [hr] at h1 h14
      cases hs : a.adam with
      | none => rw [hs] at h1; simp at h1
      | some s => rw [hs] at h14; rw [structDiffers_false.1 (by simpa using h14) s rfl]
    · intro hr
      rw [hr] at h2
      cases hs : a.params with
      | none => rw [hs] at h2; simp at h2
      | some s => rfl
    · intro h; cases hs : a.Y <;> simp_all
    · intro h; cases hs : a.Y <;> simp_all
    · intro h; cases hs : a.Yval <;> simp_all
    · intro h h'; cases hs : a.YvalUnc <;> simp_all
    · intro x hx
      rw [hx] at h11
      exact (shapesEqual1_iff (hw.leaves (some a.X) (by simp) a.Xval (by simp) a.X x rfl hx)).1 h11
    · intro x y hx hy
      simp only [hx, hy, Option.isNone_some, Bool.false_eq_true, if_false, targetsDiffer] at h12 h9
      cases hv : a.Yval with
      | none => rw [hv] at h12; simp [shapesEqualOpt] at h12
      | some yv =>
        refine ⟨yv, rfl, h9 yv hv, ?_⟩
        rw [hv] at h12
        exact (shapesEqual1_iff (hw.leaves a.Y (by simp) a.Yval (by simp) y yv hy hv)).1 (by simpa [shapesEqualOpt] using h12)
    · intro x u yv uv hx hu hyv huv
      simp only [hx, Option.isNone_some, Bool.false_eq_true, if_false, hu, Bool.false_and] at h10
      exact h10 yv uv hyv huv
  · rintro ⟨hc, rfl⟩
    obtain ⟨c1, c2, c3, c4, c5, c6, c7, c8, c9, c10, c11, c12⟩ := hc
    refine ⟨?_, ?_, ?_, ?_, ?_, ?_, c8, c9, ?_, ?_, ?_, ?_, c3, ?_, rfl⟩
    · cases hr : a.resume
      · rfl
      · rw [c1 hr]; rfl
    · cases hr : a.resume
      · have := c2 hr
        cases hp : a.params
        · rw [hp] at this; cases this
        · rfl
      · rfl
    · cases hy : a.Y <;> cases hv : a.Yval <;> simp_all
    · cases hy : a.Y <;> cases hv : a.Yunc <;> simp_all
    · cases hy : a.Yval <;> cases hv : a.YvalUnc <;> simp_all
    · cases hu : a.Yunc <;> cases hy : a.Yval <;> cases hv : a.YvalUnc <;> simp_all
    · intro d hd
      cases hx : a.Xval with
      | none => simp only [hx, Option.isNone_none, if_true] at hd; exact c8 d hd
      | some x =>
        simp only [hx, Option.isNone_some, Bool.false_eq_true, if_false] at hd
        cases hy : a.Y with
        | none => have := c4 (by rw [hd]; rfl); rw [hy] at this; cases this
        | some y =>
          obtain ⟨yv, e, h, -⟩ := c11 x y hx hy
          rw [hd] at e; cases e
          exact h
    · intro d e hd he
      cases hx : a.Xval with
      | none =>
        simp only [hx, Option.isNone_none, if_true] at hd he
        exact c9 d e hd he
      | some x =>
        simp only [hx, Option.isNone_some, Bool.false_eq_true, if_false] at hd he
        cases hu : a.Yunc with
        | none => simp [hu, hd] at he
        | some u => simp only [hu, Option.isNone_some, Bool.false_and, Bool.false_eq_true, if_false] at he
                    exact c12 x u d e hx hu hd he
    · cases hx : a.Xval with
      | none => exact (shapesEqual_iff fun _ => rfl).2 ⟨rfl, rfl⟩
      | some x => exact (shapesEqual1_iff (hw.leaves (some a.X) (by simp) a.Xval (by simp) a.X x rfl hx)).2 (c10 x hx)
    · cases hy : a.Y with
      | none => rfl
      | some y =>
        cases hx : a.Xval with
        | none =>
          simp only [Option.isNone_none, if_true, targetsDiffer, shapesEqualOpt, Bool.not_eq_false']
          exact (shapesEqual_iff fun _ => rfl).2 ⟨rfl, rfl⟩
        | some x =>
          obtain ⟨yv, e, -, h⟩ := c11 x y hx hy
          simp only [Option.isNone_some, Bool.false_eq_true, if_false, targetsDiffer, e, shapesEqualOpt, Bool.not_eq_false']
          exact (shapesEqual1_iff (hw.leaves a.Y (by simp) a.Yval (by simp) y yv hy e)).2 h
    · cases hr : a.resume
      · rfl
      · rw [c1 hr]; simp [structDiffers]

/-- Any failure is a `ValueError`. -/
def OnlyValue {A : Type} (x : Except PyErr A) : Prop := ∀ e, x = .error e → e = .valueError

theorem onlyValue_raise (b : Bool) : OnlyValue (raiseIf b) := by
  intro e h; cases b <;> simp [raiseIf] at h; exact h.symm

theorem onlyValue_bind {A B : Type} {x : Except PyErr A} {f : A → Except PyErr B} (hx : OnlyValue x)
    (hf : ∀ a, OnlyValue (f a)) : OnlyValue (x >>= f) := by
  intro e h
  cases x with
  | error e' => exact hx e (by simpa [bind, Except.bind] using h)
  | ok a => exact hf a e h

theorem onlyValue_ok {A : Type} {x : A} : OnlyValue (Except.ok x) := by intro e h; cases h

omit [DecidableEq σ] in
theorem onlyValue_samples {x : Shaped σ} {y : Option (Shaped σ)} (hx : IsData x) (hy : ∀ d, y = some d → IsData d) :
    OnlyValue (checkSamples x y) := by
  cases y with
  | none => exact onlyValue_ok
  | some d =>
    obtain ⟨r, hr, -⟩ := uniformEqual0_ok hx (hy d rfl)
    simp only [checkSamples, hr]
    exact onlyValue_raise _

theorem onlyValue_unc (y u : Option (Shaped σ)) : OnlyValue (checkUnc y u) := by
  cases y with
  | none => exact onlyValue_ok
  | some a =>
    cases u with
    | none => exact onlyValue_ok
    | some b => exact onlyValue_raise _

theorem validate_onlyValue {a : Args σ} (hw : WellFormed a) : OnlyValue (validate a) := by
  have hXv : IsData (a.Xval.getD a.X) := by
    cases h : a.Xval with
    | none => exact hw.X
    | some x => exact hw.Xval x h
  have hYv : ∀ d, (if a.Xval.isNone then a.Y else a.Yval) = some d → IsData d := by
    intro d hd; split at hd
    · exact hw.Y d hd
    · exact hw.Yval d hd
  obtain ⟨n, hn, -⟩ := numSamples_ok hw.X
  obtain ⟨nv, hnv, -⟩ := numSamples_ok hXv
  unfold validate
  simp only [hn, hnv]
  repeat' first
    | exact onlyValue_raise _
    | exact onlyValue_ok
    | exact onlyValue_unc _ _
    | exact onlyValue_samples hw.X hw.Y
    | exact onlyValue_samples hXv hYv
    | refine onlyValue_bind ?_ (fun _ => ?_)

end Verif.TrainArgs
