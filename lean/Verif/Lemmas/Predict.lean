import Verif.Spec.Predict

/-! # Lemmas about calling models -/

namespace Verif
namespace Predict
open Batch PredictSpec

variable {P W S K α γ D Sig T : Type} [DecidableEq Sig]

/-- Running `g`, which is `f` with extra data that keeps the property `R`. -/
theorem runBatches_sim {R : T → Prop} {f : Leaves α → S → Leaves γ × S} {g : Leaves α → S × T → Leaves γ × (S × T)}
    (h : ∀ X s t, R t → ∃ t', R t' ∧ g X (s, t) = ((f X s).1, ((f X s).2, t'))) (bs : List (Leaves α)) (s : S) (t : T) (ht : R t) :
    ∃ t', R t' ∧ runBatches g bs (s, t) = ((runBatches f bs s).1, ((runBatches f bs s).2, t')) := by
  induction bs generalizing s t with
  | nil => exact ⟨t, ht, rfl⟩
  | cons b bs ih =>
    obtain ⟨t1, h1, e1⟩ := h b s t ht
    obtain ⟨t2, h2, e2⟩ := ih (f b s).2 t1 h1
    exact ⟨t2, h2, by simp only [runBatches, e1, e2]⟩

theorem autobatch_sim {R : T → Prop} (isScalar : α → Bool) {f : Leaves α → S → Leaves γ × S} {g : Leaves α → S × T → Leaves γ × (S × T)}
    (h : ∀ X s t, R t → ∃ t', R t' ∧ g X (s, t) = ((f X s).1, ((f X s).2, t'))) (o : Option Nat) (av : Bool) (X : Leaves α) (s : S) (t : T)
    (ht : R t) :
    (∃ e, autobatch isScalar f o av X s = .error e ∧ autobatch isScalar g o av X (s, t) = .error e) ∨
      ∃ y s' t', R t' ∧ autobatch isScalar f o av X s = .ok (y, s') ∧ autobatch isScalar g o av X (s, t) = .ok (y, s', t') := by
  have one : ∀ Z s t, R t → ∃ y s' t', R t' ∧ f Z s = (y, s') ∧ g Z (s, t) = (y, (s', t')) := fun Z s t ht => by
    obtain ⟨t', h1, e⟩ := h Z s t ht
    exact ⟨_, _, t', h1, rfl, e⟩
  have many : ∀ bs s t, R t → ∃ y s' t', R t' ∧ runBatches f bs s = (y, s') ∧ runBatches g bs (s, t) = (y, (s', t')) := fun bs s t ht => by
    obtain ⟨t', h1, e⟩ := runBatches_sim h bs s t ht
    exact ⟨_, _, t', h1, rfl, e⟩
  simp only [autobatch]
  cases hn : numSamples X with
  | error e => exact Or.inl ⟨e, rfl, rfl⟩
  | ok n =>
    cases o with
    | none =>
      obtain ⟨y, s', t', h1, e1, e2⟩ := one X s t ht
      exact Or.inr ⟨y, s', t', h1, congrArg Except.ok e1, congrArg Except.ok e2⟩
    | some m =>
      simp only [bind, Except.bind, pure, Except.pure]
      by_cases hle : n ≤ m
      · simp only [hle, if_true]
        obtain ⟨y, s', t', h1, e1, e2⟩ := one X s t ht
        exact Or.inr ⟨y, s', t', h1, congrArg Except.ok e1, congrArg Except.ok e2⟩
      · simp only [hle, if_false]
        by_cases h0 : m = 0
        · simp only [h0, if_true]
          exact Or.inl ⟨_, rfl, rfl⟩
        · simp only [h0, if_false]
          cases hp : pytreeSplit X m with
          | error e => exact Or.inl ⟨e, rfl, rfl⟩
          | ok pr =>
            obtain ⟨parts, rem⟩ := pr
            obtain ⟨ys, s1, t1, h1, e1, e2⟩ := many ((List.range (n / m)).map fun j => parts.map fun p => (p[j]?).getD []) s t ht
            simp only [e1, e2]
            cases hc : concatenate ys with
            | error e => exact Or.inl ⟨e, rfl, rfl⟩
            | ok out =>
              cases rem with
              | none => exact Or.inr ⟨out, s1, t1, h1, rfl, rfl⟩
              | some r =>
                cases av with
                | true =>
                  simp only [if_true]
                  by_cases hs : r.any (fun x => x.any isScalar) = true
                  · simp only [hs, if_true]
                    exact Or.inl ⟨_, rfl, rfl⟩
                  · simp only [hs, Bool.false_eq_true, if_false]
                    obtain ⟨zs, s2, t2, h2, e3, e4⟩ := many ((List.range (n % m)).map fun j => r.map fun x => (x[j]?).toList) s1 t1 h1
                    simp only [e3, e4]
                    cases hc2 : concatenate zs with
                    | error e => exact Or.inl ⟨e, rfl, rfl⟩
                    | ok out2 =>
                      simp only []
                      cases hc3 : concatenate [out, out2] with
                      | error e => exact Or.inl ⟨e, rfl, rfl⟩
                      | ok o3 => exact Or.inr ⟨o3, s2, t2, h2, rfl, rfl⟩
                | false =>
                  simp only [Bool.false_eq_true, if_false]
                  obtain ⟨y, s2, t2, h2, e3, e4⟩ := one r s1 t1 h1
                  simp only [e3, e4]
                  cases hc3 : concatenate [out, y] with
                  | error e => exact Or.inl ⟨e, rfl, rfl⟩
                  | ok o3 => exact Or.inr ⟨o3, s2, t2, h2, rfl, rfl⟩

omit [DecidableEq Sig] in
theorem _root_.Verif.PredictSpec.Same.refl (sem : Sem P W S K α γ D Sig) (p : P) : Same sem p p := ⟨fun _ => rfl, fun _ => rfl, fun _ _ _ => rfl, fun _ _ _ => rfl⟩

omit [DecidableEq Sig] in
theorem _root_.Verif.PredictSpec.Same.symm {sem : Sem P W S K α γ D Sig} {p q : P} (h : Same sem p q) : Same sem q p :=
  ⟨fun r => (h.built r).symm, fun r => (h.traced r).symm, fun w b r => (h.gradBuilt w b r).symm, fun w b r => (h.gradTraced w b r).symm⟩

omit [DecidableEq Sig] in
theorem _root_.Verif.PredictSpec.Same.trans {sem : Sem P W S K α γ D Sig} {p q r : P} (h : Same sem p q) (h' : Same sem q r) : Same sem p r :=
  ⟨fun x => (h.built x).trans (h'.built x), fun x => (h.traced x).trans (h'.traced x), fun w b x => (h.gradBuilt w b x).trans (h'.gradBuilt w b x),
    fun w b x => (h.gradTraced w b x).trans (h'.gradTraced w b x)⟩

/-- Everything in the jitted function behaves like the present program. -/
def GoodJit (sem : Sem P W S K α γ D Sig) (p : P) (j : Jit P Sig) : Prop := Same sem j.built p ∧ ∀ x ∈ j.traces, Same sem x.2 p

omit [DecidableEq Sig] in
theorem GoodJit.new (sem : Sem P W S K α γ D Sig) {p q : P} (h : Same sem q p) : GoodJit sem p ⟨q, []⟩ := ⟨h, by simp⟩

omit [DecidableEq Sig] in
theorem GoodJit.same {sem : Sem P W S K α γ D Sig} {p q : P} {j : Jit P Sig} (h : GoodJit sem p j) (hs : Same sem q p) : GoodJit sem q j :=
  ⟨h.1.trans hs.symm, fun x hx => (h.2 x hx).trans hs.symm⟩

theorem lookup_mem' {A B : Type} [DecidableEq A] {l : List (A × B)} {a : A} {b : B} (h : l.lookup a = some b) : (a, b) ∈ l := by
  induction l with
  | nil => cases h
  | cons x l ih =>
    obtain ⟨k, v⟩ := x
    rw [List.lookup_cons] at h
    split at h
    · rename_i hk
      cases h
      rw [beq_iff_eq] at hk
      subst hk
      exact List.mem_cons_self
    · exact List.mem_cons_of_mem _ (ih h)

theorem enter_good {sem : Sem P W S K α γ D Sig} {p : P} {j : Jit P Sig} (h : GoodJit sem p j) (sig : Sig) :
    Same sem (j.enter sig p).1 p ∧ GoodJit sem p (j.enter sig p).2 := by
  rw [Jit.enter]
  cases hl : j.traces.lookup sig with
  | some q => exact ⟨h.2 _ (lookup_mem' hl), h⟩
  | none =>
    refine ⟨Same.refl _ _, h.1, fun x hx => ?_⟩
    rcases List.mem_cons.1 hx with rfl | hx
    · exact Same.refl _ _
    · exact h.2 x hx

theorem jitted_run {sem : Sem P W S K α γ D Sig} {p : P} (w : W) (k : K) (X : Leaves α) (s : S) (j : Jit P Sig) (h : GoodJit sem p j) :
    ∃ j', GoodJit sem p j' ∧ jitted sem sem.run p w k X (s, j) = ((sem.run p p w k X s).1, ((sem.run p p w k X s).2, j')) := by
  obtain ⟨h1, h2⟩ := enter_good h (sem.sig w X s)
  refine ⟨_, h2, ?_⟩
  simp only [jitted]
  rw [h.1.built, h1.traced]

theorem jitted_grad {sem : Sem P W S K α γ D Sig} {p : P} (wrt : Wrt) (b : Bool) (w : W) (k : K) (X : Leaves α) (s : S) (j : Jit P Sig) (h : GoodJit sem p j) :
    ∃ j', GoodJit sem p j' ∧
      jitted sem (sem.grad wrt b) p w k X (s, j) = ((sem.grad wrt b p p w k X s).1, ((sem.grad wrt b p p w k X s).2, j')) := by
  obtain ⟨h1, h2⟩ := enter_good h (sem.sig w X s)
  refine ⟨_, h2, ?_⟩
  simp only [jitted]
  rw [h.1.gradBuilt, h1.gradTraced]

/-- The derivative functions behave like the present program. -/
def GoodGrad (sem : Sem P W S K α γ D Sig) (p : P) (c : GradCache P Sig) : Prop :=
  (∀ b q, c.raw = some (b, q) → Same sem q p) ∧ ∀ o d b j, c.auto = some (o, d, b, j) → GoodJit sem p j

omit [DecidableEq Sig] in
theorem GoodGrad.same {sem : Sem P W S K α γ D Sig} {p q : P} {c : GradCache P Sig} (h : GoodGrad sem p c) (hs : Same sem q p) : GoodGrad sem q c :=
  ⟨fun b r hr => (h.1 b r hr).trans hs.symm, fun o d b j hj => (h.2 o d b j hj).same hs⟩

/-- The machine with its caches represents the plain model. -/
structure Rep (sem : Sem P W S K α γ D Sig) (m : Mach P W S K Sig) (pl : Plain P W S K) : Prop where
  prog : m.prog = pl.prog
  params : m.params = pl.params
  state : m.state = pl.state
  rng : m.rng = pl.rng
  callable : ∀ j, m.callable = some j → GoodJit sem pl.prog j
  gradIn : GoodGrad sem pl.prog m.gradIn
  gradPar : GoodGrad sem pl.prog m.gradPar
  unused : pl.used = false → m.callable = none ∧ m.gradIn = ⟨none, none⟩ ∧ m.gradPar = ⟨none, none⟩

omit [DecidableEq Sig] in
theorem goodGrad_empty (sem : Sem P W S K α γ D Sig) (p : P) : GoodGrad sem p (⟨none, none⟩ : GradCache P Sig) :=
  ⟨fun _ _ h => (by cases h), fun _ _ _ _ h => (by cases h)⟩

omit [DecidableEq Sig] in
theorem rep_new (sem : Sem P W S K α γ D Sig) (p : P) (w : W) (s : S) (k : K) : Rep sem (newMach p w s k : Mach P W S K Sig) ⟨p, w, s, k, false⟩ :=
  ⟨rfl, rfl, rfl, rfl, fun _ h => (by cases h), goodGrad_empty _ _, goodGrad_empty _ _, fun _ => ⟨rfl, rfl, rfl⟩⟩

theorem chooseAuto_opts (au : Option (Opts × Display)) (o : Opts) (d : Display) : (chooseAuto au o d).1 = o := by
  cases au with
  | none => rfl
  | some x => obtain ⟨o', d'⟩ := x; simp only [chooseAuto]; split <;> simp_all

omit [DecidableEq Sig] in
theorem keyOf_eq (sem : Sem P W S K α γ D Sig) (p : P) (w : W) (s : S) (k : K) (u : Bool) (r : RngArg K) :
    keyOf sem ⟨p, w, s, k, u⟩ r = theKey sem k r := by cases r <;> rfl

theorem call_rep {sem : Sem P W S K α γ D Sig} {m : Mach P W S K Sig} {pl : Plain P W S K} (h : Rep sem m pl) (a : Args K α D) :
    values (call sem m a).1 = direct sem sem.run pl a ∧ Rep sem (call sem m a).2 (after pl a (direct sem sem.run pl a)) := by
  obtain ⟨p, w, s, k, c, au, gi, gp⟩ := m
  obtain ⟨p', w', s', k', u⟩ := pl
  obtain ⟨rfl, rfl, rfl, rfl, hc, hgi, hgp, hu⟩ := h
  have hj : GoodJit sem p (c.getD ⟨p, []⟩) := by
    cases c with
    | none => exact GoodJit.new _ (Same.refl _ _)
    | some j => exact hc j rfl
  simp only [call, direct, keyOf_eq]
  cases hv : sem.verify p a.X with
  | error e =>
    exact ⟨rfl, rfl, rfl, rfl, rfl, hc, hgi, hgp, fun hu => (by cases hu)⟩
  | ok _ =>
    simp only [bind, Except.bind]
    cases hx : sem.cast a.dtype a.X with
    | error e =>
      exact ⟨rfl, rfl, rfl, rfl, rfl, fun j hj' => (by cases hj'; exact hj), hgi, hgp, fun hu => (by cases hu)⟩
    | ok X =>
      simp only [chooseAuto_opts]
      rcases autobatch_sim (R := GoodJit sem p) sem.isScalar (fun X s j hj => jitted_run w (theKey sem k a.rng) X s j hj)
        a.opts.maxBatch a.opts.avoid X s _ hj with ⟨e, e1, e2⟩ | ⟨y, s', j', hj', e1, e2⟩
      · rw [e1, e2]
        exact ⟨rfl, rfl, rfl, rfl, rfl, fun j hj' => (by cases hj'; exact hj), hgi, hgp, fun hu => (by cases hu)⟩
      · rw [e1, e2]
        refine ⟨rfl, ?_⟩
        simp only [after]
        cases a.updateState
        · exact ⟨rfl, rfl, rfl, rfl, fun j hj => (by cases hj; exact hj'), hgi, hgp, fun hu => (by cases hu)⟩
        · exact ⟨rfl, rfl, rfl, rfl, fun j hj => (by cases hj; exact hj'), hgi, hgp, fun hu => (by cases hu)⟩

theorem gradRaw_good {sem : Sem P W S K α γ D Sig} {p : P} {c : GradCache P Sig} (h : GoodGrad sem p c) (fwd : Option Bool) :
    Same sem (gradRaw sem p c fwd).2 p := by
  rw [gradRaw]
  cases hr : c.raw with
  | none => exact Same.refl _ _
  | some x =>
    obtain ⟨b, q⟩ := x
    have := h.1 b q hr
    cases fwd with
    | none => exact this
    | some f =>
      simp only []
      split
      · exact this
      · exact Same.refl _ _

theorem gradAuto_good {sem : Sem P W S K α γ D Sig} {p : P} {c : GradCache P Sig} (h : GoodGrad sem p c) {raw : Bool × P} (hr : Same sem raw.2 p)
    (a : Args K α D) : (gradAuto raw c a).1 = a.opts ∧ GoodJit sem p (gradAuto raw c a).2.2.2 := by
  rw [gradAuto]
  cases hc : c.auto with
  | none => exact ⟨rfl, GoodJit.new _ hr⟩
  | some x =>
    obtain ⟨o, d, b, j⟩ := x
    simp only []
    split
    · rename_i ho
      exact ⟨ho, h.2 o d b j hc⟩
    · exact ⟨rfl, GoodJit.new _ hr⟩

theorem gradEval_good {sem : Sem P W S K α γ D Sig} (hf : ∀ wrt p q, sem.grad wrt true p q = sem.grad wrt false p q) {p : P} (wrt : Wrt) (w : W) (k : K)
    {au : Opts × Display × Bool × Jit P Sig} (h : GoodJit sem p au.2.2.2) (X : Leaves α) (s : S) :
    (∃ e, autobatch sem.isScalar (sem.grad wrt true p p w k) au.1.maxBatch au.1.avoid X s = .error e ∧ gradEval sem wrt p w k au X s = .error e) ∨
      ∃ y s' j', GoodJit sem p j' ∧ autobatch sem.isScalar (sem.grad wrt true p p w k) au.1.maxBatch au.1.avoid X s = .ok (y, s') ∧
        gradEval sem wrt p w k au X s = .ok (y, s', j') := by
  obtain ⟨⟨mb, av⟩, d, b, j⟩ := au
  have hb : sem.grad wrt true p p = sem.grad wrt b p p := by cases b <;> first | rfl | exact hf wrt p p
  simp only [gradEval, hb]
  cases av with
  | true =>
    simp only [if_true]
    exact autobatch_sim (R := GoodJit sem p) sem.isScalar (fun X s j hj => jitted_grad wrt b w k X s j hj) mb true X s j h
  | false =>
    obtain ⟨h1, h2⟩ := enter_good h (sem.sig w X s)
    simp only [Bool.false_eq_true, if_false]
    rw [h.1.gradBuilt, h1.gradTraced]
    cases hr : autobatch sem.isScalar (sem.grad wrt b p p w k) mb false X s with
    | error e => exact Or.inl ⟨e, rfl, rfl⟩
    | ok r => exact Or.inr ⟨r.1, r.2, _, h2, rfl, rfl⟩

theorem rep_setCache {sem : Sem P W S K α γ D Sig} {m : Mach P W S K Sig} {pl : Plain P W S K} (h : Rep sem m pl) (wrt : Wrt) {c : GradCache P Sig}
    (hc : GoodGrad sem pl.prog c) {pl' : Plain P W S K} (h1 : pl'.prog = pl.prog) (h2 : pl'.params = pl.params) (h3 : pl'.state = pl.state)
    (h4 : pl'.rng = pl.rng) (hu : pl'.used = true) : Rep sem (setCache m wrt c) pl' := by
  cases wrt with
  | input =>
    exact ⟨h.prog.trans h1.symm, h.params.trans h2.symm, h.state.trans h3.symm, h.rng.trans h4.symm, fun j hj => by rw [h1]; exact h.callable j hj,
      by rw [h1]; exact hc, by rw [h1]; exact h.gradPar, fun hu' => by rw [hu] at hu'; cases hu'⟩
  | params =>
    exact ⟨h.prog.trans h1.symm, h.params.trans h2.symm, h.state.trans h3.symm, h.rng.trans h4.symm, fun j hj => by rw [h1]; exact h.callable j hj,
      by rw [h1]; exact h.gradIn, by rw [h1]; exact hc, fun hu' => by rw [hu] at hu'; cases hu'⟩

omit [DecidableEq Sig] in
theorem rep_state {sem : Sem P W S K α γ D Sig} {m : Mach P W S K Sig} {pl : Plain P W S K} (h : Rep sem m pl) (s : S) :
    Rep sem { m with state := s } { pl with state := s } :=
  ⟨h.prog, h.params, rfl, h.rng, h.callable, h.gradIn, h.gradPar, h.unused⟩

theorem grad_rep {sem : Sem P W S K α γ D Sig} (hf : ∀ wrt p q, sem.grad wrt true p q = sem.grad wrt false p q) {m : Mach P W S K Sig}
    {pl : Plain P W S K} (h : Rep sem m pl) (wrt : Wrt) (a : Args K α D) :
    values (gradCall sem wrt m a).1 = direct sem (sem.grad wrt true) pl a ∧
      Rep sem (gradCall sem wrt m a).2 (after pl a (direct sem (sem.grad wrt true) pl a)) := by
  have hc : GoodGrad sem m.prog (cache m wrt) := by rw [h.prog]; cases wrt <;> first | exact h.gradIn | exact h.gradPar
  have hraw := gradRaw_good hc a.fwd
  obtain ⟨ho, hau⟩ := gradAuto_good hc hraw a
  have hkey : keyOf sem pl a.rng = theKey sem m.rng a.rng := by rw [h.rng]; cases a.rng <;> rfl
  have gg : ∀ r au, Same sem r.2 m.prog → (∀ x, au = some x → GoodJit sem m.prog x.2.2.2) → GoodGrad sem pl.prog (⟨some r, au⟩ : GradCache P Sig) := by
    rw [h.prog]
    intro r au hr ha
    exact ⟨fun b q hq => by cases hq; exact hr, fun o d b j hj => ha _ hj⟩
  rw [gradCall, direct, ← h.prog]
  cases hv : sem.verify m.prog a.X with
  | error e =>
    exact ⟨rfl, h.prog, h.params, h.state, h.rng, h.callable, h.gradIn, h.gradPar, fun hu => (by cases hu)⟩
  | ok _ =>
    simp only [bind, Except.bind]
    cases hx : sem.cast a.dtype a.X with
    | error e =>
      exact ⟨rfl, rep_setCache h wrt (gg _ _ hraw fun x hx => hc.2 _ _ _ _ hx) rfl rfl rfl rfl rfl⟩
    | ok X =>
      rw [hkey, ← h.params, ← h.state]
      rcases gradEval_good hf wrt m.params (theKey sem m.rng a.rng) hau X m.state with ⟨e, e1, e2⟩ | ⟨y, s', j', hj', e1, e2⟩
      · rw [ho] at e1
        simp only [e1, e2]
        exact ⟨rfl, rep_setCache h wrt (gg _ _ hraw fun x hx => by cases hx; exact hau) rfl rfl rfl rfl rfl⟩
      · rw [ho] at e1
        simp only [e1, e2]
        refine ⟨rfl, ?_⟩
        have h1 : Rep sem (setCache m wrt ⟨some (gradRaw sem m.prog (cache m wrt) a.fwd), some ((gradAuto (gradRaw sem m.prog (cache m wrt) a.fwd) (cache m wrt) a).1, (gradAuto (gradRaw sem m.prog (cache m wrt) a.fwd) (cache m wrt) a).2.1, (gradAuto (gradRaw sem m.prog (cache m wrt) a.fwd) (cache m wrt) a).2.2.1, j')⟩) { pl with used := true } :=
          rep_setCache h wrt (gg _ _ hraw fun x hx => by cases hx; exact hj') rfl rfl rfl rfl rfl
        simp only [after]
        cases a.updateState
        · exact h1
        · exact rep_state h1 s'

theorem step_rep {sem : Sem P W S K α γ D Sig} (hf : ∀ wrt p q, sem.grad wrt true p q = sem.grad wrt false p q) {m : Mach P W S K Sig}
    {pl : Plain P W S K} (h : Rep sem m pl) (op : Op P W S K α D) (hq : Quiet sem pl op) : Rep sem (step sem m op) (plainStep sem pl op) := by
  cases op with
  | call a => exact (call_rep h a).2
  | grad wrt a => exact (grad_rep hf h wrt a).2
  | setParams w =>
    cases hu : pl.used with
    | true =>
      have hs := hq hu
      exact ⟨by simp only [step, plainStep]; rw [h.prog], rfl, h.state, h.rng, fun j hj => (h.callable j hj).same hs, h.gradIn.same hs, h.gradPar.same hs,
        fun hu' => by simp only [plainStep] at hu'; rw [hu] at hu'; cases hu'⟩
    | false =>
      obtain ⟨h1, h2, h3⟩ := h.unused hu
      exact ⟨by simp only [step, plainStep]; rw [h.prog], rfl, h.state, h.rng, fun j hj => (by simp only [step, h1] at hj; cases hj),
        (by simp only [step, h2]; exact goodGrad_empty _ _), (by simp only [step, h3]; exact goodGrad_empty _ _), fun _ => ⟨h1, h2, h3⟩⟩
  | setState s => exact rep_state h s
  | setRng k => exact ⟨h.prog, h.params, h.state, rfl, h.callable, h.gradIn, h.gradPar, h.unused⟩
  | edit p w s =>
    exact ⟨rfl, rfl, rfl, h.rng, fun _ hj => (by cases hj), goodGrad_empty _ _, goodGrad_empty _ _, fun _ => ⟨rfl, rfl, rfl⟩⟩
  | touch p w s =>
    cases hu : pl.used with
    | true =>
      have hs := hq hu
      exact ⟨rfl, rfl, rfl, h.rng, fun j hj => (h.callable j hj).same hs, h.gradIn.same hs, h.gradPar.same hs,
        fun hu' => by simp only [plainStep] at hu'; rw [hu] at hu'; cases hu'⟩
    | false =>
      obtain ⟨h1, h2, h3⟩ := h.unused hu
      exact ⟨rfl, rfl, rfl, h.rng, fun j hj => (by simp only [step, h1] at hj; cases hj),
        (by simp only [step, h2]; exact goodGrad_empty _ _), (by simp only [step, h3]; exact goodGrad_empty _ _), fun _ => ⟨h1, h2, h3⟩⟩

theorem history_rep {sem : Sem P W S K α γ D Sig} (hf : ∀ wrt p q, sem.grad wrt true p q = sem.grad wrt false p q) (ops : List (Op P W S K α D))
    {m : Mach P W S K Sig} {pl : Plain P W S K} (h : Rep sem m pl) (hq : AllQuiet sem pl ops) :
    Rep sem (ops.foldl (step sem) m) (ops.foldl (plainStep sem) pl) := by
  induction ops generalizing m pl with
  | nil => exact h
  | cons op ops ih => exact ih (step_rep hf h op hq.1) hq.2

end Predict
end Verif
