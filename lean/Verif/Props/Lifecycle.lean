import Verif.Spec.Lifecycle
import Verif.Props.AffineTensor

/-! # C101: a compiled module with matrices can be called -/

namespace Verif.Props
open Lifecycle AffineTensor

/-- The parameters have the shape that the hyperparameters ask for. -/
def GoodShapes : Obj → Prop
  | .herm size _ (some M) => ∃ p n, size = some n ∧ M = [p, n, n]
  | .lowRank size rank _ (some P) => ∃ p n r, size = some n ∧ rank = some r ∧ P = ([p, r], [p, n, r])
  | .tensor shape _ (some M) => ∃ p ts, shape = some ts ∧ M = p :: ts
  | .obs num out (some D) => ∃ q l n, num = some l ∧ out = some q ∧ D = [q, l, n, n]
  | _ => True

theorem new_good {o : Obj} (h : New o) : GoodShapes o := by
  cases h with
  | @herm size bias Ms _ h =>
    unfold newHerm at h
    split at h
    · cases h
    · split at h
      · cases h; trivial
      · split at h
        · cases h
        · next n _ =>
          split at h
          · cases h
          · next p =>
            split at h
            · cases h
            · next hsh =>
              split at h
              · cases h
              · cases h
                exact ⟨_, n, rfl, not_not.1 hsh⟩
  | @lowRank size rank bias _ h =>
    unfold newLowRank at h
    split at h
    · cases h
    · split at h
      · cases h
      · split at h
        · split at h
          · cases h
          · cases h; trivial
        · cases h; trivial
  | @tensor shape bias Ms _ h =>
    unfold newTensor at h
    split at h
    · cases h
    · split at h
      · cases h; trivial
      · cases h
      · next p ts =>
        split at h
        · cases h
        · next hsh =>
          cases h
          exact ⟨p, _, rfl, not_not.1 hsh⟩
  | @obs num out Ds _ h =>
    unfold newObs at h
    split at h
    · cases h; trivial
    · next q l n n' _ =>
      split at h
      · cases h
      · next hn =>
        split at h
        · cases h
        · split at h
          · cases h
          · split at h
            · cases h
            · cases h
              exact ⟨q, l, n, rfl, rfl, by rw [← not_not.1 hn]⟩
    · cases h

theorem asExpected_eq {sh : List Nat} {e : List (Option Nat)} (h : asExpected sh e = true) : sh.map some = e := by simpa [asExpected] using h

theorem compile_kind {s : Tree (List Nat)} {o o' : Obj} (h : Lifecycle.compile s o = .ok o') (hg : GoodShapes o) :
    GoodShapes o' ∧ (o'.IsLowRank ↔ o.IsLowRank) ∧ (o'.IsObs ↔ o.IsObs) := by
  cases o with
  | herm size bias Ms =>
    simp only [Lifecycle.compile] at h
    split at h
    · cases h
    · cases h
    · split at h
      · split at h
        · cases h
        · cases h; exact ⟨hg, Iff.rfl, Iff.rfl⟩
      · split at h
        · cases h
        · cases h; exact ⟨⟨_, _, rfl, rfl⟩, Iff.rfl, Iff.rfl⟩
  | lowRank size rank bias params =>
    simp only [Lifecycle.compile] at h
    split at h
    · cases h
    · cases h
    · split at h
      · split at h
        · cases h
        · cases h; exact ⟨hg, Iff.rfl, Iff.rfl⟩
      · split at h
        · cases h; exact ⟨⟨_, _, _, rfl, rfl, rfl⟩, Iff.rfl, Iff.rfl⟩
        · cases h
  | tensor shape bias Ms =>
    simp only [Lifecycle.compile] at h
    split at h
    · cases h
    · cases h
    · split at h
      · split at h
        · cases h
        · cases h; exact ⟨hg, Iff.rfl, Iff.rfl⟩
      · split at h
        · cases h
        · cases h; exact ⟨⟨_, _, rfl, rfl⟩, Iff.rfl, Iff.rfl⟩
  | obs num out Ds =>
    simp only [Lifecycle.compile] at h
    split at h
    · split at h
      · cases h
      · cases h
      · split at h
        · split at h
          · cases h
          · cases h; exact ⟨hg, Iff.rfl, Iff.rfl⟩
        · cases h; exact ⟨⟨_, _, _, rfl, rfl, rfl⟩, Iff.rfl, Iff.rfl⟩
    · cases h

theorem map_some_eq2 {sh : List Nat} {a b : Option Nat} (h : sh.map some = [a, b]) : ∃ x y, a = some x ∧ b = some y ∧ sh = [x, y] := by
  match sh, h with
  | [x, y], h =>
    simp only [List.map_cons, List.map_nil, List.cons.injEq, and_true] at h
    exact ⟨x, y, h.1.symm, h.2.symm, rfl⟩

theorem map_some_eq3 {sh : List Nat} {a b c : Option Nat} (h : sh.map some = [a, b, c]) : ∃ x y z, a = some x ∧ b = some y ∧ c = some z ∧ sh = [x, y, z] := by
  match sh, h with
  | [x, y, z], h =>
    simp only [List.map_cons, List.map_nil, List.cons.injEq, and_true] at h
    exact ⟨x, y, z, h.1.symm, h.2.1.symm, h.2.2.symm, rfl⟩

theorem params_kind {a : List (List Nat)} {hh : Bool} {o o' : Obj} (h : Lifecycle.setParams a hh o = .ok o') (hg : GoodShapes o) (hs : o.IsLowRank → (Op.params a hh).SameCount) :
    GoodShapes o' ∧ (o'.IsLowRank ↔ o.IsLowRank) ∧ (o'.IsObs ↔ o.IsObs) := by
  cases o with
  | herm size bias Ms =>
    simp only [Lifecycle.setParams] at h
    split at h
    · next sh =>
      split at h
      · cases h
      · next p _ =>
        split at h
        · cases h
        · next he =>
          split at h
          · cases h
          · cases h
            obtain ⟨x, y, z, h1, h2, h3, h4⟩ := map_some_eq3 (asExpected_eq (by simpa using he))
            rw [h2] at h3
            cases h3
            exact ⟨⟨x, y, h2, h4⟩, Iff.rfl, Iff.rfl⟩
    · cases h
  | lowRank size rank bias params =>
    simp only [Lifecycle.setParams] at h
    split at h
    · next ls us =>
      split at h
      · cases h
      · next p _ =>
        split at h
        · cases h
        · next he =>
          split at h
          · cases h
          · next p' _ =>
            split at h
            · cases h
            · next he' =>
              cases h
              obtain ⟨x, y, z, h1, h2, h3, h4⟩ := map_some_eq3 (asExpected_eq (by simpa using he))
              obtain ⟨x', z', h1', h2', h3'⟩ := map_some_eq2 (asExpected_eq (by simpa using he'))
              have hc : ls.head? = us.head? := hs trivial
              rw [h4, h3'] at hc
              simp only [List.head?_cons, Option.some.injEq] at hc
              subst hc
              rw [h3] at h2'
              cases h2'
              exact ⟨⟨x', y, z, h2, h3, by rw [h4, h3']⟩, Iff.rfl, Iff.rfl⟩
    · cases h
  | tensor shape bias Ms =>
    simp only [Lifecycle.setParams] at h
    split at h
    · next sh =>
      split at h
      · cases h
      · next p _ =>
        split at h
        · cases h
        · next ts =>
          split at h
          · cases h
          · next he =>
            cases h
            exact ⟨⟨p, ts, rfl, not_not.1 he⟩, Iff.rfl, Iff.rfl⟩
    · cases h
  | obs num out Ds =>
    simp only [Lifecycle.setParams] at h
    split at h
    · next q l n n' =>
      split at h
      · cases h
      · next he =>
        split at h
        · cases h
        · cases h
          have := asExpected_eq (by simpa using he)
          simp only [List.map_cons, List.map_nil, List.cons.injEq, Option.some.injEq, and_true, true_and] at this
          exact ⟨⟨q, l, n, this.2.1.symm, this.1.symm, by rw [this.2.2]⟩, Iff.rfl, Iff.rfl⟩
    · cases h

theorem hyper_kind {d : Dict} {o o' : Obj} (h : Lifecycle.setHyper d o = .ok o') : GoodShapes o' ∧ (o'.IsLowRank ↔ o.IsLowRank) ∧ (o'.IsObs ↔ o.IsObs) := by
  unfold Lifecycle.setHyper at h
  split at h <;> cases h <;> exact ⟨trivial, Iff.rfl, Iff.rfl⟩

theorem step_kind {o : Obj} {op : Op} (hg : GoodShapes o) (hs : o.IsLowRank → op.SameCount) :
    GoodShapes (Lifecycle.step o op) ∧ ((Lifecycle.step o op).IsLowRank ↔ o.IsLowRank) ∧ ((Lifecycle.step o op).IsObs ↔ o.IsObs) := by
  cases op with
  | compile s =>
    simp only [Lifecycle.step]
    split
    · next h => exact compile_kind h hg
    · exact ⟨hg, Iff.rfl, Iff.rfl⟩
  | params a h =>
    simp only [Lifecycle.step]
    split
    · next h => exact params_kind h hg hs
    · exact ⟨hg, Iff.rfl, Iff.rfl⟩
  | hyper d =>
    simp only [Lifecycle.step]
    split
    · next h => exact hyper_kind h
    · exact ⟨hg, Iff.rfl, Iff.rfl⟩

theorem steps_kind : ∀ (ops : List Op) {o : Obj}, GoodShapes o → (o.IsLowRank → ∀ op ∈ ops, op.SameCount) →
    GoodShapes (Lifecycle.steps o ops) ∧ ((Lifecycle.steps o ops).IsLowRank ↔ o.IsLowRank) ∧ ((Lifecycle.steps o ops).IsObs ↔ o.IsObs)
  | [], _, hg, _ => ⟨hg, Iff.rfl, Iff.rfl⟩
  | op :: ops, o, hg, hs => by
    obtain ⟨h1, h2, h3⟩ := step_kind (op := op) hg (fun hl => hs hl op (by simp))
    obtain ⟨h4, h5, h6⟩ := steps_kind ops h1 (fun hl op' hm => hs (h2.1 hl) op' (by simp [hm]))
    exact ⟨h4, h5.trans h2, h6.trans h3⟩

/-- Are the parameters there? -/
def ParamsThere : Obj → Prop
  | .herm _ _ Ms => Ms.isSome
  | .lowRank _ _ _ P => P.isSome
  | .tensor _ _ Ms => Ms.isSome
  | .obs _ _ Ds => Ds.isSome

theorem ready_hyper {d : Dict} {o o' : Obj} (hr : ParamsThere o) : Lifecycle.setHyper d o ≠ .ok o' := by
  intro h
  unfold Lifecycle.setHyper at h
  split at h <;> first | cases hr | cases h

theorem compile_ready {s : Tree (List Nat)} {o o' : Obj} (h : Lifecycle.compile s o = .ok o') : ParamsThere o' ∧ (ParamsThere o → o' = o) := by
  cases o with
  | herm size bias Ms =>
    simp only [Lifecycle.compile] at h
    split at h
    · cases h
    · cases h
    · split at h
      · split at h
        · cases h
        · cases h; exact ⟨rfl, fun _ => rfl⟩
      · split at h
        · cases h
        · cases h; exact ⟨rfl, fun hr => by cases hr⟩
  | lowRank size rank bias params =>
    simp only [Lifecycle.compile] at h
    split at h
    · cases h
    · cases h
    · split at h
      · split at h
        · cases h
        · cases h; exact ⟨rfl, fun _ => rfl⟩
      · split at h
        · cases h; exact ⟨rfl, fun hr => by cases hr⟩
        · cases h
  | tensor shape bias Ms =>
    simp only [Lifecycle.compile] at h
    split at h
    · cases h
    · cases h
    · split at h
      · split at h
        · cases h
        · cases h; exact ⟨rfl, fun _ => rfl⟩
      · split at h
        · cases h
        · cases h; exact ⟨rfl, fun hr => by cases hr⟩
  | obs num out Ds =>
    simp only [Lifecycle.compile] at h
    split at h
    · split at h
      · cases h
      · cases h
      · split at h
        · split at h
          · cases h
          · cases h; exact ⟨rfl, fun _ => rfl⟩
        · cases h; exact ⟨rfl, fun hr => by cases hr⟩
    · cases h

/-- Once the parameters are there, they keep their shapes (observables: if those that are set fit). -/
theorem step_fixed {o : Obj} {op : Op} (hg : GoodShapes o) (hr : ParamsThere o)
    (hf : ∀ num out q l n m, o = .obs num out (some [q, l, n, m]) → op.Fits n) : Lifecycle.step o op = o := by
  cases op with
  | compile s =>
    simp only [Lifecycle.step]
    split
    · next h => exact (compile_ready h).2 hr
    · rfl
  | hyper d =>
    simp only [Lifecycle.step]
    split
    · next h => exact absurd h (ready_hyper hr)
    · rfl
  | params a hh =>
    simp only [Lifecycle.step]
    split
    · next o' h =>
      cases o with
      | herm size bias Ms =>
        cases Ms with
        | none => cases hr
        | some M =>
          obtain ⟨p, n, rfl, rfl⟩ := hg
          simp only [Lifecycle.setParams] at h
          split at h
          · split at h
            · cases h
            · next p' hp =>
              split at h
              · cases h
              · next he =>
                split at h
                · cases h
                · cases h
                  obtain ⟨x, y, z, h1, h2, h3, h4⟩ := map_some_eq3 (asExpected_eq (by simpa using he))
                  cases h1; cases h2; cases h3; cases hp
                  rw [h4]
          · cases h
      | lowRank size rank bias params =>
        cases params with
        | none => cases hr
        | some P =>
          obtain ⟨p, n, r, rfl, rfl, rfl⟩ := hg
          simp only [Lifecycle.setParams] at h
          split at h
          · split at h
            · cases h
            · next p1 hp1 =>
              split at h
              · cases h
              · next he =>
                split at h
                · cases h
                · next p2 hp2 =>
                  split at h
                  · cases h
                  · next he' =>
                    cases h
                    obtain ⟨x, y, z, h1, h2, h3, h4⟩ := map_some_eq3 (asExpected_eq (by simpa using he))
                    obtain ⟨x', z', h1', h2', h3'⟩ := map_some_eq2 (asExpected_eq (by simpa using he'))
                    cases h1; cases h2; cases h3; cases h1'; cases h2'; cases hp1; cases hp2
                    rw [h4, h3']
          · cases h
      | tensor shape bias Ms =>
        cases Ms with
        | none => cases hr
        | some M =>
          obtain ⟨p, ts, rfl, rfl⟩ := hg
          simp only [Lifecycle.setParams] at h
          split at h
          · split at h
            · cases h
            · next p' hp =>
              cases hp
              split at h
              · cases h
              · next he =>
                cases h
                rw [not_not.1 he]
          · cases h
      | obs num out Ds =>
        cases Ds with
        | none => cases hr
        | some D =>
          obtain ⟨q, l, n, rfl, rfl, rfl⟩ := hg
          have hf' := hf _ _ q l n n rfl
          simp only [Lifecycle.setParams] at h
          split at h
          · next q1 l1 n1 n1' =>
            split at h
            · cases h
            · next he =>
              split at h
              · cases h
              · cases h
                have := asExpected_eq (by simpa using he)
                simp only [List.map_cons, List.map_nil, List.cons.injEq, Option.some.injEq, and_true, true_and] at this
                have hf' : n1 = n := hf'
                rw [this.1, this.2.1, this.2.2, hf']
          · cases h
    · rfl

theorem steps_fixed : ∀ (ops : List Op) {o : Obj}, GoodShapes o → ParamsThere o → (∀ num out q l n m, o = .obs num out (some [q, l, n, m]) → ∀ op ∈ ops, op.Fits n) → Lifecycle.steps o ops = o
  | [], _, _, _, _ => rfl
  | op :: ops, o, hg, hr, hf => by
    have e : Lifecycle.step o op = o := step_fixed hg hr (fun num out q l n m h => hf num out q l n m h op (by simp))
    show Lifecycle.steps (Lifecycle.step o op) ops = o
    rw [e]
    exact steps_fixed ops hg hr (fun num out q l n m h op' hm => hf num out q l n m h op' (by simp [hm]))

theorem singleLeaf_length {n : Nat} {s : Tree (List Nat)} {sh : List Nat} (h : singleLeaf n s = .ok (some sh)) : sh.length = n := by
  unfold singleLeaf at h
  split at h
  · simp only [Except.ok.injEq] at h
    split at h
    · next hl => cases h; exact hl
    · cases h
  · cases h
  · cases h

/-- A module that was just compiled works. -/
theorem compile_works {s : Tree (List Nat)} {o o' : Obj} (h : Lifecycle.compile s o = .ok o') (hg : GoodShapes o) :
    ∃ sh out, singleLeaf (if o.IsObs then 2 else 1) s = .ok (some sh) ∧ o'.Works s sh out ∧
      ∀ num out q l n m, o' = .obs num out (some [q, l, n, m]) → n = sh.headD 0 := by
  cases o with
  | herm size bias Ms =>
    simp only [Lifecycle.compile] at h
    split at h
    · cases h
    · cases h
    · next sh hs =>
      refine ⟨sh, ?_⟩
      have hl := singleLeaf_length hs
      match sh, hl with
      | [f], _ =>
      simp only [List.headD_cons] at h
      split at h
      · next M =>
        obtain ⟨p, n, rfl, rfl⟩ := hg
        by_cases hp : p = matrices bias f
        swap
        · simp [hp] at h
        · subst hp
          simp only [List.headD_cons, ne_eq, not_true_eq_false, if_false, Except.ok.injEq] at h
          subst h
          refine ⟨[n, n], by simpa [Obj.IsObs] using hs, ⟨?_, fun b => ?_⟩, by intro _ _ _ _ _ _ e; cases e⟩
          · simp only [Lifecycle.outputShape, hs]; rfl
          · simp [Lifecycle.call]
      · split at h
        · cases h
        · next n =>
          cases h
          refine ⟨[n, n], by simpa [Obj.IsObs] using hs, ⟨?_, fun b => ?_⟩, by intro _ _ _ _ _ _ e; cases e⟩
          · simp only [Lifecycle.outputShape, hs]; rfl
          · simp only [Lifecycle.call, and_self, if_true]
  | lowRank size rank bias params =>
    simp only [Lifecycle.compile] at h
    split at h
    · cases h
    · cases h
    · next sh hs =>
      refine ⟨sh, ?_⟩
      have hl := singleLeaf_length hs
      match sh, hl with
      | [f], _ =>
      simp only [List.headD_cons] at h
      split at h
      · next P =>
        obtain ⟨p, n, r, rfl, rfl, rfl⟩ := hg
        by_cases hp : p = matrices bias f
        swap
        · simp [hp] at h
        · subst hp
          simp only [List.headD_cons, ne_eq, not_true_eq_false, if_false, Except.ok.injEq] at h
          subst h
          refine ⟨[n, n], by simpa [Obj.IsObs] using hs, ⟨?_, fun b => ?_⟩, by intro _ _ _ _ _ _ e; cases e⟩
          · simp only [Lifecycle.outputShape, hs]; rfl
          · simp [Lifecycle.call]
      · split at h
        · next n r =>
          cases h
          refine ⟨[n, n], by simpa [Obj.IsObs] using hs, ⟨?_, fun b => ?_⟩, by intro _ _ _ _ _ _ e; cases e⟩
          · simp only [Lifecycle.outputShape, hs]; rfl
          · simp only [Lifecycle.call, and_self, if_true]
        · cases h
  | tensor shape bias Ms =>
    simp only [Lifecycle.compile] at h
    split at h
    · cases h
    · cases h
    · next sh hs =>
      refine ⟨sh, ?_⟩
      have hl := singleLeaf_length hs
      match sh, hl with
      | [f], _ =>
      simp only [List.headD_cons] at h
      split at h
      · next M =>
        obtain ⟨p, ts, rfl, rfl⟩ := hg
        by_cases hp : p = matrices bias f
        swap
        · simp [hp] at h
        · subst hp
          simp only [List.headD_cons, ne_eq, not_true_eq_false, if_false, Except.ok.injEq] at h
          subst h
          refine ⟨ts, by simpa [Obj.IsObs] using hs, ⟨?_, fun b => ?_⟩, by intro _ _ _ _ _ _ e; cases e⟩
          · simp only [Lifecycle.outputShape, hs]; rfl
          · simp [Lifecycle.call]
      · split at h
        · cases h
        · next ts =>
          cases h
          refine ⟨ts, by simpa [Obj.IsObs] using hs, ⟨?_, fun b => ?_⟩, by intro _ _ _ _ _ _ e; cases e⟩
          · simp only [Lifecycle.outputShape, hs]; rfl
          · simp only [Lifecycle.call, if_true]
  | obs num out Ds =>
    simp only [Lifecycle.compile] at h
    split at h
    · next l q =>
      split at h
      · cases h
      · cases h
      · next sh hs =>
        refine ⟨sh, ?_⟩
        have hl := singleLeaf_length hs
        match sh, hl with
        | [n, r], _ =>
        simp only [List.headD_cons] at h
        split at h
        · next D =>
          obtain ⟨q', l', n', e1, e2, rfl⟩ := hg
          cases e1; cases e2
          by_cases hp : n' = n
          swap
          · simp [hp] at h
          · subst hp
            simp only [List.getD_cons_succ, List.getD_cons_zero, ne_eq, not_true_eq_false, or_self, if_false, Except.ok.injEq] at h
            subst h
            refine ⟨[q], by simpa [Obj.IsObs] using hs, ⟨?_, fun b => ?_⟩, ?_⟩
            · simp only [Lifecycle.outputShape, hs]; simp
            · simp only [Lifecycle.call, and_self, if_true]
            · intro _ _ _ _ _ _ e; cases e; rfl
        · cases h
          refine ⟨[q], by simpa [Obj.IsObs] using hs, ⟨?_, fun b => ?_⟩, ?_⟩
          · simp only [Lifecycle.outputShape, hs]; simp
          · simp only [Lifecycle.call, and_self, if_true]
          · intro _ _ _ _ _ _ e; cases e; rfl
    · cases h

/-- **C101** A module with matrices that was compiled for the shape of some data can be called on batches of such data and returns what it announces, whatever was done with it
before and is done with it afterwards. For low-rank modules this needs that the two arrays that were set before compiling were for equally many matrices; for observables, that
those that are set afterwards have the size of the data. -/
theorem C101_compiled_partial (o : Obj) (hn : New o) (before after : List Op) (s : Tree (List Nat)) (o' : Obj) (hc : Lifecycle.compile s (steps o before) = .ok o')
    (hl : o.IsLowRank → ∀ op ∈ before, op.SameCount) (ho : o.IsObs → ∀ sh, singleLeaf 2 s = .ok (some sh) → ∀ op ∈ after, op.Fits (sh.headD 0)) :
    ∃ sh out, singleLeaf (if o.IsObs then 2 else 1) s = .ok (some sh) ∧ o'.Works s sh out ∧ (steps o' after).Works s sh out := by
  obtain ⟨g1, k1, k2⟩ := steps_kind before (new_good hn) hl
  obtain ⟨sh, out, hs, hw, hn'⟩ := compile_works hc g1
  obtain ⟨g2, k3, k4⟩ := compile_kind hc g1
  have hs' : singleLeaf (if o.IsObs then 2 else 1) s = .ok (some sh) := by
    simp only [k2] at hs
    exact hs
  refine ⟨sh, out, hs', hw, ?_⟩
  rw [steps_fixed after g2 (compile_ready hc).1]
  · exact hw
  · intro num out' q l n m e op hm
    have hobs : o.IsObs := k2.1 (k4.1 (by rw [e]; trivial))
    rw [if_pos hobs] at hs'
    have := ho hobs sh hs' op hm
    rw [hn' _ _ _ _ _ _ e]
    exact this

/-- **C101** for `AffineHermitianMatrix` and `AffineTensor`, without any condition on what is done with the module. -/
theorem C101_compiled (o : Obj) (hn : New o) (h1 : ¬ o.IsLowRank) (h2 : o.IsObs = false) (before after : List Op) (s : Tree (List Nat)) (o' : Obj)
    (hc : Lifecycle.compile s (steps o before) = .ok o') :
    ∃ sh out, singleLeaf 1 s = .ok (some sh) ∧ o'.Works s sh out ∧ (steps o' after).Works s sh out := by
  have := C101_compiled_partial o hn before after s o' hc (fun h => absurd h h1) (fun h => by rw [h2] at h; cases h)
  rw [h2] at this
  exact this

/-- Matrices of size 2 given to the constructor, and a tensor whose shape is set before it is compiled. -/
example : New (.herm (some 2) true (some [3, 2, 2])) ∧ Lifecycle.compile (.leaf [2]) (steps (.herm (some 2) true (some [3, 2, 2])) [.compile (.leaf [5])]) = .ok (.herm (some 2) true (some [3, 2, 2])) ∧
    New (.tensor Option.none false Option.none) ∧
    Lifecycle.compile (.leaf [2]) (steps (.tensor Option.none false Option.none) [.compile (.leaf [2]), .hyper { shape := some (some [4]) }]) = .ok (.tensor (some [4]) false (some [2, 4])) :=
  ⟨.herm (size := Option.none) (bias := true) (Ms := some ([3, 2, 2], true)) rfl, rfl, .tensor (shape := Option.none) (bias := false) (Ms := Option.none) rfl, rfl⟩

/-- A low-rank module for two features with its parameters set before and after compiling, and observables. -/
example : New (.lowRank (some 3) (some 1) true Option.none) ∧
    Lifecycle.compile (.leaf [2]) (steps (.lowRank (some 3) (some 1) true Option.none) [.params [[3, 1], [3, 3, 1]] true, .hyper { size := some (some 5) }]) =
      .ok (.lowRank (some 3) (some 1) true (some ([3, 1], [3, 3, 1]))) ∧ (Op.params [[3, 1], [3, 3, 1]] true).SameCount ∧
    (Obj.lowRank (some 3) (some 1) true (some ([3, 1], [3, 3, 1]))).Works (.leaf [2]) [2] [3, 3] :=
  ⟨.lowRank (size := some 3) (rank := some 1) (bias := true) rfl, rfl, rfl, rfl, fun _ => rfl⟩

example : New (.obs (some 2) (some 4) Option.none) ∧ Lifecycle.compile (.list [.leaf [3, 1]]) (.obs (some 2) (some 4) Option.none) = .ok (.obs (some 2) (some 4) (some [4, 2, 3, 3])) ∧
    (Op.params [[4, 2, 3, 3]] true).Fits 3 ∧ (Obj.obs (some 2) (some 4) (some [4, 2, 3, 3])).Works (.list [.leaf [3, 1]]) [3, 1] [4] :=
  ⟨.obs (num := some 2) (out := some 4) (Ds := Option.none) rfl, rfl, rfl, rfl, fun _ => rfl⟩

/-- **C101, refuted** for `LowRankAffineHermitianMatrix`: parameters whose two arrays are for different numbers of matrices are accepted before compiling, and so is compiling;
every call raises. -/
theorem C101_low_rank_refuted : ¬ ∀ (o : Obj) (before : List Op) (s : Tree (List Nat)) (sh : List Nat) (o' : Obj), New o → singleLeaf 1 s = .ok (some sh) → o.IsLowRank →
    Lifecycle.compile s (steps o before) = .ok o' → ∃ b out, call (b :: sh) o' = .ok out := by
  intro h
  obtain ⟨b, out, e⟩ := h (.lowRank (some 3) (some 1) true Option.none) [.params [[5, 1], [3, 3, 1]] true] (.leaf [2]) [2]
    (.lowRank (some 3) (some 1) true (some ([5, 1], [3, 3, 1]))) (.lowRank (size := some 3) (rank := some 1) (bias := true) rfl) rfl trivial rfl
  cases e

/-- **C101, refuted** for `ExpectationValueSum` and `TransitionAmplitudeSum`: after compiling, observables of another size are accepted, and every call on the data that the
module was compiled for raises. -/
theorem C101_observables_refuted : ¬ ∀ (o : Obj) (s : Tree (List Nat)) (sh : List Nat) (o' : Obj) (after : List Op), New o → singleLeaf 2 s = .ok (some sh) → o.IsObs →
    Lifecycle.compile s o = .ok o' → ∃ b out, call (b :: sh) (steps o' after) = .ok out := by
  intro h
  obtain ⟨b, out, e⟩ := h (.obs (some 1) (some 1) Option.none) (.leaf [2, 1]) [2, 1] (.obs (some 1) (some 1) (some [1, 1, 2, 2])) [.params [[1, 1, 3, 3]] true]
    (.obs (num := some 1) (out := some 1) (Ds := Option.none) rfl) rfl rfl rfl
  cases e

/-! ### What is accepted -/

/-- **C101** Which arguments the constructors take, and what they make of them: sizes are positive, matrices are square, Hermitian and of the given size, which may be left out; the rank is at most the
size; a given (not empty) shape is that of the tensors; given numbers of observables and outputs are those of the arrays. -/
theorem C101_constructors :
    (∀ size bias Ms o, newHerm size bias Ms = .ok o ↔ size ≠ some 0 ∧ (Ms = Option.none ∧ o = .herm size bias Option.none ∨
      ∃ p n, Ms = some ([p, n, n], true) ∧ (size = Option.none ∨ size = some n) ∧ o = .herm (some n) bias (some [p, n, n]))) ∧
    (∀ size rank bias o, newLowRank size rank bias = .ok o ↔ size ≠ some 0 ∧ rank ≠ some 0 ∧ (∀ n r, size = some n → rank = some r → r ≤ n) ∧ o = .lowRank size rank bias Option.none) ∧
    (∀ shape bias Ms o, newTensor shape bias Ms = .ok o ↔ (∀ ts, shape = some ts → 0 ∉ ts) ∧ (Ms = Option.none ∧ o = .tensor shape bias Option.none ∨
      ∃ p ts, Ms = some (p :: ts) ∧ (shape = Option.none ∨ shape = some [] ∨ shape = some ts) ∧ o = .tensor (some ts) bias (some (p :: ts)))) ∧
    ∀ num out Ds o, newObs num out Ds = .ok o ↔ Ds = Option.none ∧ o = .obs num out Option.none ∨
      ∃ q l n, Ds = some ([q, l, n, n], true) ∧ (num = Option.none ∨ num = some l) ∧ (out = Option.none ∨ out = some q) ∧ o = .obs (some l) (some q) (some [q, l, n, n]) := by
  refine ⟨fun size bias Ms o => ?_, fun size rank bias o => ?_, fun shape bias Ms o => ?_, fun num out Ds o => ?_⟩
  · unfold newHerm
    by_cases h0 : size = some 0
    · simp [h0]
    rw [if_neg h0]
    cases Ms with
    | none => simp [h0, eq_comm]
    | some M =>
      obtain ⟨sh, hm⟩ := M
      match sh, size, h0 with
      | [], none, h0 => simp
      | [], some m, h0 => simp
      | [p], none, h0 => simp
      | [p], some m, h0 => simp
      | p :: a :: r, none, h0 =>
        simp only [List.getElem?_cons_succ, List.getElem?_cons_zero]
        by_cases he : p :: a :: r = [p, a, a]
        · rw [if_neg (by simpa using he)]
          cases hm <;> simp_all [eq_comm]
        · rw [if_pos he]
          simp only [reduceCtorEq, false_iff, not_and, not_or, not_exists]
          refine fun _ => ⟨by simp, fun q n hq => ?_⟩
          simp only [Option.some.injEq, Prod.mk.injEq, List.cons.injEq] at hq
          obtain ⟨⟨rfl, rfl, rfl⟩, -⟩ := hq
          exact absurd rfl he
      | p :: a :: r, some m, h0 =>
        simp only
        by_cases he : p :: a :: r = [p, m, m]
        · rw [if_neg (by simpa using he)]
          cases hm <;> simp_all [eq_comm]
        · rw [if_pos he]
          simp only [reduceCtorEq, false_iff, not_and, not_or, not_exists]
          refine fun _ => ⟨by simp, fun q n hq hs => ?_⟩
          simp only [Option.some.injEq, Prod.mk.injEq, List.cons.injEq, reduceCtorEq, false_or] at hq hs
          obtain ⟨⟨rfl, rfl, rfl⟩, -⟩ := hq
          subst hs
          exact absurd rfl he
  · unfold newLowRank
    by_cases h0 : size = some 0
    · simp [h0]
    by_cases h1 : rank = some 0
    · simp [h1]
    rw [if_neg h0, if_neg h1]
    cases size <;> cases rank <;> simp_all [eq_comm]
    split <;> simp_all [eq_comm] <;> omega
  · unfold newTensor
    have hz : (shape.getD []).any (· == 0) = true ↔ ¬ ∀ ts, shape = some ts → 0 ∉ ts := by
      cases shape <;> simp
    by_cases h0 : (shape.getD []).any (· == 0) = true
    · rw [if_pos h0]
      simp [hz.1 h0]
    rw [if_neg h0]
    have h0' := not_not.1 (mt hz.2 h0)
    simp only [iff_true_intro h0', true_and]
    cases Ms with
    | none => simp [eq_comm]
    | some M =>
      match M, shape with
      | [], _ => simp
      | p :: ts, none => simp [shapeOr, eq_comm]
      | p :: ts, some [] => simp [shapeOr, eq_comm]
      | p :: ts, some (a :: as) =>
        by_cases he : ts = a :: as
        · subst he; simp [shapeOr, eq_comm]
        · simp [shapeOr, he, eq_comm]
  · unfold newObs
    cases Ds with
    | none => simp [eq_comm]
    | some D =>
      obtain ⟨sh, hm⟩ := D
      match sh with
      | [q, l, n, n'] =>
        by_cases hn : n = n'
        · subst hn
          cases hm
          · simp
          · rcases num with _ | a <;> rcases out with _ | b
            · simp [@eq_comm _ _ o]
            · by_cases hb : b = q <;> simp [hb, @eq_comm _ _ o]
            · by_cases ha : a = l <;> simp [ha, @eq_comm _ _ o]
            · by_cases ha : a = l <;> by_cases hb : b = q <;> simp [ha, hb, @eq_comm _ _ o]
        · simp only [ne_eq, hn, not_false_eq_true, if_true, reduceCtorEq, false_and, false_or, false_iff, not_exists, not_and]
          intro q' l' n'' hq
          simp only [Option.some.injEq, Prod.mk.injEq, List.cons.injEq, and_true] at hq
          exact absurd (hq.1.2.2.1.trans hq.1.2.2.2.symm) hn
      | [] => simp
      | [_] => simp
      | [_, _] => simp
      | [_, _, _] => simp
      | _ :: _ :: _ :: _ :: _ :: _ => simp

/-- **C101** What can be compiled: for data with one array of `f` features per sample, a module without matrices whose sizes are known, to one with `f` (with bias `f + 1`) matrices of these sizes, and a
module with matrices exactly if these are as many; it stays as it is. -/
theorem C101_compiles (s : Tree (List Nat)) (f : Nat) (hs : singleLeaf 1 s = .ok (some [f])) (bias : Bool) (p : Nat) (hp : p = if bias then f + 1 else f) (o' : Obj) :
    (∀ size, Lifecycle.compile s (.herm size bias Option.none) = .ok o' ↔ ∃ n, size = some n ∧ o' = .herm size bias (some [p, n, n])) ∧
    (∀ size m r, Lifecycle.compile s (.herm size bias (some (m :: r))) = .ok o' ↔ m = p ∧ o' = .herm size bias (some (m :: r))) ∧
    (∀ size rank, Lifecycle.compile s (.lowRank size rank bias Option.none) = .ok o' ↔ ∃ n r, size = some n ∧ rank = some r ∧ o' = .lowRank size rank bias (some ([p, r], [p, n, r]))) ∧
    (∀ size rank l m r, Lifecycle.compile s (.lowRank size rank bias (some (l, m :: r))) = .ok o' ↔ m = p ∧ o' = .lowRank size rank bias (some (l, m :: r))) ∧
    (∀ shape, Lifecycle.compile s (.tensor shape bias Option.none) = .ok o' ↔ ∃ ts, shape = some ts ∧ o' = .tensor shape bias (some (p :: ts))) ∧
    ∀ shape m r, Lifecycle.compile s (.tensor shape bias (some (m :: r))) = .ok o' ↔ m = p ∧ o' = .tensor shape bias (some (m :: r)) := by
  have hm : matrices bias f = p := hp.symm
  refine ⟨fun size => ?_, fun size m r => ?_, fun size rank => ?_, fun size rank l m r => ?_, fun shape => ?_, fun shape m r => ?_⟩
  · cases size <;> simp [Lifecycle.compile, hs, hm, eq_comm]
  · by_cases h : m = p <;> simp [Lifecycle.compile, hs, hm, h, eq_comm]
  · cases size <;> cases rank <;> simp [Lifecycle.compile, hs, hm, eq_comm]
  · by_cases h : m = p <;> simp [Lifecycle.compile, hs, hm, h, eq_comm]
  · cases shape <;> simp [Lifecycle.compile, hs, hm, eq_comm]
  · by_cases h : m = p <;> simp [Lifecycle.compile, hs, hm, h, eq_comm]

/-- **C101** The same for observables, for data with one array of vectors (as the columns of a matrix) per sample. The numbers of observables and outputs have to be known. -/
theorem C101_compiles_observables (s : Tree (List Nat)) (n k : Nat) (hs : singleLeaf 2 s = .ok (some [n, k])) (num out : Option Nat) (o' : Obj) :
    (Lifecycle.compile s (.obs num out Option.none) = .ok o' ↔ ∃ l q, num = some l ∧ out = some q ∧ o' = .obs num out (some [q, l, n, n])) ∧
    ∀ q l m m', Lifecycle.compile s (.obs num out (some [q, l, m, m'])) = .ok o' ↔ num ≠ Option.none ∧ out ≠ Option.none ∧ m = n ∧ m' = n ∧ o' = .obs num out (some [q, l, m, m']) := by
  refine ⟨?_, fun q l m m' => ?_⟩
  · cases num <;> cases out <;> simp [Lifecycle.compile, hs, eq_comm]
  · cases num <;> cases out <;> simp only [Lifecycle.compile, hs, ne_eq, not_true_eq_false, reduceCtorEq, false_and, not_false_eq_true, true_and, and_false]
    by_cases h : m = n <;> by_cases h' : m' = n <;> simp [h, h', eq_comm]

/-- **C101** Nothing is compiled for other data: several arrays, none, or one with another number of axes. -/
theorem C101_refuses (s : Tree (List Nat)) (o o' : Obj) (h : ∀ sh, singleLeaf (if o.IsObs then 2 else 1) s ≠ .ok (some sh)) : Lifecycle.compile s o ≠ .ok o' := by
  intro hc
  cases o <;> simp only [Obj.IsObs, Bool.false_eq_true, if_false, if_true] at h <;> simp only [Lifecycle.compile] at hc
  case obs num out Ds =>
    split at hc
    · split at hc
      · cases hc
      · cases hc
      · exact h _ ‹_›
    · cases hc
  all_goals
    split at hc
    · cases hc
    · cases hc
    · exact h _ ‹_›

example : singleLeaf 1 (.list [.leaf [2]]) = .ok (some [2]) ∧ singleLeaf 2 (.leaf [3, 1]) = .ok (some [3, 1]) ∧ (∀ sh, singleLeaf 1 (.list [.leaf [2], .leaf [2]]) ≠ .ok (some sh)) ∧
    Lifecycle.compile (.list [.leaf [2]]) (.lowRank (some 3) (some 1) true Option.none) = .ok (.lowRank (some 3) (some 1) true (some ([3, 1], [3, 3, 1]))) ∧
    newHerm (some 1) true (some ([3, 1, 1], true)) = .ok (.herm (some 1) true (some [3, 1, 1])) ∧ newLowRank (some 2) (some 2) false = .ok (.lowRank (some 2) (some 2) false Option.none) ∧
    newTensor (some []) true (some [3, 2, 4]) = .ok (.tensor (some [2, 4]) true (some [3, 2, 4])) ∧ newObs Option.none (some 4) (some ([4, 2, 3, 3], true)) = .ok (.obs (some 2) (some 4) (some [4, 2, 3, 3])) :=
  ⟨rfl, rfl, fun sh h => (by cases h), rfl, rfl, rfl, rfl, rfl⟩

end Verif.Props
