import Verif.Lemmas.HermTrain

/-! # Properties of all parameter arrays together that a training keeps (C138) -/

namespace Verif.HermTrain
open Verif.Batch Verif.Train Verif.Adam TrainSpec

variable {α P S K F : Type} {c : Cfg α P S K F}

/-- Every array has its property. -/
def AllHave (I : Nat → OptState P → Prop) (adam : List (OptState P)) : Prop := ∀ (j : Nat) (a : OptState P), adam[j]? = some a → I j a

/-- Properties of the arrays that every update with a batch of a kind keeps if all arrays have theirs, and that counters and callback keep. -/
structure KeptOn (c : Cfg α P S K F) (B : Data α → Prop) (I : Nat → OptState P → Prop) : Prop where
  update : ∀ epoch b (i : Inner P S K), B b → c.flags.length = i.adam.length → AllHave I i.adam → ∀ (j : Nat) (a : OptState P) g, i.adam[j]? = some a → c.flags[j]? = some true →
    (c.grad epoch b i.mstate (c.split i.mrng).2 (i.adam.map (·.params))).1[(c.flags.take j).count true]? = some g → I j (c.update g a)
  counter : ∀ j (a : OptState P) n, I j a → I j { a with epoch := n }
  callback : ∀ k e (ps : List P), (c.callback k e ps).2 = ps

theorem steps_all {B : Data α → Prop} {I : Nat → OptState P → Prop} (hI : KeptOn c B I) {epoch : Nat} {bs : List (Data α)} {i i' : Inner P S K}
    (hl : c.flags.length = i.adam.length) (h : Steps c epoch bs i i') (hB : ∀ b ∈ bs, B b) (ha : AllHave I i.adam) : AllHave I i'.adam := by
  induction h with
  | nil i => exact ha
  | @cons b bs i i' adam hg _ ih =>
    obtain ⟨h1, h2⟩ := applyGrads_inv hl hg
    refine ih (by simp [h1, hl]) (fun b hb => hB b (List.mem_cons_of_mem _ hb)) ?_
    intro j x hx
    have hj : j < i.adam.length := by rw [← h1]; exact (List.getElem?_eq_some_iff.1 hx).1
    have ea : i.adam[j]? = some i.adam[j] := List.getElem?_eq_getElem hj
    have e : c.flags[j]? = some (c.flags[j]'(by omega)) := List.getElem?_eq_getElem (by omega)
    cases hf : c.flags[j]'(by omega) with
    | false =>
      rw [hf] at e
      have := (h2 j _ ea).1 e
      have hx' : adam[j]? = some x := hx
      rw [this] at hx'
      cases hx'
      exact ha j _ ea
    | true =>
      rw [hf] at e
      obtain ⟨d, hd, ho⟩ := (h2 j _ ea).2 e
      have hx' : adam[j]? = some x := hx
      rw [ho] at hx'
      cases hx'
      exact hI.update epoch b i (hB b List.mem_cons_self) hl ha j _ d ea e hd

theorem finish_all {B : Data α → Prop} {I : Nat → OptState P → Prop} (hI : KeptOn c B I) {s s' : TState P S K F} {k : K} {snap : Snap P S K F}
    (hl : c.flags.length = snap.inner.adam.length) (h : epochFinish c s k snap = .ok s') (ha : AllHave I snap.inner.adam) : AllHave I s'.inner.adam := by
  obtain ⟨h1, rfl⟩ := epochFinish_inv h
  have hp := hI.callback k s.epoch (snap.inner.adam.map (·.params))
  intro j x hx
  have hj : j < snap.inner.adam.length := by
    have := (List.getElem?_eq_some_iff.1 hx).1
    simp only [List.length_zipWith] at this
    omega
  have ea : snap.inner.adam[j]? = some snap.inner.adam[j] := List.getElem?_eq_getElem hj
  have e : c.flags[j]? = some (c.flags[j]'(by omega)) := List.getElem?_eq_getElem (by omega)
  simp only [hp, List.getElem?_zipWith, e, List.getElem?_map, ea, Option.map_some, Option.some.injEq] at hx
  subst hx
  exact hI.counter j _ _ (ha j _ ea)

theorem run_on {B : Data α → Prop} {I : Nat → OptState P → Prop} (hI : KeptOn c B I) {k : K} {adam : List (OptState P)} {st : S} {rng : K}
    {t : TState P S K F} (hB : ∀ s k snap, epochTrain c s = .ok (k, snap) → ∃ bs, Steps c s.epoch bs s.inner snap.inner ∧ ∀ b ∈ bs, B b)
    (hl : c.flags.length = adam.length) (h : run c k adam st rng = .ok t) (ha : AllHave I adam) :
    AllHave I t.inner.adam ∧ AllHave I t.best.inner.adam := by
  obtain ⟨s, l, hs, hh⟩ := run_inv h
  obtain ⟨-, hi, hb, -⟩ := initial_inv hs
  have hbi : s.best.inner = s.inner := by rw [hb]
  have hadam : s.inner.adam = adam := by rw [hi]
  have key : ∀ {s t : TState P S K F} {l : List (Snap P S K F)}, History c s l t → c.flags.length = s.inner.adam.length → AllHave I s.inner.adam →
      AllHave I s.best.inner.adam → AllHave I t.inner.adam ∧ AllHave I t.best.inner.adam := by
    intro s t l h
    induction h with
    | stop _ => exact fun _ ha hb => ⟨ha, hb⟩
    | @epoch s k snap s' l t _ ht hf _ ih =>
      intro hl ha hb
      obtain ⟨bs, h2, hb2⟩ := hB _ _ _ ht
      have a1 := (steps_frozen hl h2).1
      have b1 := (finish_frozen (c := c) (by omega) hf).1
      have hs := steps_all hI hl h2 hb2 ha
      have hbest : s'.best = if c.lt snap.loss s.best.loss then snap else s.best := by rw [(epochFinish_inv hf).2]
      refine ih (by omega) (finish_all hI (by omega) hf hs) ?_
      rw [hbest]
      split
      · exact hs
      · exact hb
  exact key hh (by rw [hadam, hl]) (by rw [hadam]; exact ha) (by rw [hbi, hadam]; exact ha)

/-- Properties of the arrays that every update keeps if all arrays have theirs, and that counters and callback keep. -/
structure KeptAll (c : Cfg α P S K F) (I : Nat → OptState P → Prop) : Prop where
  update : ∀ epoch b (i : Inner P S K), AllHave I i.adam → ∀ (j : Nat) (a : OptState P) g, i.adam[j]? = some a → c.flags[j]? = some true →
    (c.grad epoch b i.mstate (c.split i.mrng).2 (i.adam.map (·.params))).1[(c.flags.take j).count true]? = some g → I j (c.update g a)
  counter : ∀ j (a : OptState P) n, I j a → I j { a with epoch := n }
  callback : ∀ k e (ps : List P), (c.callback k e ps).2 = ps

theorem run_all {I : Nat → OptState P → Prop} (hI : KeptAll c I) {k : K} {adam : List (OptState P)} {st : S} {rng : K}
    {t : TState P S K F} (hl : c.flags.length = adam.length) (h : run c k adam st rng = .ok t) (ha : AllHave I adam) :
    AllHave I t.inner.adam ∧ AllHave I t.best.inner.adam :=
  run_on (B := fun _ => True) ⟨fun epoch b i _ _ => hI.update epoch b i, hI.counter, hI.callback⟩
    (fun s k snap h => by
      obtain ⟨bs, -, h2, -⟩ := epochTrain_inv h
      exact ⟨bs, h2, fun _ _ => trivial⟩) hl h ha

end Verif.HermTrain
