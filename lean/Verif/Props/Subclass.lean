import Verif.Spec.Subclass
import Verif.Lemmas.TreeDec

/-!
# C99: classes of modules that can be defined
-/

namespace Verif.Props
open Subclass

theorem checkInit_ok : ∀ (ps : List Param), Subclass.checkInit ps = .ok () ↔ ∀ p ∈ ps, p.name = "self".toList ∨ p.MayBeLeftOut
  | [] => by simp [Subclass.checkInit]
  | p :: ps => by
    have ih := checkInit_ok ps
    unfold Subclass.checkInit
    split
    · next h => rw [ih]; simp [h]
    · next h =>
      split
      · next h2 =>
        simp only [Bool.and_eq_true, Bool.not_eq_true', Bool.or_eq_false_iff, decide_eq_false_iff_not] at h2
        constructor
        · intro e; cases e
        · intro e
          rcases e p (by simp) with e | e | e | e
          · exact absurd e h
          · rw [h2.1] at e; cases e
          · exact absurd e h2.2.1
          · exact absurd e h2.2.2
      · next h2 =>
        rw [ih]
        constructor
        · intro e q hq
          rcases List.mem_cons.1 hq with rfl | hq
          · right
            unfold Param.MayBeLeftOut
            by_cases h3 : q.hasDefault = true
            · exact .inl h3
            · right
              have : q.hasDefault = false := by simpa using h3
              by_cases h4 : q.kind = .varPositional
              · exact .inl h4
              · right
                by_cases h5 : q.kind = .varKeyword
                · exact h5
                · simp [this, h4, h5] at h2
          · exact e q hq
        · intro e q hq
          exact e q (by simp [hq])

theorem checkInit_cases (ps : List Param) : Subclass.checkInit ps = .ok () ∨ Subclass.checkInit ps = .error .typeError := by
  induction ps with
  | nil => exact .inl rfl
  | cons p ps ih =>
    unfold Subclass.checkInit
    split
    · exact ih
    · split
      · exact .inr rfl
      · exact ih

/-- **C99** A concrete class whose constructor calls its first parameter `self` and no other one is accepted exactly if it has a version that is one and can be constructed
without arguments, as loading does. -/
theorem C99_constructible (valid : Str → Bool) (b : Body) (bases : List Body) (p : Param) (ps : List Param) (hc : isAbstract (b :: bases) = false)
    (hi : constructor (b :: bases) = some (p :: ps)) (hp : p.name = "self".toList) (hk : p.kind = .positionalOnly ∨ p.kind = .positionalOrKeyword)
    (hs : ∀ q ∈ ps, q.name ≠ "self".toList) :
    (∃ b', initSubclass valid b bases = .ok b') ↔
      (∃ v, (b :: bases).findSome? (·.version) = some v ∧ valid v = true) ∧ TakesObjectOnly (p :: ps) := by
  have hi' : (b :: bases).findSome? (·.init) = some (p :: ps) := hi
  have hck : Subclass.checkInit (p :: ps) = .ok () ↔ TakesObjectOnly (p :: ps) := by
    rw [checkInit_ok]
    constructor
    · intro h
      refine ⟨by rcases hk with h | h <;> simp [h], fun q hq => ?_⟩
      rcases h q (by simp [hq]) with e | e
      · exact absurd e (hs q hq)
      · exact e
    · rintro ⟨_, h⟩ q hq
      rcases List.mem_cons.1 hq with rfl | hq
      · exact .inl hp
      · exact .inr (h q hq)
  unfold initSubclass
  rw [hc, hi']
  simp only [Bool.false_eq_true, if_false, Option.getD_some]
  unfold checkVersion
  cases hv : (b :: bases).findSome? (·.version) with
  | none => simp
  | some v =>
    simp only
    by_cases hvv : valid v = true
    · rw [if_pos hvv]
      simp only [Option.some.injEq, exists_eq_left', hvv, true_and]
      rcases checkInit_cases (p :: ps) with e | e
      · rw [e]
        simp only
        exact ⟨fun _ => hck.1 e, fun _ => ⟨_, rfl⟩⟩
      · rw [e]
        simp only
        constructor
        · rintro ⟨_, h⟩; cases h
        · intro h
          rw [hck.2 h] at e; cases e
    · rw [if_neg hvv]
      simp only [Option.some.injEq, exists_eq_left']
      constructor
      · rintro ⟨_, h⟩; cases h
      · rintro ⟨h, _⟩; exact absurd h hvv

/-- `self` as usual. -/
def selfParam : Param := ⟨"self".toList, .positionalOrKeyword, false⟩

/-- A class like `Bias`: a callable method, a property, and `__init__(self, size=None, **kwargs)`. -/
def biasBody : Body := ⟨[("__init__".toList, ⟨true, false, false⟩), ("compile".toList, ⟨true, false, false⟩), ("name".toList, ⟨false, false, false⟩)], some "0.0.0".toList,
  some [selfParam, ⟨"size".toList, .positionalOrKeyword, true⟩, ⟨"kwargs".toList, .varKeyword, false⟩]⟩

/-- An abstract class with one abstract and one concrete method. -/
def abstractBody : Body := ⟨[("compile".toList, ⟨true, false, true⟩), ("train".toList, ⟨true, false, false⟩)], none, some [selfParam]⟩

example : isAbstract [biasBody, abstractBody] = false ∧ constructor [biasBody, abstractBody] = biasBody.init ∧
    initSubclass (fun v => v == "0.0.0".toList) biasBody [abstractBody] = .ok { biasBody with members :=
      [("__init__".toList, ⟨true, true, false⟩), ("compile".toList, ⟨true, true, false⟩), ("name".toList, ⟨false, false, false⟩)] } ∧
    initSubclass (fun _ => true) { biasBody with init := some [selfParam, ⟨"size".toList, .keywordOnly, false⟩] } [abstractBody] = .error .typeError ∧
    initSubclass (fun _ => true) { biasBody with version := none } [abstractBody] = .error .runtimeError ∧
    initSubclass (fun _ => false) biasBody [abstractBody] = .error .valueError := by decide +kernel

/-- **C99, refuted**: the check goes by the name `self`, not by the place. A class that calls the new object `this` is refused although it can be constructed without arguments. -/
theorem C99_name_refuted : ¬ ∀ (b : Body) (bases : List Body) (ps : List Param), isAbstract (b :: bases) = false → constructor (b :: bases) = some ps → TakesObjectOnly ps →
    ∃ b', initSubclass (fun _ => true) b bases = .ok b' := by
  intro h
  have e : initSubclass (fun _ => true) { biasBody with init := some [⟨"this".toList, .positionalOrKeyword, false⟩] } [abstractBody] = .error .typeError := by decide +kernel
  obtain ⟨b', hb⟩ := h { biasBody with init := some [⟨"this".toList, .positionalOrKeyword, false⟩] } [abstractBody] _ (by decide +kernel) rfl
    ⟨.inr (.inl rfl), by simp⟩
  rw [e] at hb; cases hb

/-- **C99, refuted**: a required keyword called `self` is overlooked, so a class that cannot be constructed without arguments is accepted. -/
theorem C99_keyword_refuted : ¬ ∀ (b b' : Body) (bases : List Body) (ps : List Param), isAbstract (b :: bases) = false → constructor (b :: bases) = some ps →
    initSubclass (fun _ => true) b bases = .ok b' → TakesObjectOnly ps := by
  intro h
  have := h { biasBody with init := some [⟨"args".toList, .varPositional, false⟩, ⟨"self".toList, .keywordOnly, false⟩] } _ [abstractBody] _ (by decide +kernel) rfl rfl
  obtain ⟨_, h2⟩ := this
  have h3 := h2 ⟨"self".toList, .keywordOnly, false⟩ (by simp)
  rcases h3 with h3 | h3 | h3 <;> cases h3

/-- **C99**, what is type-checked: defining a concrete class marks exactly the callables among its own members, and changes nothing else. -/
theorem C99_checked (valid : Str → Bool) (b b' : Body) (bases : List Body) (h : initSubclass valid b bases = .ok b') :
    (isAbstract (b :: bases) = true → b' = b) ∧
    (isAbstract (b :: bases) = false → b'.version = b.version ∧ b'.init = b.init ∧
      ∀ n, b'.members.lookup n = (b.members.lookup n).map fun m => { m with checked := m.checked || m.callable }) := by
  unfold initSubclass at h
  split at h
  · next ha =>
    simp only [Except.ok.injEq] at h
    exact ⟨fun _ => h.symm, fun e => by rw [ha] at e; cases e⟩
  · next ha =>
    refine ⟨fun e => absurd e ha, fun _ => ?_⟩
    split at h
    · cases h
    · split at h
      · cases h
      · simp only [Except.ok.injEq] at h
        subst h
        refine ⟨rfl, rfl, fun n => ?_⟩
        show (wrap b.members).lookup n = _
        induction b.members with
        | nil => rfl
        | cons p ms ih =>
          obtain ⟨k, m⟩ := p
          have e : wrap ((k, m) :: ms) = (k, { m with checked := m.checked || m.callable }) :: wrap ms := by
            obtain ⟨c, ch, a⟩ := m
            cases c <;> cases ch <;> rfl
          rw [e, List.lookup_cons, List.lookup_cons]
          cases hn : n == k
          · exact ih
          · rfl

/-- All callables that objects of a class have are type-checked. -/
def AllChecked (mro : List Body) : Prop := ∀ n m, Subclass.lookup mro n = some m → m.callable = true → m.checked = true

/-- **C99**, type checks of all methods: if those of the ancestors are checked, then those of a concrete class are. -/
theorem C99_all_checked_partial (valid : Str → Bool) (b b' : Body) (bases : List Body) (hb : AllChecked bases) (hc : isAbstract (b :: bases) = false)
    (h : initSubclass valid b bases = .ok b') : AllChecked (b' :: bases) := by
  intro n m hl hcall
  have := ((C99_checked valid b b' bases h).2 hc).2.2 n
  rw [Subclass.lookup, List.findSome?_cons] at hl
  rw [this] at hl
  cases hm : b.members.lookup n with
  | none =>
    rw [hm] at hl
    exact hb n m hl hcall
  | some m0 =>
    rw [hm] at hl
    simp only [Option.map_some, Option.some.injEq] at hl
    subst hl
    simp only at hcall ⊢
    rw [hcall, Bool.or_true]

/-- **C99, refuted**: methods that a concrete class inherits from an abstract one are not type-checked. -/
theorem C99_inherited_refuted (valid : Str → Bool) (a a' c c' : Body) (bases : List Body) (n : Str) (m : Member) (ha : isAbstract (a :: bases) = true)
    (h1 : initSubclass valid a bases = .ok a') (hn : a.members.lookup n = some m) (hm : m.checked = false) (h2 : initSubclass valid c (a' :: bases) = .ok c')
    (hcn : c.members.lookup n = none) : Subclass.lookup (c' :: a' :: bases) n = some m := by
  have e1 := (C99_checked valid a a' bases h1).1 ha
  subst e1
  have e2 : c'.members.lookup n = none := by
    cases hc : isAbstract (c :: a' :: bases) with
    | true => rw [(C99_checked valid c c' _ h2).1 hc]; exact hcn
    | false => rw [((C99_checked valid c c' _ h2).2 hc).2.2 n, hcn]; rfl
  rw [Subclass.lookup, List.findSome?_cons, e2]
  simp only
  rw [List.findSome?_cons, hn]

example : isAbstract [abstractBody] = true ∧ initSubclass (fun _ => true) abstractBody [] = .ok abstractBody ∧ biasBody.members.lookup "train".toList = none ∧
    abstractBody.members.lookup "train".toList = some ⟨true, false, false⟩ ∧ (∃ c', initSubclass (fun _ => true) biasBody [abstractBody] = .ok c') :=
  ⟨by decide +kernel, by decide +kernel, by decide +kernel, by decide +kernel, { biasBody with members := wrap biasBody.members }, by decide +kernel⟩

example : AllChecked [] := by intro n m h; cases h

end Verif.Props
