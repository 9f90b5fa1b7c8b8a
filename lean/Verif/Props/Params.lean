import Verif.Lemmas.Params
import Verif.Lemmas.TreeDec
import Verif.Props.ModelDisk

/-!
# C84: reading and setting the parameters and states of models

`Gets w n o p r v` says that the object `r` of the module `o` is given the part `v` of the tree `p`, because `v` sits in `p` where `r` sits in the modules; `refs` lists the objects. Models may be
nested to any depth `n`.
-/

namespace Verif.Props
open Tree ForwardSpec Params ParamsSpec

variable {X A : Type}

/-- **C84** A call of `set_params` or `set_state` succeeds exactly if the values have a part for every module and every module accepts its part. -/
theorem C84_success (w : What) (set : X → Tree A → X × Option PyErr) (n : Nat) (o : Node n) (p : Tree A) (h : Nat → X) (hk : KeysAll n o) (hp : KeysOk p) (hn : (refs n o).Nodup) :
    (setAll w set n o p h).2 = Option.none ↔ Fits w n o p ∧ ∀ r v, Gets w n o p r v → (set (h r) v).2 = Option.none := by
  constructor
  · intro he
    obtain ⟨h1, h2⟩ := setAll_ok n o p h (setAll w set n o p h).1 hk hp hn (Prod.ext rfl he)
    exact ⟨h1, fun r v hg => by rw [h2 r v hg]⟩
  · rintro ⟨h1, h2⟩
    exact setAll_total n o p h hk hp hn h1 h2

theorem gets_exists : ∀ (n : Nat) (o : Node n) (p : Tree A), KeysAll n o → KeysOk p → Fits .params n o p → ∀ r ∈ refs n o, ∃ v, Gets .params n o p r v
  | 0, r', p, _, _, _, r, hr => ⟨p, (List.mem_singleton.1 hr).symm, rfl⟩
  | _ + 1, .inl r', p, _, _, _, r, hr => ⟨p, (List.mem_singleton.1 hr).symm, rfl⟩
  | n + 1, .inr t, p, hk, hp, hf, r, hr => by
    rcases hf with ⟨hf, _⟩ | ⟨hpre, hf⟩
    · cases hf
    obtain ⟨o, ho, hr⟩ := List.mem_flatMap.1 hr
    obtain ⟨q, hq⟩ := mem_flat_at.1 ho
    obtain ⟨z, hz⟩ := (zipPre_prefix hk.1 hp).2 hpre
    have : At (map Prod.fst z) q o := by rw [zipPre_fst _ _ hz]; exact at_norm.2 hq
    obtain ⟨⟨o', u⟩, hat, rfl⟩ := at_map.1 this
    have hu := zipPre_at hz hat
    obtain ⟨v, hv⟩ := gets_exists n o' u (hk.2 q _ hq) (keysOk_sub hp hu) (hf q _ _ hq hu) r hr
    exact ⟨v, (by rintro ⟨h, _⟩; cases h), q, o', u, hq, hu, hv⟩

/-- **C84** What a successful call does: every object becomes what its own setter makes of it and of the part in its place, and no other object changes. With `set_params` every object of the model is
given a part. -/
theorem C84_effect (w : What) (set : X → Tree A → X × Option PyErr) (n : Nat) (o : Node n) (p : Tree A) (h h' : Nat → X) (hk : KeysAll n o) (hp : KeysOk p) (hn : (refs n o).Nodup)
    (he : setAll w set n o p h = (h', Option.none)) :
    (∀ r v, Gets w n o p r v → h' r = (set (h r) v).1) ∧ (∀ r ∉ refs n o, h' r = h r) ∧ (w = .params → ∀ r ∈ refs n o, ∃ v, Gets w n o p r v) := by
  obtain ⟨h1, h2⟩ := setAll_ok n o p h h' hk hp hn he
  refine ⟨fun r v hg => by rw [h2 r v hg], fun r hr => ?_, ?_⟩
  · have := setAll_frame (w := w) (set := set) n o p h r hr
    rw [he] at this
    exact this
  · rintro rfl
    exact gets_exists n o p hk hp h1

/-- **C84** Parameters that were set are those that are read, up to the order of the entries of dictionaries, if every module holds what it was given. -/
theorem C84_set_get (get : X → Tree A) (set : X → Tree A → X × Option PyErr) : ∀ (n : Nat) (o : Node n) (p : Tree A) (h h' : Nat → X), KeysAll n o → KeysOk p → (refs n o).Nodup →
    setAll .params set n o p h = (h', Option.none) → (∀ r v, Gets .params n o p r v → norm (get (set (h r) v).1) = norm v) → norm (getAll get n o h') = norm p := by
  intro n o p h h' hk hp hn he hst
  obtain ⟨h1, h2⟩ := setAll_ok n o p h h' hk hp hn he
  have hread : ∀ r v, Gets .params n o p r v → norm (get (h' r)) = norm v := fun r v hg => by
    have := hst r v hg
    rwa [h2 r v hg] at this
  clear h2 hst he hn
  induction n generalizing p with
  | zero => exact hread o p ⟨rfl, rfl⟩
  | succ n ih =>
    cases o with
    | inl r => exact hread r p ⟨rfl, rfl⟩
    | inr t =>
      rcases h1 with ⟨h1, _⟩ | ⟨hpre, hf⟩
      · cases h1
      obtain ⟨z, hz⟩ := (zipPre_prefix hk.1 hp).2 hpre
      have hfst := zipPre_fst _ _ hz
      have hzs : norm z = z := norm_of_sorted _ ((sorted_map Prod.fst z).1 (by rw [hfst]; exact sorted_norm t hk.1))
      show norm (Tree.bind (fun o => getAll get n o h') (norm t)) = _
      rw [norm_bind, norm_norm hk.1, ← hfst, bind_map, ← zipPre_back _ _ (keysOk_norm' hk.1) hp hz, norm_bind, hzs]
      refine bind_congr _ fun x hx => ?_
      obtain ⟨q, hq, hu⟩ := (zipPre_mem hk.1 hp hz).1 (show (x.1, x.2) ∈ flat z from hx)
      exact ih x.1 x.2 (hk.2 q _ hq) (keysOk_sub hp hu) (hf q _ _ hq hu) fun r v hg => hread r v ⟨(by rintro ⟨h, _⟩; cases h), q, x.1, x.2, hq, hu, hg⟩

theorem setEach_self {O P : Type} {f : O → P → (Nat → X) → (Nat → X) × Option PyErr} {h : Nat → X} : ∀ (l : List (O × P)), (∀ x ∈ l, f x.1 x.2 h = (h, Option.none)) →
    setEach f l h = (h, Option.none)
  | [], _ => rfl
  | (o, p) :: l, hl => by
    unfold setEach
    rw [show f o p h = (h, Option.none) from hl _ List.mem_cons_self]
    exact setEach_self l fun x hx => hl x (List.mem_cons_of_mem _ hx)

theorem setObj_self {set : X → Tree A → X × Option PyErr} {h : Nat → X} {r : Nat} {p : Tree A} (hs : set (h r) p = (h r, Option.none)) : setObj set r p h = (h, Option.none) := by
  unfold setObj
  rw [hs]
  simp only [Function.update_eq_self]

/-- **C84** Setting what was read is accepted and changes nothing, if this is so of every module. (Here one object may be several modules.) -/
theorem C84_get_set (w : What) (get : X → Tree A) (set : X → Tree A → X × Option PyErr) (h : Nat → X) : ∀ (n : Nat) (o : Node n), KeysAll n o →
    (∀ r ∈ refs n o, set (h r) (get (h r)) = (h r, Option.none)) → setAll w set n o (getAll get n o h) h = (h, Option.none)
  | 0, r, _, hs => setObj_self (hs r (List.mem_singleton.2 rfl))
  | _ + 1, .inl r, _, hs => setObj_self (hs r (List.mem_singleton.2 rfl))
  | n + 1, .inr t, hk, hs => by
    rw [setAll_model]
    split
    · rfl
    have hz := zipPre_bind id (fun o => getAll get n o h) (norm t) (keysOk_norm' hk.1)
    rw [show map id (norm t) = norm t from map_id _] at hz
    rw [show getAll get (n + 1) (.inr t) h = Tree.bind (fun o => getAll get n o h) (norm t) from rfl, hz]
    simp only
    rw [setEach_self _ fun x hx => ?_]
    rw [flat_map'] at hx
    obtain ⟨o, ho, rfl⟩ := List.mem_map.1 hx
    obtain ⟨q, hq⟩ := mem_flat_at.1 (mem_flat_norm.1 ho)
    exact C84_get_set w get set h n o (hk.2 q o hq) fun r hr => hs r (List.mem_flatMap.2 ⟨o, mem_flat_norm.1 ho, hr⟩)

/-- **C84** Values without a part for every module are refused with `ValueError` before anything is changed. -/
theorem C84_mismatch (w : What) (set : X → Tree A → X × Option PyErr) (n : Nat) (t : Tree (Node n)) (p : Tree A) (h : Nat → X) (hk : KeysOk t) (hp : KeysOk p) (hs : ¬(w = .state ∧ p = .none))
    (hm : ¬Prefix t p) : setAll w set (n + 1) (.inr t) p h = (h, some .valueError) := by
  rw [setAll_model, if_neg fun e => hs (skips_iff.1 e)]
  cases hz : zipPre (norm t) p with
  | ok z => exact absurd ((zipPre_prefix hk hp).1 ⟨z, hz⟩) hm
  | error e =>
    cases zipPre_error _ _ _ hz
    cases w <;> rfl

/-- **C84** `set_state(None)` changes nothing, and every failure of `set_state` of a model is a `ValueError`. -/
theorem C84_state (set : X → Tree A → X × Option PyErr) (n : Nat) (t : Tree (Node n)) (h : Nat → X) :
    setAll .state set (n + 1) (.inr t) .none h = (h, Option.none) ∧
      ∀ p e, (setAll .state set (n + 1) (.inr t) p h).2 = some e → e = .valueError := by
  refine ⟨rfl, fun p e he => ?_⟩
  rw [setAll_model] at he
  split at he
  · cases he
  split at he
  · cases he; rfl
  · rename_i z hz
    cases hs : setEach (setAll .state set n) (flat z) h with
    | mk h' e' =>
      rw [hs] at he
      cases e' with
      | none => cases he
      | some e' => cases he; rfl

theorem sub_at {p q : List ForwardSpec.Step} {a : A} {t u : Tree A} (h : Sub t p u) (ha : At u q a) : At t (p ++ q) a := by
  induction h with
  | here t => exact ha
  | list hi _ ih => exact .list hi (ih ha)
  | tuple hi _ ih => exact .tuple hi (ih ha)
  | dict hm _ ih => exact .dict hm (ih ha)

mutual
theorem at_bind {α β : Type} (f : α → Tree β) : ∀ (t : Tree α) (s : List ForwardSpec.Step) (b : β), At (Tree.bind f t) s b ↔ ∃ q a s', s = q ++ s' ∧ At t q a ∧ At (f a) s' b
  | .leaf a, s, b => by
    constructor
    · intro h
      exact ⟨[], a, s, rfl, .leaf a, h⟩
    · rintro ⟨q, a', s', rfl, h1, h2⟩
      cases h1
      exact h2
  | .none, s, b => by
    constructor
    · intro h; cases h
    · rintro ⟨q, a', s', rfl, h1, h2⟩; cases h1
  | .list ts, s, b => by
    constructor
    · intro h
      rw [Tree.bind] at h
      cases h with
      | list hi h =>
        obtain ⟨t, q, a, s', ht, hs, h1, h2⟩ := (at_bindL f ts _ _ _).1 ⟨_, hi, h⟩
        exact ⟨_, a, s', by rw [hs]; rfl, .list ht h1, h2⟩
    · rintro ⟨q, a', s', rfl, h1, h2⟩
      cases h1 with
      | list hi h1 =>
        obtain ⟨u, hu, h⟩ := (at_bindL f ts _ _ b).2 ⟨_, _, _, s', hi, rfl, h1, h2⟩
        exact .list hu h
  | .tuple ts, s, b => by
    constructor
    · intro h
      rw [Tree.bind] at h
      cases h with
      | tuple hi h =>
        obtain ⟨t, q, a, s', ht, hs, h1, h2⟩ := (at_bindL f ts _ _ _).1 ⟨_, hi, h⟩
        exact ⟨_, a, s', by rw [hs]; rfl, .tuple ht h1, h2⟩
    · rintro ⟨q, a', s', rfl, h1, h2⟩
      cases h1 with
      | tuple hi h1 =>
        obtain ⟨u, hu, h⟩ := (at_bindL f ts _ _ b).2 ⟨_, _, _, s', hi, rfl, h1, h2⟩
        exact .tuple hu h
  | .dict ts, s, b => by
    constructor
    · intro h
      rw [Tree.bind] at h
      cases h with
      | dict hi h =>
        obtain ⟨t, q, a, s', ht, hs, h1, h2⟩ := (at_bindD f ts _ _ _).1 ⟨_, hi, h⟩
        exact ⟨_, a, s', by rw [hs]; rfl, .dict ht h1, h2⟩
    · rintro ⟨q, a', s', rfl, h1, h2⟩
      cases h1 with
      | dict hi h1 =>
        obtain ⟨u, hu, h⟩ := (at_bindD f ts _ _ b).2 ⟨_, _, _, s', hi, rfl, h1, h2⟩
        exact .dict hu h
theorem at_bindL {α β : Type} (f : α → Tree β) : ∀ (ts : List (Tree α)) (i : Nat) (s : List ForwardSpec.Step) (b : β),
    (∃ u, (bindL f ts)[i]? = some u ∧ At u s b) ↔ ∃ t q a s', ts[i]? = some t ∧ s = q ++ s' ∧ At t q a ∧ At (f a) s' b
  | [], i, s, b => by simp [bindL]
  | t :: ts, 0, s, b => by
    rw [bindL]
    simp only [List.getElem?_cons_zero, Option.some.injEq]
    constructor
    · rintro ⟨u, rfl, h⟩
      obtain ⟨q, a, s', h⟩ := (at_bind f t s b).1 h
      exact ⟨t, q, a, s', rfl, h⟩
    · rintro ⟨t', q, a, s', rfl, h⟩
      exact ⟨_, rfl, (at_bind f t s b).2 ⟨q, a, s', h⟩⟩
  | t :: ts, i + 1, s, b => by
    rw [bindL]
    simp only [List.getElem?_cons_succ]
    exact at_bindL f ts i s b
theorem at_bindD {α β : Type} (f : α → Tree β) : ∀ (ts : List (Str × Tree α)) (k : Str) (s : List ForwardSpec.Step) (b : β),
    (∃ u, (k, u) ∈ bindD f ts ∧ At u s b) ↔ ∃ t q a s', (k, t) ∈ ts ∧ s = q ++ s' ∧ At t q a ∧ At (f a) s' b
  | [], k, s, b => by simp [bindD]
  | (k', t) :: ts, k, s, b => by
    rw [bindD]
    constructor
    · rintro ⟨u, hm, h⟩
      rcases List.mem_cons.1 hm with e | hm
      · cases e
        obtain ⟨q, a, s', h⟩ := (at_bind f t s b).1 h
        exact ⟨t, q, a, s', List.mem_cons_self, h⟩
      · obtain ⟨t, q, a, s', hm, h⟩ := (at_bindD f ts k s b).1 ⟨u, hm, h⟩
        exact ⟨t, q, a, s', List.mem_cons_of_mem _ hm, h⟩
    · rintro ⟨t', q, a, s', hm, h⟩
      rcases List.mem_cons.1 hm with e | hm
      · cases e
        exact ⟨_, List.mem_cons_self, (at_bind f t s b).2 ⟨q, a, s', h⟩⟩
      · obtain ⟨u, hm, h⟩ := (at_bindD f ts k s b).2 ⟨t', q, a, s', hm, h⟩
        exact ⟨u, List.mem_cons_of_mem _ hm, h⟩
end

/-- **C84** The parameters of a module sit where the module sits: a value sits at a place of the parameters of a model exactly if the place leads through the place of a module and then to the value
in the parameters of that module. -/
theorem C84_place (get : X → Tree A) (n : Nat) (t : Tree (Node n)) (h : Nat → X) (s : List ForwardSpec.Step) (a : A) :
    At (getAll get (n + 1) (.inr t) h) s a ↔ ∃ q o s', s = q ++ s' ∧ At t q o ∧ At (getAll get n o h) s' a := by
  show At (Tree.bind _ (norm t)) s a ↔ _
  rw [at_bind]
  simp only [at_norm]

/-! ## What does not hold -/

/-- A module that refuses `0`. -/
def fussy (x p : Tree Nat) : Tree Nat × Option PyErr := if p = .leaf 0 then (x, some .valueError) else (p, Option.none)

/-- Two modules, the objects 0 and 1. -/
def two : Node 1 := .inr (.list [.leaf (show Node 0 from (0 : Nat)), .leaf (show Node 0 from (1 : Nat))])

/-- The same object twice. -/
def twice : Node 1 := .inr (.list [.leaf (show Node 0 from (0 : Nat)), .leaf (show Node 0 from (0 : Nat))])

/-- **C84** A refused call is not without effect: modules before the refusing one keep the new values. -/
theorem C84_atomic_refuted : ∃ (h h' : Nat → Tree Nat) (p : Tree Nat), setAll .params fussy 1 two p h = (h', some .valueError) ∧ h' 0 ≠ h 0 := by
  refine ⟨fun _ => .leaf 7, _, .list [.leaf 5, .leaf 0], rfl, ?_⟩
  decide +kernel

/-- **C84** A module object in two places holds the values of the last place, so that the values read are not those set. -/
theorem C84_shared_refuted : ∃ (h h' : Nat → Tree Nat) (p : Tree Nat), setAll .params fussy 1 twice p h = (h', Option.none) ∧ norm (getAll id 1 twice h') ≠ norm p := by
  refine ⟨fun _ => .leaf 7, _, .list [.leaf 5, .leaf 6], rfl, ?_⟩
  decide +kernel

/-! ## The library's modules -/

open ModelSer Ser ModelSpec

/-- The classes with parameters. -/
def HasParams : Lib → Prop
  | .affHerm | .affTensor | .expVal | .transAmp | .bias | .constant | .einsum | .matmul | .prelu => True
  | _ => False

theorem expVal_get {a b : Attrs Attr} {v : PyVal} (h : expValSetParams a v = .ok b) : b .Ds = v := by
  unfold expValSetParams at h
  split at h
  · split at h
    · split at h
      · cases h
      split at h
      · cases h
      cases h
      rfl
    · cases h
  · cases h

/-- **C84** A library module with parameters that accepts values holds exactly these values; one without parameters accepts everything and holds nothing. -/
theorem C84_library (x : LibObj) (v : PyVal) :
    (HasParams x.1 → ∀ x', libSet x v = (x', Option.none) → libGet x' = v) ∧ (¬HasParams x.1 → libSet x v = (x, Option.none) ∧ libGet x = .tuple []) := by
  obtain ⟨l, m⟩ := x
  constructor
  · intro hl x' hx
    have key : ∀ a, l.cls.setParams m.attrs v = .ok a → l.cls.getParams a = v := by
      intro a ha
      cases l with
      | affHerm =>
        have ha : affHermSetParams m.attrs v = .ok a := ha
        show a .Ms = v
        unfold affHermSetParams at ha
        split at ha
        · split at ha
          · split at ha
            · cases ha
            split at ha
            · cases ha
            cases ha
            rfl
          · cases ha
        · cases ha
      | affTensor =>
        have ha : affTensorSetParams m.attrs v = .ok a := ha
        show a .Ms = v
        unfold affTensorSetParams at ha
        split at ha
        · split at ha
          · split at ha
            · cases ha
            cases ha
            rfl
          · cases ha
        · cases ha
      | expVal => exact expVal_get ha
      | transAmp => exact expVal_get ha
      | bias =>
        have ha : biasSetParams m.attrs v = .ok a := ha
        show a .bias = v
        unfold biasSetParams at ha
        (repeat' split at ha) <;> first | (cases ha; rfl) | cases ha
      | constant => cases ha; rfl
      | einsum => cases ha; rfl
      | matmul => cases ha; rfl
      | prelu =>
        have ha : preluSetParams m.attrs v = .ok a := ha
        show a .a = v
        unfold preluSetParams at ha
        split at ha
        · cases ha; rfl
        · cases ha; rfl
        split at ha
        · split at ha
          · split at ha
            · cases ha; rfl
            · cases ha
          · split at ha
            · cases ha; rfl
            · cases ha
          · split at ha
            · cases ha; rfl
            · cases ha
          · cases ha
        · split at ha
          · cases ha; rfl
          · cases ha
      | _ => exact hl.elim
    unfold libSet at hx
    split at hx
    · rename_i a ha
      cases hx
      exact key a ha
    · cases hx
  · intro hl
    cases l <;> first | exact absurd trivial hl | exact ⟨rfl, rfl⟩

/-- **C84** A library module in a legal state accepts the parameters read from it, unchanged (`Held`: compiled where necessary). -/
theorem C84_library_again (l : Lib) (m : MObj Attr) (h : Held l m) : libSet (l, m) (libGet (l, m)) = ((l, m), Option.none) := by
  have := (C39_library [] [] l m h).again
  show libSet (l, m) (l.cls.getParams m.attrs) = _
  unfold libSet
  simp only [libOps, id] at this
  cases hs : l.cls.setParams m.attrs (l.cls.getParams m.attrs) with
  | error e => rw [hs] at this; cases this
  | ok a =>
    rw [hs] at this
    simp only [Except.map, Except.ok.injEq] at this
    simp only [this]

/-- A compiled matrix module. -/
example : libSet exMatrix (libGet exMatrix) = (exMatrix, Option.none) ∧ libGet exMatrix ≠ .none := ⟨C84_library_again _ _ exMatrix_held, by intro h; cases h⟩

/-- **C84** Values given to a module without parameters vanish: the call succeeds, and reading gives something else. -/
theorem C84_ignored_refuted : ∃ (x : LibObj) (h' : Nat → LibObj) (p : PyVal),
    setAll .params libSet 1 (.inr (.list [.leaf (show Node 0 from (0 : Nat))])) p (fun _ => x) = (h', Option.none) ∧
      norm (getAll libGet 1 (.inr (.list [.leaf (show Node 0 from (0 : Nat))])) h') ≠ norm p := by
  refine ⟨(.reshape, reshapeCls.new), _, .list [.leaf (.int 3)], rfl, ?_⟩
  intro h
  change Tree.list [Tree.tuple []] = Tree.list [Tree.leaf (Atom.int 3)] at h
  cases h

/-- **C84** The parameters of a module that is not compiled cannot be set again: it refuses the `None` read from it. -/
theorem C84_uncompiled_refuted : ∃ x : LibObj, libGet x = .none ∧ (libSet x (libGet x)).2 = some .valueError :=
  ⟨(.affHerm, Ser.affHerm.new), rfl, rfl⟩

/-! ## Concrete cases -/

/-- A model of one object and a model of two, in a dictionary. -/
def nestedNode : Node 2 := .inr (.dict [("b".toList, .leaf (.inr (.list [.leaf (show Node 0 from (1 : Nat)), .leaf (show Node 0 from (2 : Nat))]))), ("a".toList, .leaf (.inl 0))])

/-- Values for it. -/
def nestedVals : Tree Nat := .dict [("a".toList, .leaf 3), ("b".toList, .list [.tuple [.leaf 4, .leaf 5], .leaf 6])]

theorem nested_keys : KeysAll 2 nestedNode := by
  refine ⟨?_, ?_⟩
  · refine ⟨by decide, trivial, trivial, trivial⟩
  · intro q o h
    cases h with
    | dict hm h =>
      simp only [List.mem_cons, List.not_mem_nil, or_false] at hm
      rcases hm with hm | hm
      · cases hm
        cases h
        refine ⟨⟨trivial, trivial, trivial⟩, fun _ _ _ => trivial⟩
      · cases hm
        cases h
        trivial

/-- The hypotheses are met, and the call really changes three objects of two levels. -/
example : KeysAll 2 nestedNode ∧ KeysOk nestedVals ∧ (refs 2 nestedNode).Nodup ∧ (setAll .params fussy 2 nestedNode nestedVals fun _ => .leaf 9).2 = Option.none ∧
    ((List.range 4).map (setAll .params fussy 2 nestedNode nestedVals fun _ => .leaf 9).1) = [.leaf 3, .tuple [.leaf 4, .leaf 5], .leaf 6, .leaf 9] := by
  refine ⟨nested_keys, ⟨by decide, trivial, ⟨⟨trivial, trivial, trivial⟩, trivial, trivial⟩, trivial⟩, by decide, rfl, ?_⟩
  decide +kernel

example : Gets .params 2 nestedNode nestedVals 1 (.tuple [.leaf 4, .leaf 5]) := by
  refine ⟨(by rintro ⟨h, _⟩; cases h), [.key "b".toList], _, .list [.tuple [.leaf 4, .leaf 5], .leaf 6], .dict (List.mem_cons_self) (.leaf _), .dict (by simp) (.here _), ?_⟩
  exact ⟨(by rintro ⟨h, _⟩; cases h), [.idx 0], _, _, .list rfl (.leaf _), .list rfl (.here _), rfl, rfl⟩

/-- Values without a part for every module. -/
example : ¬Prefix (A := Nat) (Tree.list [Tree.leaf 0, Tree.leaf 1]) (.list [.leaf 5]) := by
  intro h
  obtain ⟨z, hz⟩ := (zipPre_prefix (show KeysOk (Tree.list [Tree.leaf 0, Tree.leaf 1]) from ⟨trivial, trivial, trivial⟩) (show KeysOk (Tree.list [Tree.leaf 5]) from ⟨trivial, trivial⟩)).2 h
  cases hz

end Verif.Props
