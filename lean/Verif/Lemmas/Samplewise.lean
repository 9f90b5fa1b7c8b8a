import Verif.Spec.Samplewise
import Verif.Lemmas.NonSeqShape
import Verif.Lemmas.Params
import Mathlib.Data.List.Forall2

/-! Computing sample by sample: the operations on trees. -/

namespace Verif
namespace Samplewise
open Tree

variable {A B C E : Type}

/-- Pairs of related values. -/
abbrev Pair (R : A → B → Prop) := {p : A × B // R p.1 p.2}

theorem related_iff {R : A → B → Prop} {t : Tree A} {u : Tree B} :
    Related R t u ↔ ∃ z : Tree (Pair R), t = map (fun p => p.1.1) z ∧ u = map (fun p => p.1.2) z := Iff.rfl

theorem related_leaf {R : A → B → Prop} {a : A} {b : B} (h : R a b) : Related R (.leaf a) (.leaf b) := ⟨.leaf ⟨(a, b), h⟩, rfl, rfl⟩

theorem related_leaf_inv {R : A → B → Prop} {a : A} {u : Tree B} (h : Related R (.leaf a) u) : ∃ b, u = .leaf b ∧ R a b := by
  obtain ⟨z, h1, h2⟩ := h
  cases z with
  | leaf p =>
    simp only [map, Tree.leaf.injEq] at h1
    subst h1
    exact ⟨p.1.2, h2, p.2⟩
  | _ => simp [map] at h1

/-- Results of related computations, as one computation of pairs. -/
theorem agree_iff {R : A → B → Prop} {x : Except PyErr (Tree A)} {y : Except PyErr (Tree B)} :
    Agree (Related R) x y ↔ ∃ w : Except PyErr (Tree (Pair R)), x = w.map (map fun p => p.1.1) ∧ y = w.map (map fun p => p.1.2) := by
  constructor
  · intro h
    cases x with
    | error e => cases y with
      | error e' => exact ⟨.error e, rfl, by rw [show e = e' from h]; rfl⟩
      | ok y => exact h.elim
    | ok x => cases y with
      | error e' => exact h.elim
      | ok y =>
        obtain ⟨z, rfl, rfl⟩ := (h : Related R x y)
        exact ⟨.ok z, rfl, rfl⟩
  · rintro ⟨w, rfl, rfl⟩
    cases w with
    | error e => rfl
    | ok z => exact ⟨z, rfl, rfl⟩

theorem agree_error {Q : A → B → Prop} (e : PyErr) : Agree Q (.error e) (.error e) := rfl

theorem agree_mono {Q Q' : A → B → Prop} {x y} (hQ : ∀ a b, Q a b → Q' a b) (h : Agree Q x y) : Agree Q' x y := by
  cases x <;> cases y
  · exact h
  · exact h.elim
  · exact h.elim
  · exact hQ _ _ h

/-- The two ways to agree. -/
theorem agree_cases {Q : A → B → Prop} {x y} (h : Agree Q x y) : (∃ e, x = .error e ∧ y = .error e) ∨ ∃ a b, x = .ok a ∧ y = .ok b ∧ Q a b := by
  cases x <;> cases y
  · exact .inl ⟨_, rfl, by rw [show _ = _ from h]⟩
  · exact h.elim
  · exact h.elim
  · exact .inr ⟨_, _, rfl, rfl, h⟩

/-- Continuing related computations. -/
theorem agree_bind {Q : A → B → Prop} {Q' : C → E → Prop} {x y} {k : A → Except PyErr C} {k' : B → Except PyErr E} (h : Agree Q x y)
    (hk : ∀ a b, Q a b → Agree Q' (k a) (k' b)) :
    Agree Q' (match (generalizing := false) x with | .error e => .error e | .ok a => k a) (match (generalizing := false) y with | .error e => .error e | .ok b => k' b) := by
  cases x <;> cases y
  · exact h
  · exact h.elim
  · exact h.elim
  · exact hk _ _ h

theorem mapM_related {R : A → B → Prop} {Q : C → E → Prop} {F : A → Except PyErr (Tree C)} {G : B → Except PyErr (Tree E)}
    (h : ∀ a b, R a b → Agree (Related Q) (F a) (G b)) {t u} (htu : Related R t u) : Agree (Related Q) (Tree.mapM F t) (Tree.mapM G u) := by
  obtain ⟨z, rfl, rfl⟩ := htu
  choose w h1 h2 using fun p : Pair R => agree_iff.1 (h p.1.1 p.1.2 p.2)
  refine agree_iff.2 ⟨Tree.mapM w z, ?_, ?_⟩
  · rw [mapM_comp, ← mapM_map]
    exact congrArg (fun f => Tree.mapM f z) (funext h1)
  · rw [mapM_comp, ← mapM_map]
    exact congrArg (fun f => Tree.mapM f z) (funext h2)

theorem map_related {R : A → B → Prop} {Q : C → E → Prop} {F : A → C} {G : B → E} (h : ∀ a b, R a b → Q (F a) (G b)) {t u} (htu : Related R t u) :
    Related Q (map F t) (map G u) := by
  obtain ⟨z, rfl, rfl⟩ := htu
  refine ⟨map (fun p => ⟨(F p.1.1, G p.1.2), h _ _ p.2⟩) z, ?_, ?_⟩
  · rw [Tree.map_map, Tree.map_map]
  · rw [Tree.map_map, Tree.map_map]

theorem map_related_self {Q : C → E → Prop} {F : A → C} {G : A → E} (h : ∀ a, Q (F a) (G a)) (t : Tree A) : Related Q (map F t) (map G t) := by
  refine ⟨map (fun a => ⟨(F a, G a), h a⟩) t, ?_, ?_⟩
  · rw [Tree.map_map]
  · rw [Tree.map_map]

theorem norm_related {R : A → B → Prop} {t u} (h : Related R t u) : Related R (Tree.norm t) (Tree.norm u) := by
  obtain ⟨z, rfl, rfl⟩ := h
  exact ⟨Tree.norm z, Tree.norm_map _ z, Tree.norm_map _ z⟩

theorem get_related {R : A → B → Prop} {t u} (h : Related R t u) (p : List Str) : Agree (Related R) (Tree.get t p) (Tree.get u p) := by
  obtain ⟨z, rfl, rfl⟩ := h
  exact agree_iff.2 ⟨Tree.get z p, get_map _ z p, get_map _ z p⟩

theorem set_related {R : A → B → Prop} {t u v w} (h : Related R t u) (hv : Related R v w) (p : List Str) :
    Agree (Related R) (Tree.set t p v) (Tree.set u p w) := by
  obtain ⟨z, rfl, rfl⟩ := h
  obtain ⟨y, rfl, rfl⟩ := hv
  exact agree_iff.2 ⟨Tree.set z p y, set_map _ y z p, set_map _ y z p⟩

theorem jaxMap_related {U : Type} {R : A → B → Prop} {Q : C → E → Prop} {F : A → List (Tree U) → Except PyErr (Tree C)}
    {G : B → List (Tree U) → Except PyErr (Tree E)} (h : ∀ a b us, R a b → Agree (Related Q) (F a us) (G b us)) {t u} (htu : Related R t u)
    (us : List (Tree U)) : Agree (Related Q) (jaxMap F t us) (jaxMap G u us) := by
  obtain ⟨z, rfl, rfl⟩ := htu
  have key : ∀ {X : Type} (g : Pair R → X), zipAll us (map (fun a => (a, ([] : List (Tree U)))) (Tree.norm (map g z))) =
      (zipAll us (map (fun a => (a, ([] : List (Tree U)))) (Tree.norm z))).map (map fun x => (g x.1, x.2)) := by
    intro X g
    rw [Tree.norm_map, Tree.map_map, ← zipAll_map, Tree.map_map]
  unfold jaxMap
  rw [key, key]
  cases zipAll us (map (fun a => (a, ([] : List (Tree U)))) (Tree.norm z)) with
  | error e => rfl
  | ok r =>
    exact mapM_related (R := fun x y => ∃ p : Pair R × List (Tree U), x = (p.1.1.1, p.2) ∧ y = (p.1.1.2, p.2))
      (F := fun x => F x.1 x.2) (G := fun x => G x.1 x.2) (by rintro _ _ ⟨p, rfl, rfl⟩; exact h _ _ _ p.1.2)
      (map_related_self (fun p => ⟨p, rfl, rfl⟩) r)

open Classical in
/-- The same when only the leaves that occur respect the relation. -/
theorem mapM_related_mem {R : A → B → Prop} {Q : C → E → Prop} {F : A → Except PyErr (Tree C)} {G : B → Except PyErr (Tree E)} {z : Tree (Pair R)}
    (h : ∀ p ∈ Tree.flat z, Agree (Related Q) (F p.1.1) (G p.1.2)) :
    Agree (Related Q) (Tree.mapM F (map (fun p => p.1.1) z)) (Tree.mapM G (map (fun p => p.1.2) z)) := by
  let w : Pair R → Except PyErr (Tree (Pair Q)) := fun p => if hp : Agree (Related Q) (F p.1.1) (G p.1.2) then (agree_iff.1 hp).choose else .error .typeError
  have hw : ∀ p ∈ Tree.flat z, F p.1.1 = (w p).map (map fun p => p.1.1) ∧ G p.1.2 = (w p).map (map fun p => p.1.2) := by
    intro p hp
    have e : w p = (agree_iff.1 (h p hp)).choose := dif_pos (h p hp)
    rw [e]
    exact (agree_iff.1 (h p hp)).choose_spec
  refine agree_iff.2 ⟨Tree.mapM w z, ?_, ?_⟩
  · rw [mapM_comp, ← mapM_map]
    exact mapM_congr _ _ z fun p hp => (hw p hp).1
  · rw [mapM_comp, ← mapM_map]
    exact mapM_congr _ _ z fun p hp => (hw p hp).2

theorem jaxMap_related_at {U : Type} {R : A → B → Prop} {Q : C → E → Prop} {F : A → List (Tree U) → Except PyErr (Tree C)}
    {G : B → List (Tree U) → Except PyErr (Tree E)} {t u} (htu : Related R t u) {us : List (Tree U)}
    (h : ∀ q a b vs, ForwardSpec.At t q a → R a b → vs.length = us.length → (∀ (i : Nat) u v, us[i]? = some u → vs[i]? = some v → ForwardSpec.Sub u q v) →
      Agree (Related Q) (F a vs) (G b vs)) : Agree (Related Q) (jaxMap F t us) (jaxMap G u us) := by
  obtain ⟨z, rfl, rfl⟩ := htu
  have key : ∀ {X : Type} (g : Pair R → X), zipAll us (map (fun a => (a, ([] : List (Tree U)))) (Tree.norm (map g z))) =
      (zipAll us (map (fun a => (a, ([] : List (Tree U)))) (Tree.norm z))).map (map fun x => (g x.1, x.2)) := by
    intro X g
    rw [Tree.norm_map, Tree.map_map, ← zipAll_map, Tree.map_map]
  unfold jaxMap
  rw [key, key]
  cases hz : zipAll us (map (fun a => (a, ([] : List (Tree U)))) (Tree.norm z)) with
  | error e => rfl
  | ok r =>
    simp only [Except.map]
    have := mapM_related_mem (R := fun (x : A × List (Tree U)) (y : B × List (Tree U)) => True) (Q := Q) (F := fun x => F x.1 x.2) (G := fun x => G x.1 x.2)
      (z := map (fun x : Pair R × List (Tree U) => ⟨((x.1.1.1, x.2), (x.1.1.2, x.2)), trivial⟩) r) (by
        intro p hp
        rw [flat_map'] at hp
        obtain ⟨⟨p, vs⟩, hx, rfl⟩ := List.mem_map.1 hp
        simp only
        obtain ⟨q, hq⟩ := mem_flat_at.1 hx
        obtain ⟨v0, v1, hv, h1, h2, h3⟩ := zipAll_at us _ _ _ hz hq
        rw [at_map] at h1
        obtain ⟨p', hp', e'⟩ := h1
        simp only [Prod.mk.injEq] at e'
        obtain ⟨rfl, rfl⟩ := e'
        rw [List.nil_append] at hv
        subst hv
        exact h q p'.1.1 p'.1.2 vs (at_map.2 ⟨p', at_norm.1 hp', rfl⟩) p'.2 h2 h3)
    rw [Tree.map_map, Tree.map_map] at this
    exact this

theorem flat_related {R : A → B → Prop} {t u} (h : Related R t u) : List.Forall₂ R (Tree.flat t) (Tree.flat u) := by
  obtain ⟨z, rfl, rfl⟩ := h
  rw [flat_map', flat_map', List.forall₂_map_left_iff, List.forall₂_map_right_iff]
  exact List.forall₂_same.2 fun p _ => p.2

theorem leaves_related {R : A → B → Prop} {t u} (h : Related R t u) : List.Forall₂ R (jaxLeaves t) (jaxLeaves u) := flat_related (norm_related h)

mutual
theorem related_self {R : A → B → Prop} {g : A → B} : ∀ t : Tree A, (∀ a ∈ Tree.flat t, R a (g a)) → Related R t (map g t)
  | .leaf a, h => related_leaf (h a (by simp [Tree.flat]))
  | .none, _ => ⟨.none, rfl, rfl⟩
  | .list ts, h => by
    obtain ⟨zs, h1, h2⟩ := related_selfL (R := R) (g := g) ts (by simpa [Tree.flat] using h)
    exact ⟨.list zs, by simp only [map, ← h1], by simp only [map, ← h2]⟩
  | .tuple ts, h => by
    obtain ⟨zs, h1, h2⟩ := related_selfL (R := R) (g := g) ts (by simpa [Tree.flat] using h)
    exact ⟨.tuple zs, by simp only [map, ← h1], by simp only [map, ← h2]⟩
  | .dict ts, h => by
    obtain ⟨zs, h1, h2⟩ := related_selfD (R := R) (g := g) ts (by simpa [Tree.flat] using h)
    exact ⟨.dict zs, by simp only [map, ← h1], by simp only [map, ← h2]⟩
theorem related_selfL {R : A → B → Prop} {g : A → B} : ∀ ts : List (Tree A), (∀ a ∈ Tree.flatL ts, R a (g a)) →
    ∃ zs : List (Tree (Pair R)), ts = mapL (fun p => p.1.1) zs ∧ mapL g ts = mapL (fun p => p.1.2) zs
  | [], _ => ⟨[], rfl, rfl⟩
  | t :: ts, h => by
    obtain ⟨z, h1, h2⟩ := related_self (R := R) (g := g) t fun a ha => h a (by rw [Tree.flatL, List.mem_append]; exact .inl ha)
    obtain ⟨zs, h3, h4⟩ := related_selfL (R := R) (g := g) ts fun a ha => h a (by rw [Tree.flatL, List.mem_append]; exact .inr ha)
    exact ⟨z :: zs, by simp only [mapL, ← h1, ← h3], by simp only [mapL, ← h2, ← h4]⟩
theorem related_selfD {R : A → B → Prop} {g : A → B} : ∀ ts : List (Str × Tree A), (∀ a ∈ Tree.flatD ts, R a (g a)) →
    ∃ zs : List (Str × Tree (Pair R)), ts = mapD (fun p => p.1.1) zs ∧ mapD g ts = mapD (fun p => p.1.2) zs
  | [], _ => ⟨[], rfl, rfl⟩
  | (k, t) :: ts, h => by
    obtain ⟨z, h1, h2⟩ := related_self (R := R) (g := g) t fun a ha => h a (by rw [Tree.flatD, List.mem_append]; exact .inl ha)
    obtain ⟨zs, h3, h4⟩ := related_selfD (R := R) (g := g) ts fun a ha => h a (by rw [Tree.flatD, List.mem_append]; exact .inr ha)
    exact ⟨(k, z) :: zs, by simp only [mapD, ← h1, ← h3], by simp only [mapD, ← h2, ← h4]⟩
end

/-! ### Models -/

open Forward Conn

variable {M P S K : Type}

/-- Related data and the same state. -/
def With (R : A → B → Prop) (r : Tree A × S) (r' : Tree B × S) : Prop := Related R r.1 r'.1 ∧ r.2 = r'.2

/-- A chain of stages, each respecting the relation on the data it can get. -/
def Chained (R : A → A → Prop) (sig : Sig M P S K A) (training : Bool) : List (Stage M P S K) → (Tree A → Prop) → Prop
  | [], _ => True
  | st :: rest, D =>
    (∀ d d', D d → Related R d d' →
      Agree (With R) (sig.call st.mod st.params d training st.state st.key) (sig.call st.mod st.params d' training st.state st.key)) ∧
    ∃ D' : Tree A → Prop, (∀ d y s', D d → sig.call st.mod st.params d training st.state st.key = .ok (y, s') → D' y) ∧ Chained R sig training rest D'

theorem seqLoop_related {sig : Sig M P S K A} {training : Bool} {R : A → A → Prop} : ∀ {st : List (Stage M P S K)} {D : Tree A → Prop},
    Chained R sig training st D → ∀ {x x' : Tree A} {ss : List S}, D x → Related R x x' →
    Agree (With R) (seqLoop sig training st x ss) (seqLoop sig training st x' ss)
  | [], _, _, _, _, _, _, h => ⟨h, rfl⟩
  | st :: rest, D, ⟨h1, D', h2, h3⟩, x, x', ss, hD, h => by
    have a := h1 x x' hD h
    have b := h2 x
    simp only [seqLoop]
    cases e : sig.call st.mod st.params x training st.state st.key with
    | error e' => cases f : sig.call st.mod st.params x' training st.state st.key with
      | error f' => rw [e, f] at a; exact a
      | ok r => rw [e, f] at a; exact a.elim
    | ok r => cases f : sig.call st.mod st.params x' training st.state st.key with
      | error f' => rw [e, f] at a; exact a.elim
      | ok r' =>
        rw [e, f] at a
        obtain ⟨y, s⟩ := r
        obtain ⟨y', s'⟩ := r'
        obtain ⟨a1, a2⟩ := a
        simp only at a1 a2
        subst a2
        exact seqLoop_related h3 (h2 x y s hD e) a1

theorem seqCall_related {sig : Sig M P S K A} {modules : Tree M} {params : Tree P} {training : Bool} {state : Tree S} {rng : K} {R : A → A → Prop}
    {D : Tree A → Prop} (h : Chained R sig training (stages modules.jaxLeaves params.jaxLeaves state.jaxLeaves (sig.splitN rng modules.jaxLeaves.length)) D)
    {x x' : Tree A} (hD : D x) (hx : Related R x x') :
    Agree (With R) (seqCall sig modules params x training state rng) (seqCall sig modules params x' training state rng) := by
  unfold seqCall
  split
  · rfl
  · rcases agree_cases (seqLoop_related (ss := []) h hD hx) with ⟨e, h1, h2⟩ | ⟨⟨a, sa⟩, ⟨b, sb⟩, h1, h2, h3, h4⟩
    · simp only [h1, h2]
      rfl
    · simp only at h3 h4
      subst h4
      simp only [h1, h2]
      cases Tree.unflatten modules sa with
      | error e => rfl
      | ok t => exact ⟨h3, rfl⟩

theorem assemble_related {R : A → B → Prop} {t u} (h : Related R t u) (sep : Char) (req : Tree Str) :
    Agree (Related R) (assemble sep t req) (assemble sep u req) := by
  obtain ⟨z, rfl, rfl⟩ := h
  exact agree_iff.2 ⟨assemble sep z req, assemble_map _ z req, assemble_map _ z req⟩

theorem nsInit_related {R : A → B → Prop} {t u} (h : Related R t u) (sep : Char) (order : List Str) :
    Agree (Related R) (nsInit sep order t) (nsInit sep order u) := by
  obtain ⟨z, rfl, rfl⟩ := h
  have key : ∀ {X : Type} (g : Pair R → X), nsInit sep order (map g z) = (nsInit sep order z).map (map g) := by
    intro X g
    have e := extend_none_map g (order.map fun s => (splitOn sep s, (.none : Tree (Pair R))))
    rw [List.map_map] at e
    unfold nsInit
    rw [show (order.map fun s => (splitOn sep s, (.none : Tree X))) = order.map ((fun x => (x.1, map g x.2)) ∘ fun s => (splitOn sep s, (.none : Tree (Pair R)))) from rfl, e]
    cases Tree.extend (fun _ _ => false) .none (order.map fun s => (splitOn sep s, (.none : Tree (Pair R)))) with
    | error e => rfl
    | ok t => exact set_map g z t _
  exact agree_iff.2 ⟨nsInit sep order z, key _, key _⟩

theorem nsLoop_related {σ : Type} {sep : Char} {R : A → A → Prop} {call : M → Str → Tree A → σ → Except PyErr (Tree A × σ)} :
    ∀ {L : List (Str × Option M × Tree Str)} {outs outs' : Tree A} {st : σ},
    (∀ x ∈ L, ∀ m, x.2.1 = some m → ∀ st d d', Related R d d' → Agree (With R) (call m x.1 d st) (call m x.1 d' st)) →
    Related R outs outs' → Agree (With R) (nsLoop sep call L outs st) (nsLoop sep call L outs' st)
  | [], _, _, _, _, h => ⟨h, rfl⟩
  | (path, m, req) :: L, outs, outs', st, hc, h => by
    have hc' : ∀ x ∈ L, ∀ m, x.2.1 = some m → ∀ st d d', Related R d d' → Agree (With R) (call m x.1 d st) (call m x.1 d' st) :=
      fun x hx => hc x (List.mem_cons_of_mem _ hx)
    simp only [nsLoop]
    split
    · exact nsLoop_related hc' h
    · cases m with
      | none => rfl
      | some m =>
        simp only
        rcases agree_cases (assemble_related h sep req) with ⟨e, h1, h2⟩ | ⟨inp, inp', h1, h2, hi⟩
        · simp only [h1, h2]
          rfl
        · simp only [h1, h2]
          rcases agree_cases (hc _ List.mem_cons_self m rfl st inp inp' hi) with ⟨e, g1, g2⟩ | ⟨⟨a, sa⟩, ⟨b, sb⟩, g1, g2, g3, g4⟩
          · simp only at g1 g2
            simp only [g1, g2]
            rfl
          · simp only at g1 g2 g3 g4
            subst g4
            simp only [g1, g2]
            rcases agree_cases (set_related h g3 (splitOn sep path)) with ⟨e, k1, k2⟩ | ⟨o, o', k1, k2, ho⟩
            · simp only [k1, k2]
              rfl
            · simp only [k1, k2]
              exact nsLoop_related hc' ho

open DataflowSpec in
theorem nsRun_related {σ : Type} {sep : Char} {fresh : Str → Nat → Nat → Str} {modules : Tree M} {conn : List (Str × List Str)} (h : Names sep modules conn)
    {R : A → A → Prop} {call : M → Str → Tree A → σ → Except PyErr (Tree A × σ)} {st : σ}
    (hc : ∀ q m, Comps sep q → q ≠ [] → Tree.get modules q = .ok (.leaf m) → ∀ st d d', Related R d d' →
      Agree (With R) (call m (joinWith sep q) d st) (call m (joinWith sep q) d' st)) {d d' : Tree A} (hd : Related R d d') :
    Agree (fun r r' => Related R r.1 r'.1 ∧ Related R r.2.1 r'.2.1 ∧ r.2.2 = r'.2.2) (nsRun sep fresh call modules conn d st)
      (nsRun sep fresh call modules conn d' st) := by
  unfold nsRun
  cases ho : execOrder sep modules conn with
  | error e => rfl
  | ok order =>
    simp only
    obtain ⟨ms, hms⟩ := order_main h ho
    rw [order_filter h hms]
    cases hm : mapE (leafAt sep modules) (ms.map (joinWith sep)) with
    | error e => rfl
    | ok mods =>
      simp only
      cases hi : inputDeps sep fresh modules conn with
      | error e => rfl
      | ok dp =>
        obtain ⟨deps, outDeps⟩ := dp
        simp only
        rcases agree_cases (nsInit_related hd sep order) with ⟨e, h1, h2⟩ | ⟨outs, outs', h1, h2, hout⟩
        · simp only [h1, h2]; rfl
        · simp only [h1, h2]
          have l2 : deps.length = ms.length := by
            unfold inputDeps at hi
            rw [ho] at hi
            simp only at hi
            split at hi
            · simp at hi
            · rw [order_filter h hms] at hi
              split at hi
              · simp at hi
              · next hd' =>
                simp only [Except.ok.injEq, Prod.mk.injEq] at hi
                obtain ⟨rfl, rfl⟩ := hi
                rw [mapE_iff] at hd'
                simpa using hd'.length_eq.symm
          rw [mapE_iff] at hm
          have l1 : mods.length = ms.length := by simpa using hm.length_eq.symm
          have hL : ∀ x ∈ (ms.zip (mods.zip deps)).map (fun x => (joinWith sep x.1, some x.2.1, x.2.2)), ∀ m, x.2.1 = some m → ∀ st d d', Related R d d' →
              Agree (With R) (call m x.1 d st) (call m x.1 d' st) := by
            intro x hx m hxm
            obtain ⟨y, hy, rfl⟩ := List.mem_map.1 hx
            simp only [Option.some.injEq] at hxm
            subst hxm
            have hym : y.1 ∈ ms := (List.of_mem_zip hy).1
            have hcs := (hms.comps _ hym).1
            have hne := ((hms.mem _).1 hym).1.1
            refine hc y.1 y.2.1 hcs hne ?_
            rw [List.forall₂_map_left_iff] at hm
            have := (zip_forall₂ (q := fun _ _ => True) hm (by
              clear hy hx
              have : ∀ (a : List (List Str)) (b : List (Tree Str)), b.length = a.length → List.Forall₂ (fun _ _ => True) a b := by
                intro a
                induction a with
                | nil => intro b hb; rw [List.length_eq_zero_iff.1 hb]; exact .nil
                | cons x a ih => intro b hb; cases b with
                  | nil => simp at hb
                  | cons y b => exact .cons trivial (ih b (by simpa using hb))
              exact this ms deps l2) y hy).1
            exact (leafAt_iff _ hcs hne _).1 this
          have key := nsLoop_related (sep := sep) (st := st) hL hout
          rw [← nsLoop_order l1 l2, ← nsLoop_order l1 l2, ← hms.eq] at key
          rcases agree_cases key with ⟨e, h3, h4⟩ | ⟨⟨a, sa⟩, ⟨b, sb⟩, h3, h4, h5, h6⟩
          · simp only [h3, h4]; rfl
          · simp only at h5 h6
            subst h6
            simp only [h3, h4]
            rcases agree_cases (assemble_related h5 sep outDeps) with ⟨e, h7, h8⟩ | ⟨o, o', h7, h8, h9⟩
            · simp only [h7, h8]; rfl
            · simp only [h7, h8]
              exact ⟨h9, h5, rfl⟩

theorem callStep_related {sig : Sig M P S K A} {sep : Char} {params : Tree P} {training : Bool} {rng : K} {m : M} {q : List Str} {R : A → A → Prop}
    (hq : Comps sep q) (hne : q ≠ []) {st : Tree S} {d d' : Tree A}
    (hc : ∀ p s, Tree.get params q = .ok (.leaf p) → Agree (With R) (sig.call m p d training s rng) (sig.call m p d' training s rng)) :
    Agree (With R) (callStep sig sep params training rng m (joinWith sep q) d st) (callStep sig sep params training rng m (joinWith sep q) d' st) := by
  unfold callStep
  cases hp : leafAt sep params (joinWith sep q) with
  | error e => rfl
  | ok p =>
    simp only
    cases leafAt sep st (joinWith sep q) with
    | error e => rfl
    | ok s =>
      simp only
      rcases agree_cases (hc p s ((leafAt_iff _ hq hne _).1 hp)) with ⟨e, h1, h2⟩ | ⟨⟨a, sa⟩, ⟨b, sb⟩, h1, h2, h3, h4⟩
      · simp only [h1, h2]; rfl
      · simp only at h3 h4
        subst h4
        simp only [h1, h2]
        cases Tree.set st (splitOn sep (joinWith sep q)) (.leaf sa) with
        | error e => rfl
        | ok t => exact ⟨h3, rfl⟩

open DataflowSpec in
theorem nsCall_related {sig : Sig M P S K A} {sep : Char} {fresh : Str → Nat → Nat → Str} {modules : Tree M} {conn : List (Str × List Str)}
    (h : Names sep modules conn) {params : Tree P} {training : Bool} {rng : K} {R : A → A → Prop} {st : Tree S}
    (hc : ∀ q m p s, Tree.get modules q = .ok (.leaf m) → Tree.get params q = .ok (.leaf p) → ∀ d d', Related R d d' →
      Agree (With R) (sig.call m p d training s rng) (sig.call m p d' training s rng)) {d d' : Tree A} (hd : Related R d d') :
    Agree (With R) (nsCall sig sep fresh modules conn params d training st rng) (nsCall sig sep fresh modules conn params d' training st rng) := by
  unfold nsCall
  rcases agree_cases (nsRun_related (fresh := fresh) (st := st) (call := callStep sig sep params training rng) h
    (fun q m hq hne hm st d d' hd => callStep_related hq hne fun p s hp => hc q m p s hm hp d d' hd) hd)
    with ⟨e, h1, h2⟩ | ⟨⟨a, ta, sa⟩, ⟨b, tb, sb⟩, h1, h2, h3, -, h5⟩
  · simp only [h1, h2]; rfl
  · simp only at h3 h5
    subst h5
    simp only [h1, h2]
    exact ⟨h3, rfl⟩

theorem steps_related {σ : Type} {sep : Char} {R : A → A → Prop} {call : M → Str → Tree A → σ → Except PyErr (Tree A × σ)} {L : List (List Str × M × Tree Str)}
    {outs outs' : Tree A} {st st' : σ} (h : Steps sep call L outs st outs' st') : ∀ {u : Tree A}, Related R outs u →
    (∀ L1 x L2, L = L1 ++ x :: L2 → ∀ outs1 st1, Steps sep call L1 outs st outs1 st1 → ∀ inp, assemble sep outs1 x.2.2 = .ok inp → ∀ inp', Related R inp inp' →
      Agree (With R) (call x.2.1 (joinWith sep x.1) inp st1) (call x.2.1 (joinWith sep x.1) inp' st1)) →
    ∃ u', Steps sep call L u st u' st' ∧ Related R outs' u' := by
  induction h with
  | nil outs st => intro u hu _; exact ⟨u, .nil _ _, hu⟩
  | @cons m b req L outs st inp out st1 outs1 outs' st' h1 h2 h3 h4 ih =>
    intro u hu hseen
    have a1 := assemble_related hu sep req
    rw [h1] at a1
    rcases agree_cases a1 with ⟨e, g1, -⟩ | ⟨_, inp', g1, g2, hi⟩
    · cases g1
    · cases g1
      have a2 := hseen [] (m, b, req) L rfl outs st (.nil _ _) inp h1 inp' hi
      simp only at a2
      rw [h2] at a2
      rcases agree_cases a2 with ⟨e, g3, -⟩ | ⟨_, ⟨out', s'⟩, g3, g4, ho, hs⟩
      · cases g3
      · cases g3
        simp only at ho hs
        subst hs
        have a3 := set_related hu ho m
        rw [h3] at a3
        rcases agree_cases a3 with ⟨e, g5, -⟩ | ⟨_, u1, g5, g6, hu1⟩
        · cases g5
        · cases g5
          obtain ⟨u', r1, r2⟩ := ih hu1 (fun L1 x L2 e outs2 st2 hst => hseen ((m, b, req) :: L1) x L2 (by rw [e]; rfl) outs2 st2 (.cons h1 h2 h3 hst))
          exact ⟨u', .cons g2 g4 g6 r1, r2⟩

open DataflowSpec ConnSpec TreeSpec PathSpec ForwardSpec in
/-- After compilation, every module is called with data of a shape it was compiled for. -/
theorem nsCompile_seen {sep : Char} {fresh : Str → Nat → Nat → Str} {modules : Tree M} {conn : List (Str × List Str)}
    {sig : Sig M P S K A} {shp : A → Shape} (hdec : Declares sig shp)
    (hkeep : ∀ m k s m', sig.compile m k s = .ok m' → sig.outShape m' s = sig.outShape m s)
    (h : Names sep modules conn) {modules' : Tree M} {key : K} {order : List Str} {r : Tree Shape}
    {params : Tree P} {data out : Tree A} {training : Bool} {state st' : Tree S} {rng : K}
    (hcomp : nsCompile sig sep fresh modules conn key (map shp data) = .ok (modules', order, r))
    (hcall : nsCall sig sep fresh modules' conn params data training state rng = .ok (out, st')) :
    Names sep modules' conn ∧ ∃ outs' order ms L placed outPlaced outs,
      Run sep fresh (callStep sig sep params training rng) modules' conn data state out outs' st' order ms L placed outPlaced outs ∧
      ∀ L1 x L2, L = L1 ++ x :: L2 → ∀ outs1 st1, Steps sep (callStep sig sep params training rng) L1 outs state outs1 st1 →
        ∀ inp, assemble sep outs1 x.2.2 = .ok inp → ∃ b k, sig.compile b k (map shp inp) = .ok x.2.1 := by
  unfold nsCompile at hcomp
  cases ho : execOrder sep modules conn with
  | error e => rw [ho] at hcomp; simp at hcomp
  | ok order0 =>
  rw [ho] at hcomp
  simp only at hcomp
  split at hcomp
  · simp at hcomp
  · next r0 outsS ins hsh =>
    split at hcomp
    · simp at hcomp
    · next r1 hck =>
      split at hcomp
      · simp at hcomp
      · next ms' hloop =>
        simp only [Except.ok.injEq, Prod.mk.injEq] at hcomp
        obtain ⟨rfl, rfl, rfl⟩ := hcomp
        obtain rfl := checkShape_ok hck
        obtain ⟨order1, t, ho1, ht, hrun⟩ := nsShapes_iff.1 hsh
        rw [ho] at ho1
        cases ho1
        obtain ⟨order2, ms, LS, placed, outPlaced, outsS0, hS⟩ := (nsRun_iff h).1 hrun
        have hSe := hS.exec
        rw [ho] at hSe
        cases hSe
        have hres := order_reserved h hS.ord
        rw [hS.ord.eq] at hloop
        have hri : reserved "input".toList = true := by decide
        rw [List.cons_append, nsCompileLoop.eq_def] at hloop
        simp only [hri, if_true] at hloop
        obtain ⟨c1, c2, c3⟩ := compileLoop_ok hres hS.ord.diverge hloop
        have hn' := names_skel c1.symm h
        obtain ⟨outs', order', ms2, L', placed', outPlaced', outs, hr⟩ := (nsCall_run hn').1 hcall
        have hre := hr.exec
        rw [execOrder_skel c1, ho] at hre
        cases hre
        have hsc : Scheduled (nsCfg sep) ms' conn = Scheduled (nsCfg sep) modules conn := scheduled_skel c1 _
        have hms : ms2 = ms := by
          have e1 := order_split hn' hr.ord
          rw [order_split h hS.ord] at e1
          simp only [List.cons.injEq, true_and, List.append_cancel_right_eq] at e1
          exact e1.symm
        subst hms
        have hpl := hr.place
        rw [place_skel c1, hS.place] at hpl
        cases hpl
        have hL'm : ∀ x ∈ L', x.1 ∈ ms2 := by
          intro x hx; rw [← hr.paths]; exact List.mem_map_of_mem (f := Prod.fst) hx
        have hforall : List.Forall₂ (fun x y => x.1 = y.1 ∧ x.2.2 = y.2.2 ∧ ∃ k s, get ins x.1 = .ok s ∧
            sig.compile x.2.1 k s = .ok y.2.1) LS L' := by
          have hp := hS.paths
          rw [← hr.paths] at hp
          have e1 := hS.elems
          have e2 := hr.elems
          clear hr hS
          induction LS generalizing L' with
          | nil => cases L' with
            | nil => exact .nil
            | cons y L' => simp at hp
          | cons x LS ih => cases L' with
            | nil => simp at hp
            | cons y L' =>
              simp only [List.map_cons, List.cons.injEq] at hp
              refine .cons ⟨hp.1, ?_, ?_⟩ (ih L' (fun z hz => hL'm z (by simp [hz])) hp.2
                (fun z hz => e1 z (by simp [hz])) (fun z hz => e2 z (by simp [hz])))
              · have a := (e1 x (by simp)).2
                have b := (e2 y (by simp)).2
                rw [hp.1, b] at a
                simpa using a.symm
              · obtain ⟨b, b', k, s, g1, g2, g3, g4⟩ := c3 y.1 (hL'm y (by simp))
                have a := (e1 x (by simp)).1
                have b := (e2 y (by simp)).1
                rw [hp.1, g1] at a
                rw [g4] at b
                simp only [Except.ok.injEq, Tree.leaf.injEq] at a b
                exact ⟨k, s, by rw [hp.1]; exact g2, by rw [← a, ← b]; exact g3⟩
        have hin := (nsInit_shape shp hr.init).1
        rw [hS.init] at hin
        cases hin
        obtain ⟨s1, s2⟩ := sim_compiled hdec hkeep hr.steps LS t ins _ _ hS.steps rfl (fun x hx => by
          have := hres x.1 (hL'm x hx)
          exact ⟨this.1, this.2.1⟩) (by rw [hr.paths]; exact hr.ord.diverge) hforall
        refine ⟨hn', outs', _, ms2, L', placed, outPlaced, outs, hr, ?_⟩
        intro L1 x L2 e outs1 st1 hst inp ha
        obtain ⟨b, b', k, s, g1, g2, g3, g4⟩ := c3 x.1 (hL'm x (by rw [e]; simp))
        have hget := s2 L1 x L2 e outs1 st1 hst inp ha
        rw [g2] at hget
        cases hget
        have := (hr.elems x (by rw [e]; simp)).1
        rw [g4] at this
        simp only [Except.ok.injEq, Tree.leaf.injEq] at this
        exact ⟨b, k, by rw [← this]; exact g3⟩

open DataflowSpec ConnSpec TreeSpec PathSpec ForwardSpec in
theorem nsCall_compiled {sep : Char} {fresh : Str → Nat → Nat → Str} {modules : Tree M} {conn : List (Str × List Str)}
    {sig : Sig M P S K A} {shp : A → Shape} (hdec : Declares sig shp)
    (hkeep : ∀ m k s m', sig.compile m k s = .ok m' → sig.outShape m' s = sig.outShape m s)
    (h : Names sep modules conn) {modules' : Tree M} {key : K} {order : List Str} {r : Tree Shape}
    {params : Tree P} {data data' out : Tree A} {training : Bool} {state st' : Tree S} {rng : K} {R : A → A → Prop}
    (hcomp : nsCompile sig sep fresh modules conn key (map shp data) = .ok (modules', order, r))
    (hcall : nsCall sig sep fresh modules' conn params data training state rng = .ok (out, st')) 
    (hfit : ∀ b k s m q p st, sig.compile b k s = .ok m → Tree.get modules' q = .ok (.leaf m) → Tree.get params q = .ok (.leaf p) → ∀ d d', map shp d = s → Related R d d' →
      Agree (With R) (sig.call m p d training st rng) (sig.call m p d' training st rng)) (hd : Related R data data') :
    ∃ out', nsCall sig sep fresh modules' conn params data' training state rng = .ok (out', st') ∧ Related R out out' := by
  obtain ⟨hn, outs', order, ms, L, placed, outPlaced, outs, hr, hseen⟩ := nsCompile_seen hdec hkeep h hcomp hcall
  have a1 := nsInit_related hd sep order
  rw [hr.init] at a1
  rcases agree_cases a1 with ⟨e, g1, -⟩ | ⟨_, u, g1, g2, hu⟩
  · cases g1
  · cases g1
    obtain ⟨u', hs, hu'⟩ := steps_related hr.steps hu (by
      intro L1 x L2 e outs1 st1 hst inp ha inp' hi
      have hx : x ∈ L := by rw [e]; simp
      have hxm : x.1 ∈ ms := by rw [← hr.paths]; exact List.mem_map_of_mem (f := Prod.fst) hx
      have hres := order_reserved hn hr.ord x.1 hxm
      obtain ⟨b, k, hc⟩ := hseen L1 x L2 e outs1 st1 hst inp ha
      exact callStep_related hres.1 hres.2.1 fun p s hp => hfit b k _ x.2.1 x.1 p s hc (hr.elems x hx).1 hp inp inp' rfl hi)
    have a2 := assemble_related hu' sep outPlaced
    rw [hr.fin] at a2
    rcases agree_cases a2 with ⟨e, g3, -⟩ | ⟨_, out', g3, g4, ho⟩
    · cases g3
    · cases g3
      exact ⟨out', (nsCall_run hn).2 ⟨u', order, ms, L, placed, outPlaced, u, hr.exec, hr.ord, hr.place, hr.paths, hr.elems, g2, hs, g4⟩, ho⟩

open DataflowSpec in
theorem compile_chained {sig : Sig M P S K A} {shp : A → Shape} (hdec : Declares sig shp) {training : Bool} {R : A → A → Prop} :
    ∀ {ms : List M} {k : K} {s : Tree Shape} {acc out : List M} {r : Tree Shape}, seqCompileLoop sig ms k s acc = .ok (out, r) →
    ∃ ms', out = acc ++ ms' ∧ ∀ ps ss ks, (∀ st ∈ stages ms' ps ss ks, ∀ b k s, sig.compile b k s = .ok st.mod → ∀ d d', map shp d = s → Related R d d' →
      Agree (With R) (sig.call st.mod st.params d training st.state st.key) (sig.call st.mod st.params d' training st.state st.key)) →
      Chained R sig training (stages ms' ps ss ks) (fun d => map shp d = s)
  | [], k, s, acc, out, r, h => by
    simp only [seqCompileLoop, Except.ok.injEq, Prod.mk.injEq] at h
    refine ⟨[], by simp [h.1], fun ps ss ks _ => ?_⟩
    simp [stages, Chained]
  | m :: ms, k, s, acc, out, r, h => by
    rw [seqCompileLoop] at h
    split at h
    · simp at h
    · next m' hm =>
      split at h
      · simp at h
      · next s' hs =>
        obtain ⟨ms', e, hc⟩ := compile_chained hdec (training := training) (R := R) h
        refine ⟨m' :: ms', by rw [e]; simp, fun ps ss ks hst => ?_⟩
        cases ps with
        | nil => simp [stages, Chained]
        | cons p ps => cases ss with
          | nil => simp [stages, Chained]
          | cons t ss => cases ks with
            | nil => simp [stages, Chained]
            | cons key ks =>
              simp only [stages] at hst ⊢
              refine ⟨fun d d' hd hr => hst _ List.mem_cons_self m _ _ hm d d' hd hr, fun d => map shp d = s', ?_,
                hc ps ss ks fun st h' => hst st (List.mem_cons_of_mem _ h')⟩
              intro d y t' hd hcall
              have := hdec _ _ _ _ _ _ _ _ hcall
              rw [hd, hs] at this
              simpa using this.symm

theorem stages_mem {ms : List M} {ps : List P} {ss : List S} {ks : List K} {st : Stage M P S K} (h : st ∈ stages ms ps ss ks) :
    ∃ i : Nat, ms[i]? = some st.mod ∧ ps[i]? = some st.params := by
  induction ms generalizing ps ss ks with
  | nil => simp [stages] at h
  | cons m ms ih => cases ps with
    | nil => simp [stages] at h
    | cons p ps => cases ss with
      | nil => simp [stages] at h
      | cons t ss => cases ks with
        | nil => simp [stages] at h
        | cons key ks =>
          simp only [stages, List.mem_cons] at h
          rcases h with rfl | h
          · exact ⟨0, rfl, rfl⟩
          · obtain ⟨i, h1, h2⟩ := ih h
            exact ⟨i + 1, by simpa using h1, by simpa using h2⟩

theorem chained_true {sig : Sig M P S K A} {training : Bool} {R : A → A → Prop} : ∀ {l : List (Stage M P S K)},
    (∀ st ∈ l, ∀ d d', Related R d d' → Agree (With R) (sig.call st.mod st.params d training st.state st.key) (sig.call st.mod st.params d' training st.state st.key)) →
    Chained R sig training l fun _ => True
  | [], _ => trivial
  | st :: l, h => ⟨fun d d' _ hd => h st List.mem_cons_self d d' hd, fun _ => True, fun _ _ _ _ _ => trivial, chained_true fun s hs => h s (List.mem_cons_of_mem _ hs)⟩

end Samplewise
end Verif
