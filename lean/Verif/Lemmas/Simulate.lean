import Verif.Spec.Simulate
import Verif.Lemmas.Nested

/-! Models of corresponding modules. -/

namespace Verif
namespace SimSpec
open Nested Forward Samplewise Tree Conn NestedSpec

variable {M M' P P' S S' K A A' : Type}

/-- Corresponding results. -/
def Both (R : A → A' → Prop) (Q : S → S' → Prop) (r : Tree A × S) (r' : Tree A' × S') : Prop := Related R r.1 r'.1 ∧ Q r.2 r'.2

theorem forall₂_pairs {B C : Type} {R : B → C → Prop} : ∀ {l : List B} {l' : List C}, List.Forall₂ R l l' →
    ∃ z : List (Pair R), l = z.map (fun p => p.1.1) ∧ l' = z.map fun p => p.1.2
  | _, _, .nil => ⟨[], rfl, rfl⟩
  | _, _, .cons h t => by
    obtain ⟨z, h1, h2⟩ := forall₂_pairs t
    exact ⟨⟨(_, _), h⟩ :: z, by rw [h1]; rfl, by rw [h2]; rfl⟩

theorem alike_norm {B C : Type} {t : Tree B} {u : Tree C} (h : Alike t u) : map (fun _ => ()) t.norm = map (fun _ => ()) u.norm := by
  obtain ⟨z, rfl, rfl⟩ := h
  rw [norm_map, norm_map, Tree.map_map, Tree.map_map]

theorem alike_of {B C : Type} {R : B → C → Prop} {t : Tree B} {u : Tree C} (h : Related R t u) : Alike t u := by
  obtain ⟨z, rfl, rfl⟩ := h
  exact ⟨map (fun p => ⟨p.1, trivial⟩) z, by rw [Tree.map_map], by rw [Tree.map_map]⟩

mutual
theorem unflat_nat {B C X Y : Type} (f : B → C) (g : X → Y) : ∀ (t : Tree B) (xs : List X),
    unflat (map f t) (xs.map g) = (unflat t xs).map fun r => (map g r.1, r.2.map g)
  | .leaf _, [] => rfl
  | .leaf _, _ :: _ => rfl
  | .none, _ => rfl
  | .list ts, xs => by
    simp only [map, unflat, unflatL_nat f g ts xs]
    cases unflatL ts xs <;> rfl
  | .tuple ts, xs => by
    simp only [map, unflat, unflatL_nat f g ts xs]
    cases unflatL ts xs <;> rfl
  | .dict kvs, xs => by
    simp only [map, unflat, unflatD_nat f g kvs xs]
    cases unflatD kvs xs <;> rfl
theorem unflatL_nat {B C X Y : Type} (f : B → C) (g : X → Y) : ∀ (ts : List (Tree B)) (xs : List X),
    unflatL (mapL f ts) (xs.map g) = (unflatL ts xs).map fun r => (mapL g r.1, r.2.map g)
  | [], _ => rfl
  | t :: ts, xs => by
    simp only [mapL, unflatL, unflat_nat f g t xs]
    cases unflat t xs with
    | none => rfl
    | some r =>
      simp only [Option.map_some, unflatL_nat f g ts]
      cases unflatL ts r.2 <;> rfl
theorem unflatD_nat {B C X Y : Type} (f : B → C) (g : X → Y) : ∀ (ts : List (Str × Tree B)) (xs : List X),
    unflatD (mapD f ts) (xs.map g) = (unflatD ts xs).map fun r => (mapD g r.1, r.2.map g)
  | [], _ => rfl
  | (k, t) :: ts, xs => by
    simp only [mapD, unflatD, unflat_nat f g t xs]
    cases unflat t xs with
    | none => rfl
    | some r =>
      simp only [Option.map_some, unflatD_nat f g ts]
      cases unflatD ts r.2 <;> rfl
end

theorem unflatten_nat {B C X Y : Type} (f : B → C) (g : X → Y) (t : Tree B) (xs : List X) : unflatten (map f t) (xs.map g) = (unflatten t xs).map (map g) := by
  unfold unflatten
  rw [norm_map, unflat_nat]
  cases unflat t.norm xs with
  | none => rfl
  | some r =>
    obtain ⟨r, ys⟩ := r
    cases ys <;> rfl

theorem unflatten_pairs {B C X Y : Type} {R : X → Y → Prop} {t : Tree B} {u : Tree C} (h : Alike t u) {l : List X} {l' : List Y} (hl : List.Forall₂ R l l') :
    Agree (Related R) (unflatten t l) (unflatten u l') := by
  obtain ⟨z, rfl, rfl⟩ := forall₂_pairs hl
  obtain ⟨w, rfl, rfl⟩ := h
  exact agree_iff.2 ⟨unflatten w z, unflatten_nat _ _ w z, unflatten_nat _ _ w z⟩

/-! ### Sequential models -/

theorem seqLoop_sim {sig : Sig M P S K A} {sig' : Sig M' P' S' K A'} {training : Bool} {R : A → A' → Prop} {Q : S → S' → Prop} :
    ∀ {L : List (Stage M P S K)} {L' : List (Stage M' P' S' K)},
    List.Forall₂ (fun a b => ∀ x x', Related R x x' → Agree (Both R Q) (sig.call a.mod a.params x training a.state a.key) (sig'.call b.mod b.params x' training b.state b.key)) L L' →
    ∀ {x x' ss ss'}, Related R x x' → List.Forall₂ Q ss ss' →
    Agree (Both R (List.Forall₂ Q)) (seqLoop sig training L x ss) (seqLoop sig' training L' x' ss')
  | _, _, .nil, _, _, _, _, hx, hs => ⟨hx, hs⟩
  | _, _, .cons h t, x, x', ss, ss', hx, hs => by
    simp only [seqLoop]
    rcases agree_cases (h x x' hx) with ⟨e, h1, h2⟩ | ⟨⟨a, sa⟩, ⟨b, sb⟩, h1, h2, h3, h4⟩
    · simp only [h1, h2]; rfl
    · simp only at h3 h4
      simp only [h1, h2]
      exact seqLoop_sim t h3 (List.rel_append hs (.cons h4 .nil))

theorem stages_sim {T : Stage M P S K → Stage M' P' S' K → Prop} : ∀ {ms : List M} {ps : List P} {ss : List S} {ks : List K} {ms' : List M'} {ps' : List P'} {ss' : List S'},
    ms'.length = ms.length → ps'.length = ps.length → ss'.length = ss.length →
    (∀ (i : Nat) m p s m' p' s' k, ms[i]? = some m → ps[i]? = some p → ss[i]? = some s → ms'[i]? = some m' → ps'[i]? = some p' → ss'[i]? = some s' → T ⟨m, p, s, k⟩ ⟨m', p', s', k⟩) →
    List.Forall₂ T (stages ms ps ss ks) (stages ms' ps' ss' ks)
  | [], _, _, _, [], _, _, _, _, _, _ => by simp [stages]
  | _ :: _, [], _, _, _ :: _, [], _, _, _, _, _ => by simp [stages]
  | _ :: _, _ :: _, [], _, _ :: _, _ :: _, [], _, _, _, _ => by simp [stages]
  | _ :: _, _ :: _, _ :: _, [], _ :: _, _ :: _, _ :: _, _, _, _, _ => by simp [stages]
  | m :: ms, p :: ps, s :: ss, k :: ks, m' :: ms', p' :: ps', s' :: ss', h1, h2, h3, h => by
    simp only [stages]
    refine .cons (h 0 m p s m' p' s' k rfl rfl rfl rfl rfl rfl) (stages_sim (by simpa using h1) (by simpa using h2) (by simpa using h3) fun i a b c a' b' c' k g1 g2 g3 g4 g5 g6 => ?_)
    exact h (i + 1) a b c a' b' c' k (by simpa using g1) (by simpa using g2) (by simpa using g3) (by simpa using g4) (by simpa using g5) (by simpa using g6)

theorem seqCall_sim {sig : Sig M P S K A} {sig' : Sig M' P' S' K A'} (hk : sig'.splitN = sig.splitN) {training : Bool} {R : A → A' → Prop} {Q : S → S' → Prop}
    {modules : Tree M} {params : Tree P} {modules' : Tree M'} {params' : Tree P'} (hm : Alike modules modules') (hp : Alike params params')
    (h : ∀ (i : Nat) m p m' p', modules.jaxLeaves[i]? = some m → params.jaxLeaves[i]? = some p → modules'.jaxLeaves[i]? = some m' → params'.jaxLeaves[i]? = some p' →
      ∀ s s' x x' k, Q s s' → Related R x x' → Agree (Both R Q) (sig.call m p x training s k) (sig'.call m' p' x' training s' k))
    {state : Tree S} {state' : Tree S'} (hs : Related Q state state') {x : Tree A} {x' : Tree A'} (hx : Related R x x') (rng : K) :
    Agree (Both R (Related Q)) (seqCall sig modules params x training state rng) (seqCall sig' modules' params' x' training state' rng) := by
  have hstr : ∀ {B C B' C' : Type} {t : Tree B} {u : Tree C} {t' : Tree B'} {u' : Tree C'}, Alike t t' → Alike u u' → sameStruct t'.norm u'.norm = sameStruct t.norm u.norm := by
    intro B C B' C' t u t' u' h1 h2
    rw [Bool.eq_iff_iff, sameStruct_iff, sameStruct_iff, alike_norm h1, alike_norm h2]
  unfold seqCall
  rw [hstr hm hp, hstr hm (alike_of hs)]
  split
  · rfl
  · have l1 : modules'.jaxLeaves.length = modules.jaxLeaves.length := (leaves_related hm).length_eq.symm
    have l2 : params'.jaxLeaves.length = params.jaxLeaves.length := (leaves_related hp).length_eq.symm
    have l3 := leaves_related hs
    have key := seqLoop_sim (sig := sig) (sig' := sig') (training := training) (R := R) (Q := Q) (x := x) (x' := x') (ss := []) (ss' := [])
      (stages_sim (ks := sig.splitN rng modules.jaxLeaves.length) l1 l2 l3.length_eq.symm
        (T := fun a b => ∀ x x', Related R x x' → Agree (Both R Q) (sig.call a.mod a.params x training a.state a.key) (sig'.call b.mod b.params x' training b.state b.key))
        fun i m p s m' p' s' k g1 g2 g3 g4 g5 g6 x x' hx => h i m p m' p' g1 g2 g4 g5 s s' x x' k (by
          rw [List.forall₂_iff_get] at l3
          obtain ⟨j1, e1⟩ := List.getElem?_eq_some_iff.1 g3
          obtain ⟨j2, e2⟩ := List.getElem?_eq_some_iff.1 g6
          have := l3.2 i j1 j2
          simp only [List.get_eq_getElem, e1, e2] at this
          exact this) hx) hx .nil
    simp only [hk, l1]
    rcases agree_cases key with ⟨e, h1, h2⟩ | ⟨⟨a, sa⟩, ⟨b, sb⟩, h1, h2, h3, h4⟩
    · simp only [h1, h2]; rfl
    · simp only at h3 h4
      simp only [h1, h2]
      rcases agree_cases (unflatten_pairs hm h4) with ⟨e, g1, g2⟩ | ⟨t, t', g1, g2, g3⟩
      · simp only [g1, g2]; rfl
      · simp only [g1, g2]
        exact ⟨h3, g3⟩

/-! ### Models with connections -/

theorem execOrder_map {M N : Type} (sep : Char) (f : M → N) (t : Tree M) (conn : List (Str × List Str)) : execOrder sep (map f t) conn = execOrder sep t conn := by
  unfold execOrder outerConnections
  rw [partition_congr (remainder_map _ f t)]

theorem place_map {M N : Type} (sep : Char) (fresh : Str → Nat → Nat → Str) (f : M → N) (t : Tree M) (conn : List (Str × List Str)) :
    place (nsCfg sep) fresh (map f t) conn = place (nsCfg sep) fresh t conn := by
  unfold place concretizeConnections
  rw [partition_congr (remainder_map _ f t)]

theorem inputDeps_map {M N : Type} (sep : Char) (fresh : Str → Nat → Nat → Str) (f : M → N) (t : Tree M) (conn : List (Str × List Str)) :
    inputDeps sep fresh (map f t) conn = inputDeps sep fresh t conn := by
  unfold inputDeps
  rw [execOrder_map, place_map]

theorem leafAt_sim {B C : Type} {R : B → C → Prop} {t : Tree B} {u : Tree C} (h : Related R t u) (sep : Char) (path : Str) : Agree R (leafAt sep t path) (leafAt sep u path) := by
  unfold leafAt
  rcases agree_cases (get_related h (splitOn sep path)) with ⟨e, h1, h2⟩ | ⟨_, _, h1, h2, ⟨z, rfl, rfl⟩⟩
  · simp only [h1, h2]; rfl
  · simp only [h1, h2]
    cases z with
    | leaf p => exact p.2
    | _ => rfl

theorem mapE_sim {X B C : Type} {R : B → C → Prop} {f : X → Except PyErr B} {g : X → Except PyErr C} (h : ∀ x, Agree R (f x) (g x)) :
    ∀ l : List X, Agree (List.Forall₂ R) (mapE f l) (mapE g l)
  | [] => .nil
  | x :: l => by
    simp only [mapE]
    rcases agree_cases (h x) with ⟨e, h1, h2⟩ | ⟨a, b, h1, h2, h3⟩
    · simp only [h1, h2]; rfl
    · simp only [h1, h2]
      rcases agree_cases (mapE_sim h l) with ⟨e, g1, g2⟩ | ⟨as, bs, g1, g2, g3⟩
      · simp only [g1, g2]; rfl
      · simp only [g1, g2]
        exact .cons h3 g3

theorem nsLoop_sim {σ σ' : Type} {sep : Char} {R : A → A' → Prop} {Q : σ → σ' → Prop} {call : M → Str → Tree A → σ → Except PyErr (Tree A × σ)}
    {call' : M' → Str → Tree A' → σ' → Except PyErr (Tree A' × σ')} :
    ∀ {L : List (Str × M × Tree Str)} {L' : List (Str × M' × Tree Str)} {outs : Tree A} {outs' : Tree A'} {st : σ} {st' : σ'},
    List.Forall₂ (fun x y => x.1 = y.1 ∧ x.2.2 = y.2.2 ∧ ∀ st st' d d', Q st st' → Related R d d' → Agree (Both R Q) (call x.2.1 x.1 d st) (call' y.2.1 y.1 d' st')) L L' →
    Related R outs outs' → Q st st' →
    Agree (Both R Q) (nsLoop sep call (L.map fun x => (x.1, some x.2.1, x.2.2)) outs st) (nsLoop sep call' (L'.map fun x => (x.1, some x.2.1, x.2.2)) outs' st')
  | _, _, _, _, _, _, .nil, h, hs => ⟨h, hs⟩
  | (path, m, req) :: L, (path', m', req') :: L', outs, outs', st, st', .cons ⟨e1, e2, hc⟩ t, h, hs => by
    simp only at e1 e2
    subst e1 e2
    simp only [List.map_cons, nsLoop]
    split
    · exact nsLoop_sim t h hs
    · rcases agree_cases (assemble_related h sep req) with ⟨e, h1, h2⟩ | ⟨inp, inp', h1, h2, hi⟩
      · simp only [h1, h2]; rfl
      · simp only [h1, h2]
        rcases agree_cases (hc st st' inp inp' hs hi) with ⟨e, g1, g2⟩ | ⟨⟨a, sa⟩, ⟨b, sb⟩, g1, g2, g3, g4⟩
        · simp only at g1 g2
          simp only [g1, g2]; rfl
        · simp only at g1 g2 g3 g4
          simp only [g1, g2]
          rcases agree_cases (set_related h g3 (splitOn sep path)) with ⟨e, k1, k2⟩ | ⟨o, o', k1, k2, ho⟩
          · simp only [k1, k2]; rfl
          · simp only [k1, k2]
            exact nsLoop_sim t ho g4

open DataflowSpec in
theorem nsRun_sim {σ σ' : Type} {sep : Char} {fresh : Str → Nat → Nat → Str} {modules : Tree M} {modules' : Tree M'} {conn : List (Str × List Str)} (h : Names sep modules conn)
    {R : A → A' → Prop} {Q : σ → σ' → Prop} {call : M → Str → Tree A → σ → Except PyErr (Tree A × σ)} {call' : M' → Str → Tree A' → σ' → Except PyErr (Tree A' × σ')}
    (hm : Alike modules modules')
    (hc : ∀ q m m', Comps sep q → q ≠ [] → Tree.get modules q = .ok (.leaf m) → Tree.get modules' q = .ok (.leaf m') → ∀ st st' d d', Q st st' → Related R d d' →
      Agree (Both R Q) (call m (joinWith sep q) d st) (call' m' (joinWith sep q) d' st')) {d : Tree A} {d' : Tree A'} (hd : Related R d d') {st : σ} {st' : σ'} (hs : Q st st') :
    Agree (fun r r' => Related R r.1 r'.1 ∧ Related R r.2.1 r'.2.1 ∧ Q r.2.2 r'.2.2) (nsRun sep fresh call modules conn d st)
      (nsRun sep fresh call' modules' conn d' st') := by
  obtain ⟨z, rfl, rfl⟩ := hm
  unfold nsRun
  rw [execOrder_map, inputDeps_map, execOrder_map, inputDeps_map]
  cases ho : execOrder sep z conn with
  | error e => rfl
  | ok order =>
    simp only
    obtain ⟨ms, hms⟩ := order_main h (by rw [execOrder_map]; exact ho)
    rw [order_filter h hms]
    have hmods := mapE_sim (fun s => leafAt_sim ⟨z, rfl, rfl⟩ sep s) (ms.map (joinWith sep)) (R := fun (_ : M) (_ : M') => True)
    rcases agree_cases hmods with ⟨e, h1, h2⟩ | ⟨mods, mods', h1, h2, hmm⟩
    · simp only [h1, h2]; rfl
    · simp only [h1, h2]
      cases hi : inputDeps sep fresh z conn with
      | error e => rfl
      | ok dp =>
        obtain ⟨deps, outDeps⟩ := dp
        simp only
        rcases agree_cases (nsInit_related hd sep order) with ⟨e, h3, h4⟩ | ⟨outs, outs', h3, h4, hout⟩
        · simp only [h3, h4]; rfl
        · simp only [h3, h4]
          have l2 : deps.length = ms.length := by
            unfold inputDeps at hi
            rw [ho] at hi
            simp only at hi
            split at hi
            · simp at hi
            · rw [order_filter h hms] at hi
              split at hi
              · simp at hi
              · next hd' =>
                simp only [Except.ok.injEq, Prod.mk.injEq] at hi
                obtain ⟨rfl, rfl⟩ := hi
                rw [mapE_iff] at hd'
                simpa using hd'.length_eq.symm
          rw [mapE_iff] at h1 h2
          have l1 : mods.length = ms.length := by simpa using h1.length_eq.symm
          have l1' : mods'.length = ms.length := by simpa using h2.length_eq.symm
          rw [List.forall₂_map_left_iff] at h1 h2
          have hL : List.Forall₂ (fun x y => x.1 = y.1 ∧ x.2.2 = y.2.2 ∧ ∀ st st' d d', Q st st' → Related R d d' → Agree (Both R Q) (call x.2.1 x.1 d st) (call' y.2.1 y.1 d' st'))
              ((ms.zip (mods.zip deps)).map fun x => (joinWith sep x.1, x.2.1, x.2.2)) ((ms.zip (mods'.zip deps)).map fun x => (joinWith sep x.1, x.2.1, x.2.2)) := by
            rw [List.forall₂_map_left_iff, List.forall₂_map_right_iff]
            have hcomp : ∀ q ∈ ms, Comps sep q ∧ q ≠ [] := fun q hq => ⟨(hms.comps _ hq).1, ((hms.mem _).1 hq).1.1⟩
            clear hi hms hmods
            generalize hmap : map (fun p : Pair (fun (_ : M) (_ : M') => True) => p.1.1) z = md at *
            generalize hmap' : map (fun p : Pair (fun (_ : M) (_ : M') => True) => p.1.2) z = md' at *
            induction ms generalizing mods mods' deps with
            | nil => simp
            | cons q ms ih =>
              cases h1 with
              | cons a as => cases h2 with
                | cons b bs => cases deps with
                  | nil => simp at l2
                  | cons r deps =>
                    cases hmm with
                    | cons _ hmm =>
                    obtain ⟨c1, c2⟩ := hcomp q (by simp)
                    simp only [List.zip_cons_cons]
                    refine .cons ⟨rfl, rfl, fun st st' d d' hs hd => ?_⟩ (ih _ _ hmm _ (by simpa using l2) (by simpa using l1) (by simpa using l1') (fun q hq => hcomp q (by simp [hq])) as bs)
                    exact hc q _ _ c1 c2 ((leafAt_iff _ c1 c2 _).1 a) ((leafAt_iff _ c1 c2 _).1 b) st st' d d' hs hd
          have key := nsLoop_sim (sep := sep) hL hout hs
          rw [List.map_map, List.map_map] at key
          have k1 := nsLoop_order (sep := sep) (call := call) l1 l2 outs st
          have k2 := nsLoop_order (sep := sep) (call := call') l1' l2 outs' st'
          rw [← hms.eq] at k1 k2
          rw [k1, k2]
          rcases agree_cases key with ⟨e, h5, h6⟩ | ⟨⟨a, sa⟩, ⟨b, sb⟩, h5, h6, h7, h8⟩
          · simp only [Function.comp_def] at h5 h6
            simp only [h5, h6]; rfl
          · simp only at h7 h8
            simp only [Function.comp_def] at h5 h6
            simp only [h5, h6]
            rcases agree_cases (assemble_related h7 sep outDeps) with ⟨e, g1, g2⟩ | ⟨o, o', g1, g2, g3⟩
            · simp only [g1, g2]; rfl
            · simp only [g1, g2]
              exact ⟨g3, h7, h8⟩

theorem callStep_sim {sig : Sig M P S K A} {sig' : Sig M' P' S' K A'} {sep : Char} {params : Tree P} {params' : Tree P'} (hp : Alike params params') {training : Bool} {rng : K} {m : M}
    {m' : M'} {q : List Str} {R : A → A' → Prop} {Q : S → S' → Prop} (hq : Comps sep q) (hne : q ≠ []) {st : Tree S} {st' : Tree S'} (hs : Related Q st st') {d : Tree A} {d' : Tree A'}
    (hc : ∀ p p' s s', Tree.get params q = .ok (.leaf p) → Tree.get params' q = .ok (.leaf p') → Q s s' → Agree (Both R Q) (sig.call m p d training s rng) (sig'.call m' p' d' training s' rng)) :
    Agree (Both R (Related Q)) (callStep sig sep params training rng m (joinWith sep q) d st) (callStep sig' sep params' training rng m' (joinWith sep q) d' st') := by
  unfold callStep
  rcases agree_cases (leafAt_sim hp sep (joinWith sep q)) with ⟨e, h1, h2⟩ | ⟨p, p', h1, h2, -⟩
  · simp only [h1, h2]; rfl
  · simp only [h1, h2]
    rcases agree_cases (leafAt_sim hs sep (joinWith sep q)) with ⟨e, h3, h4⟩ | ⟨s, s', h3, h4, h5⟩
    · simp only [h3, h4]; rfl
    · simp only [h3, h4]
      rcases agree_cases (hc p p' s s' ((leafAt_iff _ hq hne _).1 h1) ((leafAt_iff _ hq hne _).1 h2) h5) with ⟨e, g1, g2⟩ | ⟨⟨a, sa⟩, ⟨b, sb⟩, g1, g2, g3, g4⟩
      · simp only [g1, g2]; rfl
      · simp only at g3 g4
        simp only [g1, g2]
        rcases agree_cases (set_related hs (related_leaf g4) (splitOn sep (joinWith sep q))) with ⟨e, k1, k2⟩ | ⟨o, o', k1, k2, ho⟩
        · simp only [k1, k2]; rfl
        · simp only [k1, k2]
          exact ⟨g3, ho⟩

open DataflowSpec in
theorem nsCall_sim {sig : Sig M P S K A} {sig' : Sig M' P' S' K A'} {sep : Char} {fresh : Str → Nat → Nat → Str} {training : Bool} {R : A → A' → Prop} {Q : S → S' → Prop}
    {modules : Tree M} {params : Tree P} {modules' : Tree M'} {params' : Tree P'} {conn : List (Str × List Str)} (h : Names sep modules conn) (hm : Alike modules modules')
    (hp : Alike params params') {rng : K}
    (hc : ∀ q m p m' p', Tree.get modules q = .ok (.leaf m) → Tree.get params q = .ok (.leaf p) → Tree.get modules' q = .ok (.leaf m') → Tree.get params' q = .ok (.leaf p') →
      ∀ s s' x x', Q s s' → Related R x x' → Agree (Both R Q) (sig.call m p x training s rng) (sig'.call m' p' x' training s' rng))
    {state : Tree S} {state' : Tree S'} (hs : Related Q state state') {x : Tree A} {x' : Tree A'} (hx : Related R x x') :
    Agree (Both R (Related Q)) (nsCall sig sep fresh modules conn params x training state rng) (nsCall sig' sep fresh modules' conn params' x' training state' rng) := by
  unfold nsCall
  rcases agree_cases (nsRun_sim (fresh := fresh) (Q := Related Q) (call := callStep sig sep params training rng) (call' := callStep sig' sep params' training rng) h hm
    (fun q m m' hq hne g1 g2 st st' d d' hst hd => callStep_sim hp hq hne hst fun p p' s s' g3 g4 hss => hc q m p m' p' g1 g3 g2 g4 s s' d d' hss hd) hx hs)
    with ⟨e, h1, h2⟩ | ⟨⟨a, ta, sa⟩, ⟨b, tb, sb⟩, h1, h2, h3, -, h5⟩
  · simp only [h1, h2]; rfl
  · simp only at h3 h5
    simp only [h1, h2]
    exact ⟨h3, h5⟩

/-! ### Shapes and compilation -/

theorem related_eq {B : Type} {t u : Tree B} : Related (fun a b => a = b) t u ↔ t = u := by
  constructor
  · rintro ⟨z, rfl, rfl⟩
    congr 1
    funext p
    exact p.2
  · rintro rfl
    exact ⟨map (fun a => ⟨(a, a), rfl⟩) t, by rw [Tree.map_map]; exact (Tree.map_id t).symm, by rw [Tree.map_map]; exact (Tree.map_id t).symm⟩

theorem related_get {B C : Type} {R : B → C → Prop} {t : Tree B} {u : Tree C} (h : Related R t u) {q : List Str} {b : B} {c : C} (hb : Tree.get t q = .ok (.leaf b))
    (hc : Tree.get u q = .ok (.leaf c)) : R b c := by
  have := get_related h q
  rw [hb, hc] at this
  obtain ⟨c', e, hr⟩ := related_leaf_inv this
  cases e
  exact hr

theorem seqShapeLoop_sim {sig : Sig M P S K A} {sig' : Sig M' P' S' K A'} : ∀ {l : List M} {l' : List M'},
    List.Forall₂ (fun m m' => ∀ s, sig'.outShape m' s = sig.outShape m s) l l' → ∀ s, seqShapeLoop sig' l' s = seqShapeLoop sig l s
  | _, _, .nil, _ => rfl
  | _, _, .cons h t, s => by
    simp only [seqShapeLoop, h s]
    cases sig.outShape _ s with
    | error e => rfl
    | ok r => exact seqShapeLoop_sim t r

open DataflowSpec in
theorem nsShapes_sim {sig : Sig M P S K A} {sig' : Sig M' P' S' K A'} {sep : Char} {fresh : Str → Nat → Nat → Str} {modules : Tree M} {modules' : Tree M'} {conn : List (Str × List Str)}
    (h : Names sep modules conn) (hm : Related (fun m m' => ∀ s, sig'.outShape m' s = sig.outShape m s) modules modules') (s : Tree Shape) :
    nsShapes sig' sep fresh modules' conn s = nsShapes sig sep fresh modules conn s := by
  have ho : execOrder sep modules' conn = execOrder sep modules conn := by
    obtain ⟨z, rfl, rfl⟩ := hm
    rw [execOrder_map, execOrder_map]
  unfold nsShapes
  rw [ho]
  cases execOrder sep modules conn with
  | error e => rfl
  | ok order =>
    simp only
    cases Tree.extend (fun _ _ => false) .none (order.map fun s => (splitOn sep s, (.none : Tree Shape))) with
    | error e => rfl
    | ok ins =>
      simp only
      have := nsRun_sim (fresh := fresh) (R := fun a b => a = b) (Q := fun a b => a = b) (call := shapeStep sig sep) (call' := shapeStep sig' sep) h (alike_of hm)
        (fun q m m' hq hne g1 g2 st st' d d' hst hd => by
          subst hst
          rw [related_eq] at hd
          subst hd
          unfold shapeStep
          cases Tree.set st (splitOn sep (joinWith sep q)) d with
          | error e => rfl
          | ok ins' =>
            simp only [related_get hm g1 g2 d]
            cases sig.outShape m d with
            | error e => rfl
            | ok o => exact ⟨related_eq.2 rfl, rfl⟩) (related_eq.2 rfl : Related _ s s) (rfl : ins = ins)
      rcases agree_cases this with ⟨e, h1, h2⟩ | ⟨⟨a, b, c⟩, ⟨a', b', c'⟩, h1, h2, h3, h4, h5⟩
      · rw [h1, h2]
      · simp only [related_eq] at h3 h4 h5
        rw [h1, h2, h3, h4, h5]

theorem seqCompileLoop_sim {sig : Sig M P S K A} {sig' : Sig M' P' S' K A'} (hk : sig'.split = sig.split) {R : M → M' → Prop}
    (hs : ∀ m m', R m m' → ∀ s, sig'.outShape m' s = sig.outShape m s) : ∀ {l : List M} {l' : List M'},
    List.Forall₂ (fun m m' => ∀ k s, Agree R (sig.compile m k s) (sig'.compile m' k s)) l l' → ∀ {k s acc acc'}, List.Forall₂ R acc acc' →
    Agree (fun r r' => List.Forall₂ R r.1 r'.1 ∧ r.2 = r'.2) (seqCompileLoop sig l k s acc) (seqCompileLoop sig' l' k s acc')
  | _, _, .nil, _, _, _, _, ha => ⟨ha, rfl⟩
  | _, _, .cons h t, k, s, acc, acc', ha => by
    simp only [seqCompileLoop, hk]
    rcases agree_cases (h (sig.split k).2 s) with ⟨e, h1, h2⟩ | ⟨a, b, h1, h2, h3⟩
    · simp only [h1, h2]; rfl
    · simp only [h1, h2, hs a b h3 s]
      cases sig.outShape a s with
      | error e => rfl
      | ok r => exact seqCompileLoop_sim hk hs t (List.rel_append ha (.cons h3 .nil))

theorem nsCompileLoop_sim {sig : Sig M P S K A} {sig' : Sig M' P' S' K A'} (hk : sig'.split = sig.split) {sep : Char} {ins : Tree Shape} {R : M → M' → Prop}
    (h : ∀ m m', R m m' → ∀ k s, Agree R (sig.compile m k s) (sig'.compile m' k s)) : ∀ (order : List Str) {k : K} {t : Tree M} {t' : Tree M'}, Related R t t' →
    Agree (Related R) (nsCompileLoop sig sep ins order k t) (nsCompileLoop sig' sep ins order k t')
  | [], _, _, _, ht => ht
  | path :: rest, k, t, t', ht => by
    simp only [nsCompileLoop, hk]
    split
    · exact nsCompileLoop_sim hk h rest ht
    · rcases agree_cases (leafAt_sim ht sep path) with ⟨e, h1, h2⟩ | ⟨m, m', h1, h2, h3⟩
      · simp only [h1, h2]; rfl
      · simp only [h1, h2]
        cases Tree.get ins (splitOn sep path) with
        | error e => rfl
        | ok s =>
          simp only
          rcases agree_cases (h m m' h3 (sig.split k).2 s) with ⟨e, g1, g2⟩ | ⟨a, b, g1, g2, g3⟩
          · simp only [g1, g2]; rfl
          · simp only [g1, g2]
            rcases agree_cases (set_related ht (related_leaf g3) (splitOn sep path)) with ⟨e, k1, k2⟩ | ⟨o, o', k1, k2, ho⟩
            · simp only [k1, k2]; rfl
            · simp only [k1, k2]
              exact nsCompileLoop_sim hk h rest ho

theorem nsCompileLoop_skel {sig : Sig M P S K A} {sep : Char} {ins : Tree Shape} : ∀ (order : List Str) {k : K} {t t' : Tree M},
    nsCompileLoop sig sep ins order k t = .ok t' → skel t' = skel t
  | [], _, _, _, h => by cases h; rfl
  | path :: rest, k, t, t', h => by
    simp only [nsCompileLoop] at h
    split at h
    · exact nsCompileLoop_skel rest h
    · split at h
      · cases h
      · next m hm =>
        split at h
        · cases h
        · split at h
          · cases h
          · split at h
            · cases h
            · next t1 hset =>
              refine (nsCompileLoop_skel rest h).trans (skel_set (b := m) ?_ hset)
              unfold leafAt at hm
              split at hm
              · cases hm
              · next e => cases hm; exact e
              · cases hm

theorem flat_of_related {B C : Type} {D : B → Prop} {R : B → C → Prop} {t : Tree B} {u : Tree C} (h : Related (fun a b => D a ∧ R a b) t u) : ∀ a ∈ t.flat, D a := by
  obtain ⟨z, rfl, -⟩ := h
  intro a ha
  rw [Tree.flat_map'] at ha
  obtain ⟨p, -, rfl⟩ := List.mem_map.1 ha
  exact p.2.1

theorem related_and {B C : Type} {D : B → Prop} {R : B → C → Prop} {t : Tree B} {u : Tree C} (h : Related R t u) (hD : ∀ a ∈ t.flat, D a) : Related (fun a b => D a ∧ R a b) t u := by
  obtain ⟨z, rfl, rfl⟩ := h
  have := related_self (R := fun (p q : Pair R) => p = q ∧ D p.1.1) (g := fun p => p) z fun p hp => ⟨rfl, hD _ (by rw [Tree.flat_map']; exact List.mem_map_of_mem hp)⟩
  rw [Tree.map_id] at this
  exact map_related (fun a b hab => ⟨hab.2, by rw [← hab.1]; exact a.2⟩) this

theorem related_mono {B C : Type} {R R' : B → C → Prop} {t : Tree B} {u : Tree C} (hR : ∀ a b, R a b → R' a b) (h : Related R t u) : Related R' t u := by
  have := map_related (F := fun a => a) (G := fun a => a) hR h
  rwa [Tree.map_id, Tree.map_id] at this

end SimSpec
end Verif
