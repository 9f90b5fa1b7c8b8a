import Verif.Lemmas.Tight
import Verif.Lemmas.NonSeqComplete
import Verif.Lemmas.NonSeqExec
import Verif.Lemmas.ModelFile
import Verif.Spec.Rename

/-! Graph models that differ only in names and order. -/

namespace Verif.Forward
open TreeSpec ConnSpec PathSpec ForwardSpec DataflowSpec RenameSpec Conn Tree Relation

variable {M P S K A : Type} {sep : Char} {modules modules' : Tree M} {conn conn' : List (Str × List Str)} {fresh fresh' : Str → Nat → Nat → Str}
  {rel : List Str → List Str → Prop}

theorem _root_.Verif.RenameSpec.SameEdge.flip {cfg : Cfg} {e e' : Str × Str} (h : SameEdge cfg modules modules' rel e e') :
    SameEdge cfg modules' modules (fun a b => rel b a) e' e := by
  obtain ⟨a, r, b, s, a', b', h1, h2, h3, h4, h5, h6⟩ := h
  exact ⟨a', r, b', s, a, b, h1, h2, h5, h6, h3, h4⟩

theorem _root_.Verif.RenameSpec.Renames.flip {cfg : Cfg} (h : Renames cfg modules modules' conn conn' rel) :
    Renames cfg modules' modules conn' conn (fun a b => rel b a) where
  input := h.input
  output := h.output
  left a b c h1 h2 := h.right c a b h1 h2
  right a b c h1 h2 := h.left b c a h1 h2
  mod a b h1 := (h.mod b a h1).symm
  forth e he hu := by
    obtain ⟨e', he', hs⟩ := h.back e he hu
    exact ⟨e', he', hs.flip⟩
  back e he hu := by
    obtain ⟨e', he', hs⟩ := h.forth e he hu
    exact ⟨e', he', hs.flip⟩

theorem clear_edges (h : Names sep modules conn) (hf : FreshOk sep fresh) (hcl : Clear sep fresh conn) {R : List (Str × List Str)}
    (hR : concretizeConnections (nsCfg sep) fresh modules conn = .ok R) : (edges R).Perm (edges conn) := by
  obtain ⟨R', T, h1, -, h3, h4, h5, h6, h7, h8⟩ := concretize_main (goodCfg h) h.digit (fun o c i => ⟨hf.ne o c i, hf.sepFree o c i⟩)
    (fun _ => True) (fun _ => trivial) (fun _ _ _ => trivial) h.wf
  rw [hR] at h1
  cases h1
  have hfree : PrefixFree (T.map fun t : Triple => splitOn sep t.req) := by
    have hp := h3.map fun e : Str × Str => splitOn sep e.2
    rw [List.map_map] at hp
    exact (List.Perm.pairwise_iff (fun {x y} hxy => ⟨hxy.2, hxy.1⟩) hp).2 hcl.free
  have heq : ∀ t ∈ T, t.mod ++ t.inner = splitOn sep t.req := by
    intro t ht
    obtain ⟨i, hi, rfl⟩ := List.getElem_of_mem ht
    refine h8 hcl.new i _ (List.getElem?_eq_getElem hi) ?_
    intro j t' hj ht'
    obtain ⟨hj', rfl⟩ := List.getElem?_eq_some_iff.1 ht'
    have := List.pairwise_iff_getElem.1 hfree
    rcases Nat.lt_or_ge i j with hij | hij
    · have := (this i j (by simpa using hi) (by simpa using hj') hij).1
      rw [List.getElem_map, List.getElem_map] at this
      exact this
    · have := (this j i (by simpa using hj') (by simpa using hi) (by omega)).2
      rw [List.getElem_map, List.getElem_map] at this
      exact this
  refine h4.symm.trans (List.Perm.trans (List.Perm.of_eq ?_) h3)
  refine List.map_congr_left fun t ht => ?_
  rw [heq t ht]
  exact congrArg (Prod.mk t.key) (joinWith_splitOn _ _)

/-- The place an edge leads to, for edges of the concretised connections. -/
theorem edge_target (h : Names sep modules conn) {k v : Str} (he : (k, v) ∈ edges conn) {m r : List Str} (hm : IsTarget sep modules m)
    (hv : splitOn sep v = m ++ r) : Target (nsCfg sep) modules v m r ∧ Canonical (m ++ r) := by
  obtain ⟨kv, hkv, e1, e2⟩ := mem_edges_key he
  obtain ⟨m', r', ht⟩ := h.wf.target kv hkv v e2
  have hs := ht.1
  change splitOn sep v = m' ++ r' at hs
  obtain ⟨rfl, rfl⟩ := isTarget_unique hm (r := r) (r' := r') ht.2.2 (by rw [← hv, hs]; exact ht.2.1) (by rw [← hv, hs])
  exact ⟨ht, by rw [← hv]; exact h.canonTgt _ he⟩

theorem rel_target {e e' : Str × Str} (hr : Renames (nsCfg sep) modules modules' conn conn' rel)
    (hs : SameEdge (nsCfg sep) modules modules' rel e e') {m m' r : List Str} (hmm : rel m m') (ht : Target (nsCfg sep) modules e.2 m r) :
    ∃ a ra a', rel a a' ∧ Source (nsCfg sep) modules e.1 a ra ∧ Source (nsCfg sep) modules' e'.1 a' ra ∧ Target (nsCfg sep) modules' e'.2 m' r := by
  obtain ⟨a, ra, b, s, a', b', h1, h2, h3, h4, h5, h6⟩ := hs
  obtain ⟨rfl, rfl⟩ := target_unique ht h4
  obtain rfl := hr.right _ _ _ hmm h2
  exact ⟨a, ra, a', h1, h3, h5, h6⟩

theorem rel_feeds (hr : Renames (nsCfg sep) modules modules' conn conn' rel) {a b : List Str} (h : Feeds (nsCfg sep) modules conn a b)
    (hb : Leads (nsCfg sep) modules conn b) : ∃ a' b', rel a a' ∧ rel b b' ∧ Feeds (nsCfg sep) modules' conn' a' b' := by
  obtain ⟨e, he, r, s, h1, h2⟩ := h
  obtain ⟨e', he', x, r', y, s', x', y', k1, k2, k3, k4, k5, k6⟩ := hr.forth e he ⟨b, s, h2, hb⟩
  obtain ⟨rfl, rfl⟩ := source_unique h1 k3
  obtain ⟨rfl, rfl⟩ := target_unique h2 k4
  exact ⟨x', y', k1, k2, e', he', _, _, k5, k6⟩

theorem rel_reach (hr : Renames (nsCfg sep) modules modules' conn conn' rel) {a b : List Str} (h : ReflTransGen (Feeds (nsCfg sep) modules conn) a b) :
    Leads (nsCfg sep) modules conn b → ∀ a', rel a a' → ∃ b', rel b b' ∧ ReflTransGen (Feeds (nsCfg sep) modules' conn') a' b' := by
  intro hl a' ha
  induction h with
  | refl => exact ⟨a', ha, .refl⟩
  | tail _ hf ih =>
    obtain ⟨b', hb, hrt⟩ := ih (.head hf hl)
    obtain ⟨x, y, h1, h2, h3⟩ := rel_feeds hr hf hl
    obtain rfl := hr.right _ _ _ hb h1
    exact ⟨y, h2, hrt.tail h3⟩

theorem rel_trans (hr : Renames (nsCfg sep) modules modules' conn conn' rel) {a b : List Str} (h : TransGen (Feeds (nsCfg sep) modules conn) a b) :
    Leads (nsCfg sep) modules conn b → ∀ a', rel a a' → ∃ b', rel b b' ∧ TransGen (Feeds (nsCfg sep) modules' conn') a' b' := by
  intro hl a' ha
  induction h with
  | single hf =>
    obtain ⟨x, y, h1, h2, h3⟩ := rel_feeds hr hf hl
    obtain rfl := hr.right _ _ _ ha h1
    exact ⟨y, h2, .single h3⟩
  | tail _ hf ih =>
    obtain ⟨b', hb, hrt⟩ := ih (.head hf hl)
    obtain ⟨x, y, h1, h2, h3⟩ := rel_feeds hr hf hl
    obtain rfl := hr.right _ _ _ hb h1
    exact ⟨y, h2, hrt.tail h3⟩

theorem rel_scheduled (hr : Renames (nsCfg sep) modules modules' conn conn' rel) {m : List Str} (h : Scheduled (nsCfg sep) modules conn m) :
    ∃ m', rel m m' ∧ Scheduled (nsCfg sep) modules' conn' m' := by
  obtain ⟨m', h1, h2⟩ := rel_reach hr h.2.1 h.2.2 _ hr.input
  obtain ⟨o, h3, h4⟩ := rel_reach hr h.2.2 .refl _ h1
  obtain rfl := hr.right _ _ _ h3 hr.output
  exact ⟨m', h1, (hr.mod _ _ h1).1 h.1, h2, h4⟩

theorem rel_accepted (hr : Renames (nsCfg sep) modules modules' conn conn' rel) (h : Accepted (nsCfg sep) modules conn) :
    Accepted (nsCfg sep) modules' conn' where
  connected := by
    obtain ⟨o, h1, h2⟩ := rel_reach hr h.connected .refl _ hr.input
    obtain rfl := hr.right _ _ _ h1 hr.output
    exact h2
  acyclic m' hm' ht := by
    obtain ⟨m, h1, h2⟩ := rel_scheduled hr.flip hm'
    obtain ⟨n, h3, h4⟩ := rel_trans hr.flip ht hm'.2.2 _ h1
    obtain rfl := hr.left _ _ _ h1 h3
    exact h.acyclic _ h2 h4
  fed m' hm' a' hf := by
    obtain ⟨a, m, h1, h2, h3⟩ := rel_feeds hr.flip hf (by
      rcases hm' with hm' | rfl
      · exact hm'.2.2
      · exact .refl)
    have hm : Scheduled (nsCfg sep) modules conn m ∨ m = [(nsCfg sep).outKey] := by
      rcases hm' with hm' | rfl
      · obtain ⟨n, h4, h5⟩ := rel_scheduled hr.flip hm'
        obtain rfl := hr.left _ _ _ h2 h4
        exact .inl h5
      · exact .inr (hr.left _ _ _ h2 hr.output)
    obtain ⟨b, h4, h5⟩ := rel_reach hr (h.fed m hm a h3) (.head h3 (by
      rcases hm with hm | rfl
      · exact hm.2.2
      · exact .refl)) _ hr.input
    obtain rfl := hr.right _ _ _ h1 h4
    exact h5

/-! ### Layouts of the inputs -/

theorem proper_right {a b : List Str} (h : Proper (a ++ b)) : Proper b := fun x hx => h x (List.mem_append_right _ hx)

theorem holds_leaf (h : Names sep modules conn) (hf : FreshOk sep fresh) (hcl : Clear sep fresh conn) {R : List (Str × List Str)}
    (hR : concretizeConnections (nsCfg sep) fresh modules conn = .ok R) {m : List Str} (hm : IsTarget sep modules m) {req : Tree Str}
    (hh : Holds sep R m req) {r : List Str} (hp : Proper r) (hc : Canonical r) {k : Str} :
    get req r = .ok (.leaf k) ↔ ∃ v, (k, v) ∈ edges conn ∧ Target (nsCfg sep) modules v m r := by
  have hperm := clear_edges h hf hcl hR
  constructor
  · intro hg
    obtain ⟨q, hq, ha⟩ := at_of_get (q := []) hp hg (.leaf k)
    rw [List.append_nil] at ha
    obtain ⟨v, r2, h1, h2, h3⟩ := hh.only q k ha
    have he := hperm.subset h1
    obtain ⟨ht, hcan⟩ := edge_target h he hm h2
    obtain rfl := spells_unique hc (canonical_right hcan) hq h3
    exact ⟨v, he, ht⟩
  · rintro ⟨v, he, ht⟩
    exact hh.slot k v r (hperm.symm.subset he) ht.1

/-- The layouts are tight. -/
theorem place_tight (h : Names sep modules conn) (hf : FreshOk sep fresh) {placed outPlaced : Tree Str}
    (hp : place (nsCfg sep) fresh modules conn = .ok (placed, outPlaced)) (ho : ∃ a, Feeds (nsCfg sep) modules conn a ["output".toList]) :
    Tight outPlaced ∧ ∀ m a, IsModule (nsCfg sep) modules m → Feeds (nsCfg sep) modules conn a m → Tight placed := by
  obtain ⟨R, hR, hc⟩ := concrete_ok h hf
  obtain ⟨P, O, hd, hpl⟩ := place_form (goodCfg h) (by show "output".toList ≠ []; decide) h.digit
    (fun o c i => ⟨hf.ne o c i, hf.sepFree o c i⟩) (fun o c i => hf.canon o c i _ (by simp)) h.wf h.canonTgt h.cleanTgt hR
  rw [hpl] at hp
  split at hp
  · simp at hp
  · next o hou =>
    split at hp
    · simp at hp
    · next t ht =>
      simp only [Except.ok.injEq, Prod.mk.injEq] at hp
      obtain ⟨rfl, rfl⟩ := hp
      constructor
      · have hO : O ≠ [] := by
          obtain ⟨a, ed, hed, r, s, h1, h2⟩ := ho
          obtain ⟨m', r', v, r0, e1, e2, e3, -⟩ := hc.forth _ _ hed
          obtain ⟨rfl, rfl⟩ := target_unique h2 e2
          have := (hd.memO r' ed.1).2 ⟨v, e1, e3⟩
          rintro rfl
          simp at this
        unfold outTree at hou
        split at hou
        · simp only [Except.ok.injEq] at hou
          subst hou
          exact .leaf _
        · next hnot =>
          refine extend_tight ?_ hO hou
          intro e he
          refine ⟨?_, hd.properO e he⟩
          intro e0
          match O, he, hd.divO, hnot with
          | [(p, k)], he, _, hnot =>
            rw [List.mem_singleton] at he
            subst he
            simp only at e0
            subst e0
            exact hnot k rfl
          | x :: y :: l, he, hdv, _ =>
            have hpc := List.pairwise_cons.1 hdv
            rcases List.mem_cons.1 he with rfl | he
            · have := hpc.1 y (by simp)
              rw [e0] at this
              exact not_diverge_nil.1 this
            · have := hpc.1 e he
              rw [e0] at this
              exact not_diverge_nil.2 this
      · rintro m a hm ⟨ed, hed, r, s, h1, h2⟩
        refine extend_tight hd.properP ?_ ht
        obtain ⟨m', r', v, r0, e1, e2, e3, -⟩ := hc.forth _ _ hed
        obtain ⟨rfl, rfl⟩ := target_unique h2 e2
        have := (hd.memP (m ++ r') ed.1).2 ⟨v, e1, e3, by
          intro rest _ e
          cases m with
          | nil => exact hm.1 rfl
          | cons x l =>
            simp only [List.cons_append, List.cons.injEq] at e
            exact hm.2.2.1 (by rw [e.1]; rfl)⟩
        rintro rfl
        simp at this

/-- Every layout that is used is tight. -/
theorem req_tight (h : Names sep modules conn) (hf : FreshOk sep fresh) (hcl : Clear sep fresh conn) {R : List (Str × List Str)}
    (hR : concretizeConnections (nsCfg sep) fresh modules conn = .ok R) {placed outPlaced : Tree Str}
    (hp : place (nsCfg sep) fresh modules conn = .ok (placed, outPlaced)) (hacc : Accepted (nsCfg sep) modules conn) {m : List Str}
    (hm : Scheduled (nsCfg sep) modules conn m ∨ m = ["output".toList]) (hh : Holds sep R m (reqOf placed outPlaced m)) :
    Tight (reqOf placed outPlaced m) := by
  have ho : ∃ a, Feeds (nsCfg sep) modules conn a ["output".toList] := by
    rcases ReflTransGen.cases_tail hacc.connected with e | ⟨a, -, ha⟩
    · exfalso
      have e' : (["output".toList] : List Str) = ["input".toList] := e
      exact absurd e' (by decide)
    · exact ⟨a, ha⟩
  obtain ⟨t1, t2⟩ := place_tight h hf hp ho
  rcases hm with hm | rfl
  · obtain ⟨a, ha⟩ := fed_of_scheduled hm
    have hpT := t2 m a hm.1 ha
    obtain ⟨e, he, r, s, hs, ht⟩ := ha
    have hproper := ht.2.1
    have hcan : Canonical (m ++ s) := by
      have := h.canonTgt e he
      have h1 := ht.1
      change splitOn sep e.2 = m ++ s at h1
      rwa [h1] at this
    have hl := (holds_leaf h hf hcl hR (.inr hm.1) hh (proper_right hproper) (canonical_right hcan) (k := e.1)).2 ⟨e.2, he, ht⟩
    have hne : m ≠ ["output".toList] := by rintro rfl; exact hm.1.2.2.1 rfl
    have hg : ∃ n, get placed m = .ok n := by
      obtain ⟨R', hR', hc⟩ := concrete_ok h hf
      rw [hR] at hR'
      cases hR'
      exact (place_holds h hf hR hc hp).2.1 a m ⟨e, he, r, s, hs, ht⟩ hm.1
    obtain ⟨n, hg⟩ := hg
    have e1 : reqOf placed outPlaced m = n := by unfold reqOf; rw [if_neg hne, hg]
    rw [e1] at hl ⊢
    exact hpT.get (fun x hx => hproper x (List.mem_append_left _ hx)) hg ⟨s, e.1, proper_right hproper, hl⟩
  · have : reqOf placed outPlaced ["output".toList] = outPlaced := by unfold reqOf; exact if_pos rfl
    rw [this]
    exact t1

theorem keysOk_get {t c : Tree A} {p : List Str} (hk : KeysOk t) (h : get t p = .ok c) : KeysOk c := by
  induction p generalizing t with
  | nil => simp only [get_nil, Except.ok.injEq] at h; subst h; exact hk
  | cons k ks ih =>
    by_cases hh : k = [] ∧ ks = []
    · obtain ⟨rfl, rfl⟩ := hh
      simp only [get_empty, Except.ok.injEq] at h; subst h; exact hk
    · rw [get_cons _ _ _ hh] at h
      cases hc : child t k with
      | error e => rw [hc] at h; cases h
      | ok d => rw [hc] at h; exact ih (child_keysOk hk hc) h

theorem get_same {t t' c : Tree A} {p : List Str} (hk : KeysOk t) (hk' : KeysOk t') (e : t'.norm = t.norm) (h : get t p = .ok c) :
    ∃ c', get t' p = .ok c' ∧ c'.norm = c.norm := by
  have h1 := get_norm hk p
  have h2 := get_norm hk' p
  rw [e, h1, h] at h2
  cases hg : get t' p with
  | error e => rw [hg] at h2; cases h2
  | ok c' =>
    rw [hg] at h2
    exact ⟨c', rfl, (Except.ok.inj h2).symm⟩

/-- What is known about the sources of a module. -/
structure Alike (x x' : Tree A) : Prop where
  left : KeysOk x
  right : KeysOk x'
  same : x'.norm = x.norm

theorem Alike.flip {x x' : Tree A} (h : Alike x x') : Alike x' x := ⟨h.right, h.left, h.same.symm⟩

/-- Half of the comparison of two layouts. -/
theorem leaves_half (h : Names sep modules conn) (h' : Names sep modules' conn') (hf : FreshOk sep fresh) (hf' : FreshOk sep fresh')
    (hcl : Clear sep fresh conn) (hcl' : Clear sep fresh' conn') (hr : Renames (nsCfg sep) modules modules' conn conn' rel)
    {R R' : List (Str × List Str)} (hR : concretizeConnections (nsCfg sep) fresh modules conn = .ok R)
    (hR' : concretizeConnections (nsCfg sep) fresh' modules' conn' = .ok R') {m m' : List Str} (hmm : rel m m')
    (hm : IsTarget sep modules m) (hm' : IsTarget sep modules' m') (hlm : Leads (nsCfg sep) modules conn m)
    {req req' : Tree Str} (hh : Holds sep R m req) (hh' : Holds sep R' m' req')
    {f f' : Str → Tree A} {val val' : List Str → Tree A}
    (hv : ∀ a a', rel a a' → Feeds (nsCfg sep) modules conn a m → Feeds (nsCfg sep) modules' conn' a' m' → Alike (val a) (val' a'))
    (hfr : ∀ k r, Proper r → get req r = .ok (.leaf k) → Reads (nsCfg sep) modules val k (f k))
    (hfr' : ∀ k r, Proper r → get req' r = .ok (.leaf k) → Reads (nsCfg sep) modules' val' k (f' k))
    {r : List Str} {v : Tree A} (hp : Proper r) (hc : Canonical r) (hk : ∃ k, get req r = .ok (.leaf k) ∧ (f k).norm = v) :
    ∃ k, get req' r = .ok (.leaf k) ∧ (f' k).norm = v := by
  obtain ⟨k, hg, rfl⟩ := hk
  obtain ⟨w, he, ht⟩ := (holds_leaf h hf hcl hR hm hh hp hc).1 hg
  obtain ⟨e', he', hs⟩ := hr.forth _ he ⟨_, _, ht, hlm⟩
  obtain ⟨a, ra, a', haa, s1, s2, t2⟩ := rel_target hr hs hmm ht
  have hg' := (holds_leaf h' hf' hcl' hR' hm' hh' hp hc (k := e'.1)).2 ⟨e'.2, he', t2⟩
  refine ⟨e'.1, hg', ?_⟩
  obtain ⟨x, rx, x1, x2⟩ := hfr k r hp hg
  obtain ⟨y, ry, y1, y2⟩ := hfr' e'.1 r hp hg'
  obtain ⟨rfl, rfl⟩ := source_unique s1 x1
  obtain ⟨rfl, rfl⟩ := source_unique s2 y1
  have hal := hv _ _ haa ⟨_, he, _, _, s1, ht⟩ ⟨_, he', _, _, s2, t2⟩
  obtain ⟨c', e1, e2⟩ := get_same hal.left hal.right hal.same x2
  rw [y2] at e1
  cases Except.ok.inj e1
  exact e2

theorem leavesL_mem {β : Type} {ts : List (Tree β)} {t : Tree β} {k : β} (h : t ∈ ts) (hk : k ∈ leaves t) : k ∈ leavesL ts := by
  induction ts with
  | nil => simp at h
  | cons u us ih =>
    rw [leavesL]
    rcases List.mem_cons.1 h with rfl | h
    · exact List.mem_append_left _ hk
    · exact List.mem_append_right _ (ih h)

theorem leavesD_mem {β : Type} {ts : List (Str × Tree β)} {p : Str × Tree β} {k : β} (h : p ∈ ts) (hk : k ∈ leaves p.2) : k ∈ leavesD ts := by
  induction ts with
  | nil => simp at h
  | cons u us ih =>
    obtain ⟨x, u⟩ := u
    rw [leavesD]
    rcases List.mem_cons.1 h with rfl | h
    · exact List.mem_append_left _ hk
    · exact List.mem_append_right _ (ih h)

theorem leaves_of_at' {β : Type} {t : Tree β} {q : List ForwardSpec.Step} {k : β} (h : At t q k) : k ∈ leaves t := by
  induction h with
  | leaf => simp [leaves]
  | list h _ ih => exact leavesL_mem (List.mem_of_getElem? h) ih
  | tuple h _ ih => exact leavesL_mem (List.mem_of_getElem? h) ih
  | dict h _ ih => exact leavesD_mem h ih

theorem leaf_of_get {t : Tree Str} {r : List Str} {k : Str} (hp : Proper r) (h : get t r = .ok (.leaf k)) : k ∈ leaves t := by
  obtain ⟨q, -, ha⟩ := at_of_get (q := []) hp h (.leaf k)
  rw [List.append_nil] at ha
  exact leaves_of_at' ha

mutual
theorem keysOk_subst {f : Str → Tree A} : ∀ (t : Tree Str), KeysOk t → (∀ k ∈ leaves t, KeysOk (f k)) → KeysOk (subst f t)
  | .leaf k, _, h => h k (by simp [leaves])
  | .none, _, _ => trivial
  | .list ts, hk, h => keysOkL_subst ts hk h
  | .tuple ts, hk, h => keysOkL_subst ts hk h
  | .dict kvs, hk, h => by
    refine ⟨?_, keysOkD_subst kvs hk.2 h⟩
    rw [substD_eq, List.map_map]
    exact hk.1
theorem keysOkL_subst {f : Str → Tree A} : ∀ (ts : List (Tree Str)), KeysOkL ts → (∀ k ∈ leavesL ts, KeysOk (f k)) → KeysOkL (substL f ts)
  | [], _, _ => trivial
  | t :: ts, hk, h => ⟨keysOk_subst t hk.1 fun k hm => h k (List.mem_append_left _ hm), keysOkL_subst ts hk.2 fun k hm => h k (List.mem_append_right _ hm)⟩
theorem keysOkD_subst {f : Str → Tree A} : ∀ (ts : List (Str × Tree Str)), KeysOkD ts → (∀ k ∈ leavesD ts, KeysOk (f k)) → KeysOkD (substD f ts)
  | [], _, _ => trivial
  | (_, t) :: ts, hk, h => ⟨keysOk_subst t hk.1 fun k hm => h k (List.mem_append_left _ hm), keysOkD_subst ts hk.2 fun k hm => h k (List.mem_append_right _ hm)⟩
end

theorem keysOkL_of {β : Type} {ts : List (Tree β)} (h : ∀ c ∈ ts, KeysOk c) : KeysOkL ts := by
  induction ts with
  | nil => trivial
  | cons t ts ih => exact ⟨h t (by simp), ih fun c hc => h c (List.mem_cons_of_mem _ hc)⟩

theorem keysOkD_of {β : Type} {ts : List (Str × Tree β)} (h : ∀ c ∈ ts, KeysOk c.2) : KeysOkD ts := by
  induction ts with
  | nil => trivial
  | cons t ts ih =>
    obtain ⟨k, t⟩ := t
    exact ⟨h (k, t) (by simp), ih fun c hc => h c (List.mem_cons_of_mem _ hc)⟩

theorem tight_keysOk {β : Type} {t : Tree β} (h : Tight t) : KeysOk t := by
  induction h with
  | leaf => trivial
  | list _ _ _ ih =>
    refine keysOkL_of fun c hc => ?_
    by_cases hn : c = .none
    · subst hn; trivial
    · exact ih c hc hn
  | dict h1 _ _ _ ih => exact ⟨h1, keysOkD_of fun c hc => ih c hc⟩

/-- The input of a module of the second model, from the input of the corresponding module of the first. -/
theorem fills_rename (h : Names sep modules conn) (h' : Names sep modules' conn') (hf : FreshOk sep fresh) (hf' : FreshOk sep fresh')
    (hcl : Clear sep fresh conn) (hcl' : Clear sep fresh' conn') (hr : Renames (nsCfg sep) modules modules' conn conn' rel)
    {R R' : List (Str × List Str)} (hR : concretizeConnections (nsCfg sep) fresh modules conn = .ok R)
    (hR' : concretizeConnections (nsCfg sep) fresh' modules' conn' = .ok R') {m m' : List Str} (hmm : rel m m')
    (hm : IsTarget sep modules m) (hm' : IsTarget sep modules' m') (hlm : Leads (nsCfg sep) modules conn m)
    (hlm' : Leads (nsCfg sep) modules' conn' m') {req req' : Tree Str} (hh : Holds sep R m req) (hh' : Holds sep R' m' req')
    (ht : Tight req) (ht' : Tight req') {val val' : List Str → Tree A}
    (hv : ∀ a a', rel a a' → Feeds (nsCfg sep) modules conn a m → Feeds (nsCfg sep) modules' conn' a' m' → Alike (val a) (val' a')) {inp : Tree A}
    (hfill : Fills (Reads (nsCfg sep) modules val) req inp) :
    ∃ inp', Fills (Reads (nsCfg sep) modules' val') req' inp' ∧ Alike inp inp' := by
  classical
  obtain ⟨f, hfr, rfl⟩ := hfill
  have hex : ∀ k' ∈ leaves req', ∃ v, Reads (nsCfg sep) modules' val' k' v ∧ KeysOk v := by
    intro k' hk'
    obtain ⟨q, hq⟩ := at_of_leaves req' k' hk'
    obtain ⟨v, r, h1, h2, -⟩ := hh'.only q k' hq
    have he := (clear_edges h' hf' hcl' hR').subset h1
    obtain ⟨htg, hcan⟩ := edge_target h' he hm' h2
    obtain ⟨e, hed, hs⟩ := hr.back _ he ⟨_, _, htg, hlm'⟩
    obtain ⟨a', ra, a, haa, s1, s2, t2⟩ := rel_target hr.flip hs.flip hmm htg
    have hg := (holds_leaf h hf hcl hR hm hh (proper_right t2.2.1) (canonical_right hcan) (k := e.1)).2 ⟨e.2, hed, t2⟩
    obtain ⟨x, rx, x1, x2⟩ := hfr _ (leaf_of_get (proper_right t2.2.1) hg)
    obtain ⟨rfl, rfl⟩ := source_unique s2 x1
    have hal := hv _ _ haa ⟨_, hed, _, _, s2, t2⟩ ⟨_, he, _, _, s1, htg⟩
    obtain ⟨c', e1, -⟩ := get_same hal.left hal.right hal.same x2
    exact ⟨c', ⟨a', ra, s1, e1⟩, keysOk_get hal.right e1⟩
  let f' : Str → Tree A := fun k => if hk : ∃ v, Reads (nsCfg sep) modules' val' k v ∧ KeysOk v then hk.choose else .none
  have hf'r : ∀ k ∈ leaves req', Reads (nsCfg sep) modules' val' k (f' k) ∧ KeysOk (f' k) := by
    intro k hk
    have := hex k hk
    simp only [f', dif_pos this]
    exact this.choose_spec
  have hfk : ∀ k ∈ leaves req, KeysOk (f k) := by
    intro k hk
    obtain ⟨q, hq⟩ := at_of_leaves req k hk
    obtain ⟨v, r, h1, h2, -⟩ := hh.only q k hq
    have he := (clear_edges h hf hcl hR).subset h1
    obtain ⟨htg, -⟩ := edge_target h he hm h2
    obtain ⟨e', hed', hs⟩ := hr.forth _ he ⟨_, _, htg, hlm⟩
    obtain ⟨a, ra, a', haa, s1, s2, t2⟩ := rel_target hr hs hmm htg
    obtain ⟨x, rx, x1, x2⟩ := hfr _ hk
    obtain ⟨rfl, rfl⟩ := source_unique s1 x1
    exact keysOk_get (hv _ _ haa ⟨_, he, _, _, s1, htg⟩ ⟨_, hed', _, _, s2, t2⟩).left x2
  refine ⟨subst f' req', ⟨f', fun k hk => (hf'r k hk).1, rfl⟩, keysOk_subst _ (tight_keysOk ht) hfk,
    keysOk_subst _ (tight_keysOk ht') (fun k hk => (hf'r k hk).2), ?_⟩
  symm
  refine ht.determined ht' fun r v hp hc => ⟨?_, ?_⟩
  · exact leaves_half h h' hf hf' hcl hcl' hr hR hR' hmm hm hm' hlm hh hh' hv (fun k r hp hg => hfr k (leaf_of_get hp hg))
      (fun k r hp hg => (hf'r k (leaf_of_get hp hg)).1) hp hc
  · exact leaves_half h' h hf' hf hcl' hcl hr.flip hR' hR hmm hm' hm hlm' hh' hh (fun a a' haa i j => (hv a' a haa j i).flip)
      (fun k r hp hg => (hf'r k (leaf_of_get hp hg)).1) (fun k r hp hg => hfr k (leaf_of_get hp hg)) hp hc

/-- All that placing says about the layouts. -/
theorem req_holds (h : Names sep modules conn) (hf : FreshOk sep fresh) {R : List (Str × List Str)}
    (hR : concretizeConnections (nsCfg sep) fresh modules conn = .ok R) {placed outPlaced : Tree Str}
    (hp : place (nsCfg sep) fresh modules conn = .ok (placed, outPlaced)) (hacc : Accepted (nsCfg sep) modules conn) :
    (∀ m, Scheduled (nsCfg sep) modules conn m → Holds sep R m (reqOf placed outPlaced m)) ∧
      Holds sep R ["output".toList] (reqOf placed outPlaced ["output".toList]) := by
  obtain ⟨order, ho⟩ := (exec_iff h).2 hacc
  obtain ⟨R', hR', hc⟩ := concrete_ok h hf
  rw [hR] at hR'
  cases hR'
  obtain ⟨ms, hms⟩ := order_main h ho
  obtain ⟨hh1, hh2, hh3⟩ := place_holds h hf hR hc hp
  constructor
  · intro m hm
    have hmm := (hms.mem m).2 hm
    obtain ⟨a, ha⟩ := fed_of_scheduled hm
    obtain ⟨req, hreq⟩ := hh2 a m ha hm.1
    refine hh1 m _ hm.1 (hms.comps m hmm).1 (hms.comps m hmm).2 ?_
    unfold reqOf
    rw [if_neg (by rintro e; exact hm.1.2.2.1 (by rw [e]; rfl)), hreq]
  · unfold reqOf; rw [if_pos rfl]; exact hh3

/-- A solution of the equations of the first model gives one of the second. -/
theorem dataflow_rename (h : Names sep modules conn) (h' : Names sep modules' conn') (hf : FreshOk sep fresh) (hf' : FreshOk sep fresh')
    (hcl : Clear sep fresh conn) (hcl' : Clear sep fresh' conn') (hr : Renames (nsCfg sep) modules modules' conn conn' rel)
    (hacc : Accepted (nsCfg sep) modules conn) {placed outPlaced placed' outPlaced' : Tree Str}
    (hp : place (nsCfg sep) fresh modules conn = .ok (placed, outPlaced))
    (hp' : place (nsCfg sep) fresh' modules' conn' = .ok (placed', outPlaced'))
    {params params' : Tree P} {state state' : Tree S} (hM : Agree (nsCfg sep) modules rel modules modules')
    (hP : Agree (nsCfg sep) modules rel params params') (hS : Agree (nsCfg sep) modules rel state state')
    {call : M → P → Tree A → S → Except PyErr (Tree A × S)} (hkeys : ∀ m p x s y s', KeysOk x → call m p x s = .ok (y, s') → KeysOk y)
    (hb : ∀ m p x x' s y s', KeysOk x → KeysOk x' → x.norm = x'.norm → call m p x s = .ok (y, s') → ∃ y', call m p x' s = .ok (y', s') ∧ y'.norm = y.norm)
    {data data' out : Tree A} (hdata : Alike data data') {val : List Str → Tree A} {news : List Str → Option S}
    (hd : Dataflow (nsCfg sep) modules params state call (Scheduled (nsCfg sep) modules conn) (reqOf placed outPlaced) data val news out) :
    ∃ out' val' news', Dataflow (nsCfg sep) modules' params' state' call (Scheduled (nsCfg sep) modules' conn') (reqOf placed' outPlaced') data'
      val' news' out' ∧ out'.norm = out.norm ∧ ∀ m m', rel m m' → Scheduled (nsCfg sep) modules' conn' m' → news' m' = news m := by
  classical
  have hacc' := rel_accepted hr hacc
  obtain ⟨R, hR, -⟩ := concrete_ok h hf
  obtain ⟨R', hR', hcc⟩ := concrete_ok h' hf'
  obtain ⟨H1, H2⟩ := req_holds h hf hR hp hacc
  obtain ⟨H1', H2'⟩ := req_holds h' hf' hR' hp' hacc'
  obtain ⟨order', ho'⟩ := (exec_iff h').2 hacc'
  obtain ⟨ms, hms⟩ := order_main h' ho'
  have key : ∀ n : Nat, ∃ (val' : List Str → Tree A) (news' : List Str → Option S), val' ["input".toList] = data' ∧ ∀ m' ∈ ms.take n,
      (∀ m, rel m m' → Alike (val m) (val' m') ∧ news' m' = news m) ∧
      ∃ b p s inp s', Tree.get modules' m' = .ok (.leaf b) ∧ Tree.get params' m' = .ok (.leaf p) ∧ Tree.get state' m' = .ok (.leaf s) ∧
        Fills (Reads (nsCfg sep) modules' val') (reqOf placed' outPlaced' m') inp ∧ call b p inp s = .ok (val' m', s') ∧ news' m' = some s' := by
    intro n
    induction n with
    | zero => exact ⟨fun _ => data', fun _ => Option.none, rfl, by simp⟩
    | succ n ih =>
      obtain ⟨val', news', hin, hall⟩ := ih
      rcases Nat.lt_or_ge n ms.length with hlt | hge
      swap
      · refine ⟨val', news', hin, ?_⟩
        rw [List.take_of_length_le (by omega)]
        rw [List.take_of_length_le hge] at hall
        exact hall
      have hsp : ms = ms.take n ++ ms[n] :: ms.drop (n + 1) := by
        rw [← List.drop_eq_getElem_cons hlt, List.take_append_drop]
      have htake : ms.take (n + 1) = ms.take n ++ [ms[n]] := by rw [List.take_add_one, List.getElem?_eq_getElem hlt]; rfl
      generalize ms[n] = m' at hsp htake
      have hm'm : m' ∈ ms := by rw [hsp]; simp
      have hm' := (hms.mem m').1 hm'm
      have hnot : m' ∉ ms.take n := by
        have := hms.nodup
        rw [hsp, List.nodup_append] at this
        intro hmem
        exact this.2.2 m' hmem m' (by simp) rfl
      have hnin : m' ≠ ["input".toList] := by rintro rfl; exact hm'.1.2.1 rfl
      obtain ⟨m, hmm, hm⟩ := rel_scheduled hr.flip hm'
      obtain ⟨b, p, s, inp, s', a1, a2, a3, a4, a5, a6⟩ := hd.step m hm
      obtain ⟨inp', i1, i2⟩ := fills_rename h h' hf hf' hcl hcl' hr hR hR' hmm (.inr hm.1) (.inr hm'.1) hm.2.2 hm'.2.2 (H1 m hm) (H1' m' hm')
        (req_tight h hf hcl hR hp hacc (.inl hm) (H1 m hm)) (req_tight h' hf' hcl' hR' hp' hacc' (.inl hm') (H1' m' hm')) (val' := val') (by
          intro a a' haa _ hfe'
          rcases hms.before a' m' _ _ hsp hfe' with rfl | hmem
          · obtain rfl := hr.left _ _ _ haa hr.input
            rw [show val [(nsCfg sep).inKey] = data from hd.input, hin]
            exact hdata
          · exact ((hall a' hmem).1 a haa).1) a4
      obtain ⟨y', c1, c2⟩ := hb _ _ _ _ _ _ _ i2.left i2.right i2.same.symm a5
      have hfill : ∀ w, (w ∈ ms.take n ∨ w = m') → ∀ x, Fills (Reads (nsCfg sep) modules' val') (reqOf placed' outPlaced' w) x →
          Fills (Reads (nsCfg sep) modules' (Function.update val' m' y')) (reqOf placed' outPlaced' w) x := by
        rintro w hw x ⟨f, f1, f2⟩
        refine ⟨f, fun k hk => ?_, f2⟩
        obtain ⟨a, ra, r1, r2⟩ := f1 k hk
        refine ⟨a, ra, r1, ?_⟩
        have hwm : w ∈ ms := by
          rcases hw with hw | rfl
          · exact List.mem_of_mem_take hw
          · exact hm'm
        have hws := (hms.mem w).1 hwm
        obtain ⟨a2, ra2, q1, q2⟩ := leaves_source h' hcc (.inr hws.1) (H1' w hws) hk
        obtain ⟨rfl, rfl⟩ := source_unique r1 q1
        have hne : a ≠ m' := by
          have hpre : ∃ pre post, ms = pre ++ w :: post ∧ ∀ z ∈ pre, z ∈ ms.take n := by
            rcases hw with hw | rfl
            · obtain ⟨l1, l2, e⟩ := List.append_of_mem hw
              refine ⟨l1, l2 ++ m' :: ms.drop (n + 1), ?_, fun z hz => by rw [e]; exact List.mem_append_left _ hz⟩
              have e2 : ms.take n ++ m' :: ms.drop (n + 1) = l1 ++ w :: (l2 ++ m' :: ms.drop (n + 1)) := by
                rw [e, List.append_assoc, List.cons_append]
              exact hsp.trans e2
            · exact ⟨_, _, hsp, fun z hz => hz⟩
          obtain ⟨pre, post, e, hsub⟩ := hpre
          rcases hms.before a w pre post e q2 with rfl | hmem
          · exact hnin.symm
          · rintro rfl; exact hnot (hsub _ hmem)
        rw [Function.update_of_ne hne]
        exact r2
      refine ⟨Function.update val' m' y', Function.update news' m' (some s'), ?_, ?_⟩
      · rw [Function.update_of_ne hnin.symm]; exact hin
      · intro w hw
        rw [htake] at hw
        rcases List.mem_append.1 hw with hw1 | hw
        · have hne : w ≠ m' := fun e => hnot (e ▸ hw1)
          obtain ⟨g1, b2, p2, s2, inp2, s2', g2, g3, g4, g5, g6, g7⟩ := hall w hw1
          rw [Function.update_of_ne hne, Function.update_of_ne hne]
          exact ⟨g1, b2, p2, s2, inp2, s2', g2, g3, g4, hfill w (.inl hw1) _ g5, g6, g7⟩
        · rw [List.mem_singleton] at hw
          subst hw
          rw [Function.update_self, Function.update_self]
          refine ⟨?_, b, p, s, inp', s', ?_, ?_, ?_, hfill w (.inr rfl) _ i1, c1, rfl⟩
          · intro m2 hm2
            obtain rfl := hr.left _ _ _ hm2 hmm
            exact ⟨⟨hkeys _ _ _ _ _ _ i2.left a5, hkeys _ _ _ _ _ _ i2.right c1, c2⟩, a6.symm⟩
          · rw [hM _ _ hmm hm.1, a1]
          · rw [hP _ _ hmm hm.1, a2]
          · rw [hS _ _ hmm hm.1, a3]
  obtain ⟨val', news', hin, hall⟩ := key ms.length
  rw [List.take_length] at hall
  obtain ⟨out', ho1, ho2⟩ := fills_rename h h' hf hf' hcl hcl' hr hR hR' hr.output (.inl rfl) (.inl rfl) .refl .refl H2 H2'
    (req_tight h hf hcl hR hp hacc (.inr rfl) H2) (req_tight h' hf' hcl' hR' hp' hacc' (.inr rfl) H2') (val' := val') (by
      intro a a' haa _ hfe'
      rcases hms.last a' hfe' with rfl | hmem
      · obtain rfl := hr.left _ _ _ haa hr.input
        rw [show val [(nsCfg sep).inKey] = data from hd.input, hin]
        exact hdata
      · exact ((hall a' hmem).1 a haa).1) hd.output
  exact ⟨out', val', news', ⟨hin, fun m' hm' => (hall m' ((hms.mem m').2 hm')).2, ho1⟩, ho2.same,
    fun m m' hmm hm' => ((hall m' ((hms.mem m').2 hm')).1 m hmm).2⟩

/-- Two models that both return, return the same. -/
theorem nsCall_rename {sig : Sig M P S K A} (hb : OrderBlind sig) (h : Names sep modules conn) (h' : Names sep modules' conn')
    (hf : FreshOk sep fresh) (hf' : FreshOk sep fresh') (hcl : Clear sep fresh conn) (hcl' : Clear sep fresh' conn')
    (hr : Renames (nsCfg sep) modules modules' conn conn' rel) {params params' : Tree P} {state state' : Tree S}
    (hM : Agree (nsCfg sep) modules rel modules modules') (hP : Agree (nsCfg sep) modules rel params params')
    (hS : Agree (nsCfg sep) modules rel state state') {data data' out out' : Tree A} (hdata : Alike data data') {st st' : Tree S} {training : Bool} {rng : K}
    (hc : nsCall sig sep fresh modules conn params data training state rng = .ok (out, st))
    (hc' : nsCall sig sep fresh' modules' conn' params' data' training state' rng = .ok (out', st')) :
    out'.norm = out.norm ∧ ∀ m m', rel m m' → Scheduled (nsCfg sep) modules conn m → get st' m' = get st m := by
  obtain ⟨R, placed, outPlaced, val, news, h1, h2, h3, h4, h5, h6⟩ := nsCall_dataflow h hf hc
  obtain ⟨R', placed', outPlaced', val', news', h1', h2', h3', h4', h5', h6'⟩ := nsCall_dataflow h' hf' hc'
  have hord : ∃ order, execOrder sep modules conn = .ok order := by
    unfold nsCall nsRun at hc
    cases ho : execOrder sep modules conn with
    | error e => rw [ho] at hc; simp at hc
    | ok order => exact ⟨order, rfl⟩
  have hord' : ∃ order, execOrder sep modules' conn' = .ok order := by
    unfold nsCall nsRun at hc'
    cases ho : execOrder sep modules' conn' with
    | error e => rw [ho] at hc'; simp at hc'
    | ok order => exact ⟨order, rfl⟩
  have hacc := (exec_iff h).1 hord
  obtain ⟨out2, val2, news2, d1, d2, d3⟩ := dataflow_rename h h' hf hf' hcl hcl' hr hacc h2 h2' hM hP hS
    (fun m p x s y s' => hb.keys m p x training s rng y s') (fun m p x x' s y s' => hb.blind m p x x' training s rng y s') hdata h5
  obtain ⟨order', ho'⟩ := hord'
  obtain ⟨R2, hR2, hc2⟩ := concrete_ok h' hf'
  rw [h1'] at hR2
  cases hR2
  obtain ⟨u1, u2⟩ := dataflow_unique h' ho' hc2 h3' h4' h5' d1
  refine ⟨by rw [u1, d2], ?_⟩
  intro m m' hmm hm
  obtain ⟨m2, hmm2, hm2⟩ := rel_scheduled hr hm
  obtain rfl := hr.right _ _ _ hmm hmm2
  obtain ⟨s, e1, e2⟩ := h6.new m hm
  obtain ⟨s', e1', e2'⟩ := h6'.new m' hm2
  have := (u2 m' hm2).2
  rw [e1', d3 _ _ hmm hm2, e1] at this
  cases this
  rw [e2, e2']

/-- If one model returns, so does the other. -/
theorem nsCall_rename_ok {sig : Sig M P S K A} (hb : OrderBlind sig) (h : Names sep modules conn) (h' : Names sep modules' conn')
    (hf : FreshOk sep fresh) (hf' : FreshOk sep fresh') (hcl : Clear sep fresh conn) (hcl' : Clear sep fresh' conn')
    (hr : Renames (nsCfg sep) modules modules' conn conn' rel) {params params' : Tree P} {state state' : Tree S}
    (hM : Agree (nsCfg sep) modules rel modules modules') (hP : Agree (nsCfg sep) modules rel params params')
    (hS : Agree (nsCfg sep) modules rel state state') (hst : hasTuple state' = false)
    (hu : ∀ e ∈ edges conn', ∀ e' ∈ edges conn', Uniform (splitOn sep e.2) (splitOn sep e'.2))
    (hum : ∀ m m', Scheduled (nsCfg sep) modules' conn' m → Scheduled (nsCfg sep) modules' conn' m' → Uniform m m')
    {data data' out : Tree A} (hdata : Alike data data') {st : Tree S} {training : Bool} {rng : K}
    (hc : nsCall sig sep fresh modules conn params data training state rng = .ok (out, st)) :
    ∃ out' st', nsCall sig sep fresh' modules' conn' params' data' training state' rng = .ok (out', st') := by
  obtain ⟨R, placed, outPlaced, val, news, h1, h2, h3, h4, h5, h6⟩ := nsCall_dataflow h hf hc
  have hord : ∃ order, execOrder sep modules conn = .ok order := by
    unfold nsCall nsRun at hc
    cases ho : execOrder sep modules conn with
    | error e => rw [ho] at hc; simp at hc
    | ok order => exact ⟨order, rfl⟩
  have hacc := (exec_iff h).1 hord
  obtain ⟨order', ho'⟩ := (exec_iff h').2 (rel_accepted hr hacc)
  obtain ⟨R', hR', -⟩ := concrete_ok h' hf'
  have hperm := clear_edges h' hf' hcl' hR'
  obtain ⟨placed', outPlaced', h2'⟩ := place_ok h' hf' hR' (fun k v k' v' a b => hu _ (hperm.subset a) _ (hperm.subset b))
  obtain ⟨out2, val2, news2, d1, d2, d3⟩ := dataflow_rename h h' hf hf' hcl hcl' hr hacc h2 h2' hM hP hS
    (fun m p x s y s' => hb.keys m p x training s rng y s') (fun m p x x' s y s' => hb.blind m p x x' training s rng y s') hdata h5
  obtain ⟨st2, hc2, -⟩ := nsCall_complete h' hf' ho' h2' hum hst d1
  exact ⟨out2, st2, hc2⟩

end Verif.Forward
