import Verif.Lemmas.ConnPart
import Verif.Lemmas.ConnPlace

/-!
# Properties of connection processing (C05-C08)

Paths are lists of components in C05 and strings in C06-C08. `fresh` stands for `uuid.uuid4().hex`.
-/

namespace Verif.Props

open Verif.TreeSpec Verif.PathSpec Verif.ConnSpec Verif.GraphSpec Verif.Conn

variable {β : Type}

/-! ## C05 -/

/-- **C05** For every nonempty list of requested paths the concretisation succeeds, keeps number and order, only appends
components, and no resulting path equals or begins another. No assumption on the identifiers is needed. -/
theorem C05_concretize (fresh : Nat → Nat → Str) (paths : List (List Str)) (hne : paths ≠ []) :
    ∃ ps, Concretize.concretizePaths fresh paths = some ps ∧ Extends paths ps ∧ PrefixFree ps := by
  obtain ⟨ps, h1, h2, h3⟩ := Concretize.concretize_run fresh paths hne
  exact ⟨ps, h1, ⟨h2.len, fun i o p ho hp => (h2.ext i o p ho hp).1⟩, h3⟩

/-- **C05** A requested path that no other requested path equals or extends is kept as it is (the new identifiers must
not occur in the request). -/
theorem C05_unclashing_kept (fresh : Nat → Nat → Str) (paths ps : List (List Str))
    (h : Concretize.concretizePaths fresh paths = some ps) (hfresh : ∀ c i, ∀ o ∈ paths, fresh c i ∉ o)
    (i : Nat) (o : List Str) (ho : paths[i]? = some o)
    (hlone : ∀ (j : Nat) (q : List Str), j ≠ i → paths[j]? = some q → ¬ o <+: q) : ps[i]? = some o := by
  have hne : paths ≠ [] := by rintro rfl; simp at ho
  obtain ⟨ps', h1, h2, _⟩ := Concretize.concretize_run fresh paths hne
  rw [h] at h1
  cases h1
  exact (h2.lone hfresh i o ho hlone).1

/-- **C05** Hence a list without clashes is not changed at all. -/
theorem C05_clean_unchanged (fresh : Nat → Nat → Str) (paths : List (List Str)) (hne : paths ≠ [])
    (hfresh : ∀ c i, ∀ o ∈ paths, fresh c i ∉ o) (hfree : PrefixFree paths) :
    Concretize.concretizePaths fresh paths = some paths := by
  obtain ⟨ps, h1, h2, _⟩ := Concretize.concretize_run fresh paths hne
  rw [h1]
  congr 1
  refine List.ext_getElem? fun i => ?_
  by_cases hi : i < paths.length
  · have ho : paths[i]? = some paths[i] := List.getElem?_eq_getElem hi
    rw [ho]
    refine (h2.lone hfresh i _ ho ?_).1
    intro j q hj hq
    obtain ⟨hjl, rfl⟩ := List.getElem?_eq_some_iff.1 hq
    have hp := List.pairwise_iff_getElem.1 hfree
    rcases Nat.lt_or_gt_of_ne hj with hlt | hlt
    · exact (hp j i hjl hi hlt).2
    · exact (hp i j hi hjl hlt).1
  · rw [List.getElem?_eq_none (by rw [h2.len]; omega), List.getElem?_eq_none (by omega)]

/-- **C05** Written in canonical decimals, the resulting paths name pairwise different places of a tree. -/
theorem C05_places_differ (fresh : Nat → Nat → Str) (paths ps : List (List Str))
    (h : Concretize.concretizePaths fresh paths = some ps) (hcan : ∀ p ∈ paths, Canonical p)
    (hfresh : ∀ c i, Canonical [fresh c i]) : ps.Pairwise Diverge := by
  have hne : paths ≠ [] := by rintro rfl; simp [Concretize.concretizePaths] at h
  obtain ⟨ps', h1, h2, h3⟩ := Concretize.concretize_run fresh paths hne
  rw [h] at h1
  cases h1
  have hc := h2.pred (fun k => isDigit k = true → ofNat (toInt k) = k) (fun n _ => by rw [Concretize.toInt_ofNat])
    (fun c i => hfresh c i _ (by simp)) hcan
  exact List.Pairwise.imp_of_mem (fun {a b} ha hb hab => diverge_of_free (hc a ha) (hc b hb) hab.1 hab.2) h3

/-- **C05** The function raises on an empty request. -/
theorem C05_empty_raises (fresh : Nat → Nat → Str) : Concretize.concretizePaths fresh [] = none := rfl

/-- The requests `"", "", "1", "a.b", "a"`: numbers cannot be used because `"a"` is not a number. -/
example : Concretize.concretizePaths (fun c i => "u".toList ++ ofNat c ++ ofNat i)
      [[], [], ["1".toList], ["a".toList, "b".toList], ["a".toList]]
    = some [["u00".toList], ["u01".toList], ["1".toList], ["a".toList, "b".toList], ["a".toList, "u14".toList]] := by
  decide

/-- The requests `"0", "0", "2"` inside one container: the free indices are used. -/
example : Concretize.concretizePaths (fun _ _ => "u".toList) [["0".toList], ["2".toList], ["0".toList], []]
    = some [["0".toList, "0".toList], ["2".toList], ["0".toList, "1".toList], ["1".toList]] := by decide

example : (∀ c i, ∀ o ∈ [["0".toList], ["1".toList, "x".toList]], (fun c i => "u".toList ++ ofNat c ++ ofNat i) c i ∉ o) ∧
    PrefixFree [["0".toList], ["1".toList, "x".toList]] ∧ Canonical ["10".toList, "x".toList] := by
  refine ⟨?_, by unfold PrefixFree; decide, by unfold Canonical; decide⟩
  intro c i o ho hm
  simp only [List.mem_cons, List.not_mem_nil, or_false] at ho
  rcases ho with rfl | rfl <;> simp at hm

/-! ## C06 -/

/-- The slot `v` belongs to the module that the target string `req` names, at the requested inner path or below it. -/
def SlotFor (cfg : Cfg) (tree : Tree β) (req v : Str) : Prop :=
  ∃ m r r', Target cfg tree req m r ∧ Target cfg tree v m r' ∧ r <+: r'

/-- **C06** For well-formed connections the concretisation succeeds, and there is a one-to-one pairing of the requested
edges with the concrete edges: the source is unchanged, the slot belongs to the requested module and place, and every slot
has one source: no concrete target equals or begins another. -/
theorem C06_edges_kept (cfg : Cfg) (hcfg : GoodCfg cfg) (hsep : cfg.sep.isDigit = false) (tree : Tree β)
    (fresh : Str → Nat → Nat → Str) (hfresh : ∀ o c i, fresh o c i ≠ [] ∧ cfg.sep ∉ fresh o c i)
    (conn : List (Str × List Str)) (hwf : WellFormed cfg tree conn) :
    ∃ R, ∃ T : List (Str × Str × Str), concretizeConnections cfg fresh tree conn = .ok R ∧ IsDict R ∧
      (T.map fun t => (t.1, t.2.1)).Perm (edges conn) ∧ (T.map fun t => (t.1, t.2.2)).Perm (edges R) ∧
      (∀ t ∈ T, SlotFor cfg tree t.2.1 t.2.2) ∧
      PrefixFree ((edges R).map fun e => splitOn cfg.sep e.2) := by
  obtain ⟨R, T, h1, h2, h3, h4, h5, h6, h7, -⟩ :=
    concretize_main hcfg hsep hfresh (fun _ => True) (fun _ => trivial) (fun _ _ _ => trivial) hwf
  have hsplit : ∀ t ∈ T, splitOn cfg.sep (joinWith cfg.sep (t.mod ++ t.inner)) = t.mod ++ t.inner := by
    intro t ht
    obtain ⟨r, tg, -⟩ := h5 t ht
    obtain ⟨c1, c2, -⟩ := h6 t ht
    exact splitOn_joinWith _ _ (by simp [target_ne tg]) (fun w hw => ((c1.append c2) w hw).2)
  refine ⟨R, T.map fun t => (t.key, t.req, joinWith cfg.sep (t.mod ++ t.inner)), h1, h2, ?_, ?_, ?_, ?_⟩
  · rw [List.map_map]; exact h3
  · rw [List.map_map]; exact h4
  · intro x hx
    obtain ⟨t, ht, rfl⟩ := List.mem_map.1 hx
    obtain ⟨r, tg, hr⟩ := h5 t ht
    obtain ⟨c1, c2, -⟩ := h6 t ht
    exact ⟨t.mod, r, t.inner, tg, ⟨hsplit t ht, fun w hw => ((c1.append c2) w hw).1, tg.2.2⟩, hr⟩
  · have e : ((T.map fun t : Triple => (t.key, joinWith cfg.sep (t.mod ++ t.inner))).map fun e => splitOn cfg.sep e.2)
        = T.map fun t => t.mod ++ t.inner := by
      rw [List.map_map]
      exact List.map_congr_left fun tr htr => hsplit tr htr
    have hp := h4.map (fun e : Str × Str => splitOn cfg.sep e.2)
    rw [e] at hp
    exact hp.pairwise h7 (fun {a b} h => ⟨h.2, h.1⟩)

/-- **C06** Each slot has exactly one source. -/
theorem C06_one_source (cfg : Cfg) (hcfg : GoodCfg cfg) (hsep : cfg.sep.isDigit = false) (tree : Tree β)
    (fresh : Str → Nat → Nat → Str) (hfresh : ∀ o c i, fresh o c i ≠ [] ∧ cfg.sep ∉ fresh o c i)
    (conn R : List (Str × List Str)) (hwf : WellFormed cfg tree conn)
    (hR : concretizeConnections cfg fresh tree conn = .ok R) :
    ((edges R).map Prod.snd).Nodup ∧ ∀ k k' v, (k, v) ∈ edges R → (k', v) ∈ edges R → k = k' := by
  obtain ⟨R', T, h1, -, -, -, -, h6⟩ := C06_edges_kept cfg hcfg hsep tree fresh hfresh conn hwf
  rw [hR] at h1
  cases h1
  have hn : ((edges R).map Prod.snd).Nodup := by
    unfold PrefixFree at h6
    rw [List.pairwise_map] at h6
    unfold List.Nodup
    rw [List.pairwise_map]
    exact h6.imp fun h e => h.1 (by rw [e])
  refine ⟨hn, fun k k' v h h' => ?_⟩
  have := List.inj_on_of_nodup_map hn h h' rfl
  cases this; rfl

/-- **C06** A requested slot that no other edge equals or extends is kept as the user wrote it (the new identifiers must not
occur in the request). -/
theorem C06_unclashing_kept (cfg : Cfg) (hcfg : GoodCfg cfg) (hsep : cfg.sep.isDigit = false) (tree : Tree β)
    (fresh : Str → Nat → Nat → Str) (hfresh : ∀ o c i, fresh o c i ≠ [] ∧ cfg.sep ∉ fresh o c i)
    (conn R : List (Str × List Str)) (hwf : WellFormed cfg tree conn)
    (hnew : ∀ e ∈ edges conn, ∀ k ∈ splitOn cfg.sep e.2, ∀ o c i, k ≠ fresh o c i)
    (hR : concretizeConnections cfg fresh tree conn = .ok R) (e : Str × Str) (rest : List (Str × Str))
    (hp : (edges conn).Perm (e :: rest)) (hl : ∀ e' ∈ rest, ¬ splitOn cfg.sep e.2 <+: splitOn cfg.sep e'.2) :
    e ∈ edges R :=
  lone_kept hcfg hsep hfresh hwf hnew hR hp hl

/-- **C06** If the placement succeeds, every concrete edge `k → v` is found where the model will look for it: the place `v`
of the module inputs holds `k`; the place `rest` of the outputs holds `k` when `v = output.rest`; the output is `k` when
`v = output`. The hypothesis `hclean` excludes modules whose name merely starts with the output keyword (see
`C06_output_prefix_defect`). -/
theorem C06_place_reads_partial (cfg : Cfg) (hcfg : GoodCfg cfg) (hout : cfg.outKey ≠ []) (hsep : cfg.sep.isDigit = false)
    (tree : Tree β) (fresh : Str → Nat → Nat → Str) (hfresh : ∀ o c i, fresh o c i ≠ [] ∧ cfg.sep ∉ fresh o c i)
    (hfcan : ∀ o c i, Canonical [fresh o c i]) (conn R : List (Str × List Str)) (hwf : WellFormed cfg tree conn)
    (hcan : ∀ e ∈ edges conn, Canonical (splitOn cfg.sep e.2))
    (hclean : ∀ e ∈ edges conn, cfg.outKey <+: (splitOn cfg.sep e.2).headD [] →
      (splitOn cfg.sep e.2).headD [] = cfg.outKey)
    (hR : concretizeConnections cfg fresh tree conn = .ok R) (t o : Tree Str)
    (h : place cfg fresh tree conn = .ok (t, o)) (k v : Str) (hkv : (k, v) ∈ edges R) :
    ((splitOn cfg.sep v).head? ≠ some cfg.outKey → Tree.get t (splitOn cfg.sep v) = .ok (.leaf k)) ∧
    (∀ rest, rest ≠ [] → splitOn cfg.sep v = cfg.outKey :: rest → Tree.get o rest = .ok (.leaf k)) ∧
    (v = cfg.outKey → o = .leaf k) :=
  place_read hcfg hout hsep hfresh (fun o c i => hfcan o c i _ (by simp)) hwf hcan hclean hR h k v hkv

/-- Modules `M1` and `M2`; `M1` is fed twice. -/
def demoModules : Tree Nat := .dict [("M1".toList, .leaf 1), ("M2".toList, .leaf 2)]
/-- `{"input": ["M1", "M2"], "M2": ["M1"], "M1.y": ["output"]}` -/
def demoConn : List (Str × List Str) :=
  [("input".toList, ["M1".toList, "M2".toList]), ("M2".toList, ["M1".toList]), ("M1.y".toList, ["output".toList])]

example : GoodCfg Cfg.default ∧ Cfg.default.sep.isDigit = false ∧ Cfg.default.outKey ≠ [] :=
  ⟨⟨by decide, by decide, by decide⟩, by decide, by decide⟩

theorem demoWellFormed : WellFormed Cfg.default demoModules demoConn := by
  have m1 : IsModule Cfg.default demoModules ["M1".toList] := ⟨by decide, by decide, by decide, 1, rfl⟩
  have m2 : IsModule Cfg.default demoModules ["M2".toList] := ⟨by decide, by decide, by decide, 2, rfl⟩
  refine ⟨by decide, ?_, ?_⟩
  · intro kv hkv
    simp only [demoConn, List.mem_cons, List.not_mem_nil, or_false] at hkv
    rcases hkv with rfl | rfl | rfl
    · exact ⟨["input".toList], [], by decide, by decide, .inl rfl⟩
    · exact ⟨["M2".toList], [], by decide, by decide, .inr m2⟩
    · exact ⟨["M1".toList], ["y".toList], by decide, by decide, .inr m1⟩
  · intro kv hkv v hv
    simp only [demoConn, List.mem_cons, List.not_mem_nil, or_false] at hkv
    rcases hkv with rfl | rfl | rfl
    · simp only [List.mem_cons, List.not_mem_nil, or_false] at hv
      rcases hv with rfl | rfl
      · exact ⟨["M1".toList], [], by decide, by decide, .inr m1⟩
      · exact ⟨["M2".toList], [], by decide, by decide, .inr m2⟩
    · simp only [List.mem_cons, List.not_mem_nil, or_false] at hv
      subst hv; exact ⟨["M1".toList], [], by decide, by decide, .inr m1⟩
    · simp only [List.mem_cons, List.not_mem_nil, or_false] at hv
      subst hv; exact ⟨["output".toList], [], by decide, by decide, .inl rfl⟩

example : concretizeConnections Cfg.default (fun _ _ _ => "u".toList) demoModules demoConn
    = .ok [("input".toList, ["M1.0".toList, "M2".toList]), ("M2".toList, ["M1.1".toList]),
        ("M1.y".toList, ["output".toList])] := rfl

example : (edges demoConn).Perm (("input".toList, "M2".toList) ::
      [("input".toList, "M1".toList), ("M2".toList, "M1".toList), ("M1.y".toList, "output".toList)]) ∧
    (∀ e' ∈ [("input".toList, "M1".toList), ("M2".toList, "M1".toList), ("M1.y".toList, "output".toList)],
      ¬ splitOn '.' "M2".toList <+: splitOn '.' e'.2) ∧
    (∀ e ∈ edges demoConn, ∀ k ∈ splitOn '.' e.2, k ≠ "u".toList) := by
  refine ⟨by decide, by decide, by decide⟩

example : place Cfg.default (fun _ _ _ => "u".toList) demoModules demoConn
    = .ok (.dict [("M1".toList, .list [.leaf "input".toList, .leaf "M2".toList]), ("M2".toList, .leaf "input".toList),
        ("output".toList, .leaf "M1.y".toList)], .leaf "M1.y".toList) := rfl

example : (∀ e ∈ edges demoConn, Canonical (splitOn '.' e.2)) ∧
    (∀ e ∈ edges demoConn, "output".toList <+: (splitOn '.' e.2).headD [] →
      (splitOn '.' e.2).headD [] = "output".toList) ∧ Canonical ["u".toList] := by
  refine ⟨?_, by decide, ?_⟩ <;> (unfold Canonical; decide)

/-- **C06, defect**: a module whose name starts with `output` gets its inputs into the model's output. With
`{"input": "output_layer", "output_layer": "output"}` the output should be the value of `output_layer`; the code builds
the dictionary `{"output_layer": <input>, "output": <output_layer>}` instead. -/
theorem C06_output_prefix_defect :
    place Cfg.default (fun _ _ _ => "u".toList) (.dict [("output_layer".toList, .leaf 1)] : Tree Nat)
      [("input".toList, ["output_layer".toList]), ("output_layer".toList, ["output".toList])]
    = .ok (.dict [("output_layer".toList, .leaf "input".toList), ("output".toList, .leaf "output_layer".toList)],
        .dict [("output_layer".toList, .leaf "input".toList), ("output".toList, .leaf "output_layer".toList)]) := rfl

/-- **C06, why components must be nonempty**: the sources `input` and `input.` collide, and the edge of the first is
lost. -/
theorem C06_trailing_separator_loses_edge :
    concretizeConnections Cfg.default (fun _ _ _ => "u".toList) demoModules
      [("input".toList, ["M1".toList]), ("input.".toList, ["M2".toList])]
    = .ok [("input".toList, ["M2".toList])] := rfl

/-! ## C07 -/

/-- **C07** For every string with nonempty components that is accepted as a source: the result spells a module path `m` and
an inner path `r` with `m` and `r` together the given string; `m` is the input keyword or reads a node of the module tree,
and something remains only behind a module (a leaf) or an empty slot. -/
theorem C07_source_split_partial (cfg : Cfg) (hcfg : GoodCfg cfg) (tree : Tree β) (s x : Str)
    (hp : Proper (splitOn cfg.sep s)) (h : partKey cfg tree s = .ok x) :
    ∃ m r, splitOn cfg.sep s = m ++ r ∧ unpack cfg.sep x = .ok (joinWith cfg.sep m, joinWith cfg.sep r) ∧
      (m = [cfg.inKey] ∨ m.head? ≠ some cfg.outKey ∧ ∃ n, Tree.get tree m = .ok n ∧
        (r ≠ [] → (∃ b, n = .leaf b) ∨ n = .none)) := by
  exact partKey_split hcfg hp h

/-- The string `M1.y` as a source. -/
example : partKey Cfg.default demoModules "M1.y".toList = .ok "M1..y".toList ∧ Proper (splitOn '.' "M1.y".toList) :=
  ⟨rfl, by decide⟩

/-- **C07** The same for targets. -/
theorem C07_target_split_partial (cfg : Cfg) (hcfg : GoodCfg cfg) (tree : Tree β) (s x : Str)
    (hp : Proper (splitOn cfg.sep s)) (h : partVal cfg tree s = .ok x) :
    ∃ m r, splitOn cfg.sep s = m ++ r ∧ unpack cfg.sep x = .ok (joinWith cfg.sep m, joinWith cfg.sep r) ∧
      (m = [cfg.outKey] ∨ m.head? ≠ some cfg.inKey ∧ ∃ n, Tree.get tree m = .ok n ∧
        (r ≠ [] → (∃ b, n = .leaf b) ∨ n = .none)) := by
  exact partVal_split hcfg hp h

example : partVal Cfg.default demoModules "output.a.0".toList = .ok "output..a.0".toList ∧
    Proper (splitOn '.' "output.a.0".toList) := ⟨rfl, by decide⟩

/-- **C07** Connections between modules are split at the module, entry by entry. -/
theorem C07_partition (cfg : Cfg) (hcfg : GoodCfg cfg) (tree : Tree β) (conn : List (Str × List Str))
    (hwf : WellFormed cfg tree conn) :
    ∃ p, partition cfg tree conn = .ok p ∧ List.Forall₂ (fun kv kv' =>
      (∃ m r, Source cfg tree kv.1 m r ∧ unpack cfg.sep kv'.1 = .ok (joinWith cfg.sep m, joinWith cfg.sep r)) ∧
      List.Forall₂ (fun v v' => ∃ m r, Target cfg tree v m r ∧
        unpack cfg.sep v' = .ok (joinWith cfg.sep m, joinWith cfg.sep r)) kv.2 kv'.2) conn p := by
  obtain ⟨f, g, hf, hg⟩ := wf_choose hwf
  refine ⟨_, partition_eq hcfg f g conn hf hg hwf.keys, ?_⟩
  rw [List.forall₂_map_right_iff, List.forall₂_same]
  intro kv hkv
  have hc := comps_of_split (hf kv hkv).1 (hf kv hkv).2.1
  refine ⟨⟨_, _, hf kv hkv, unpack_enc hc.left hc.right⟩, ?_⟩
  simp only
  rw [List.forall₂_map_right_iff, List.forall₂_same]
  intro v hv
  have hd := comps_of_split (hg kv hkv v hv).1 (hg kv hkv v hv).2.1
  exact ⟨_, _, hg kv hkv v hv, unpack_enc hd.left hd.right⟩

/-- **C07** Misuse raises: the output (or something in it) as a source, the input as a target, a doubled separator, or a
path that does not exist in the module tree. -/
theorem C07_misuse_raises (cfg : Cfg) (hcfg : GoodCfg cfg) (tree : Tree β) (conn : List (Str × List Str))
    (key : Str) (vs : List Str) (hm : (key, vs) ∈ conn)
    (hbad : (splitOn cfg.sep key).head? = some cfg.outKey ∨
      (∃ v ∈ vs, (splitOn cfg.sep v).head? = some cfg.inKey) ∨
      (∃ v, (v = key ∨ v ∈ vs) ∧ ∃ a b, v = a ++ [cfg.sep, cfg.sep] ++ b) ∨
      (∃ v, (v = key ∨ v ∈ vs) ∧ (splitOn cfg.sep v).head? ≠ some cfg.inKey ∧
        (splitOn cfg.sep v).head? ≠ some cfg.outKey ∧
        ∀ x, Tree.getPath (fun _ => false) true tree (splitOn cfg.sep v) ≠ .ok x)) :
    ∃ e, partition cfg tree conn = .error e := by
  exact misuse hcfg hm hbad

example : partition Cfg.default demoModules [("output.x".toList, ["M1".toList])] = .error .valueError ∧
    partition Cfg.default demoModules [("M1".toList, ["input".toList])] = .error .valueError ∧
    partition Cfg.default demoModules [("M1..y".toList, ["M2".toList])] = .error .valueError := ⟨rfl, rfl, rfl⟩

/-- **C07, defect**: a path that names a container of modules, not a module, is accepted. -/
theorem C07_container_accepted :
    partition Cfg.default (.dict [("block".toList, .list [.leaf 1, .leaf (2 : Nat)])])
      [("input".toList, ["block".toList])] = .ok [("input..".toList, ["block..".toList])] := rfl

/-! ## C08 -/

/-- The module-level edges the user asked for. -/
def WantedEdge (cfg : Cfg) (tree : Tree β) (conn : List (Str × List Str)) (a b : Str) : Prop :=
  ∃ e ∈ edges conn, ∃ m r m' r', Source cfg tree e.1 m r ∧ Target cfg tree e.2 m' r' ∧
    a = joinWith cfg.sep m ∧ b = joinWith cfg.sep m'

/-- The full statement of C08 for one model. -/
def C08_statement (cfg : Cfg) (tree : Tree β) (conn : List (Str × List Str)) : Prop :=
  ∃ g, outerConnections cfg tree conn = .ok g ∧ IsDict g ∧ (∀ kv ∈ g, kv.2.Nodup) ∧
    ∀ a b, Edge g a b ↔ WantedEdge cfg tree conn a b

/-- **C08** Exactly the requested module pairs, without duplicates, provided no source lies in a nested module whose path
starts with the text `input` or `output`. -/
theorem C08_projection_partial (cfg : Cfg) (hcfg : GoodCfg cfg) (hi : cfg.sep ∉ "input".toList)
    (ho : cfg.sep ∉ "output".toList) (tree : Tree β) (conn : List (Str × List Str)) (hwf : WellFormed cfg tree conn)
    (hclean : ∀ kv ∈ conn, ∀ m r, Source cfg tree kv.1 m r →
      ("input".toList <+: joinWith cfg.sep m ∨ "output".toList <+: joinWith cfg.sep m) → m.length = 1) :
    C08_statement cfg tree conn := by
  exact outer_main hcfg hi ho hwf hclean

example : outerConnections Cfg.default demoModules demoConn
    = .ok [("input".toList, ["M1".toList, "M2".toList]), ("M2".toList, ["M1".toList]), ("M1".toList, ["output".toList])] :=
  rfl

example : '.' ∉ "input".toList ∧ '.' ∉ "output".toList ∧ ¬ "input".toList <+: "M1".toList := by decide

/-- **C08, defect**: without that proviso the statement is false. The module `input_block.M1` as a source is recorded as
`input_block`, which is not a module. -/
theorem C08_nested_input_name_refuted :
    ∃ (tree : Tree Nat) (conn : List (Str × List Str)), WellFormed Cfg.default tree conn ∧
      ¬ C08_statement Cfg.default tree conn := by
  refine ⟨.dict [("input_block".toList, .dict [("M1".toList, .leaf 1)])],
    [("input".toList, ["input_block.M1".toList]), ("input_block.M1".toList, ["output".toList])], ?_, ?_⟩
  · have m1 : IsModule Cfg.default (.dict [("input_block".toList, .dict [("M1".toList, .leaf (1 : Nat))])])
        ["input_block".toList, "M1".toList] := ⟨by decide, by decide, by decide, 1, rfl⟩
    refine ⟨by decide, ?_, ?_⟩
    · intro kv hkv
      simp only [List.mem_cons, List.not_mem_nil, or_false] at hkv
      rcases hkv with rfl | rfl
      · exact ⟨["input".toList], [], by decide, by decide, .inl rfl⟩
      · exact ⟨["input_block".toList, "M1".toList], [], by decide, by decide, .inr m1⟩
    · intro kv hkv v hv
      simp only [List.mem_cons, List.not_mem_nil, or_false] at hkv
      rcases hkv with rfl | rfl
      · simp only [List.mem_cons, List.not_mem_nil, or_false] at hv
        subst hv; exact ⟨["input_block".toList, "M1".toList], [], by decide, by decide, .inr m1⟩
      · simp only [List.mem_cons, List.not_mem_nil, or_false] at hv
        subst hv; exact ⟨["output".toList], [], by decide, by decide, .inl rfl⟩
  · rintro ⟨g, h1, -, -, h4⟩
    have e : outerConnections Cfg.default (.dict [("input_block".toList, .dict [("M1".toList, .leaf (1 : Nat))])])
        [("input".toList, ["input_block.M1".toList]), ("input_block.M1".toList, ["output".toList])]
        = .ok [("input".toList, ["input_block.M1".toList]), ("input_block".toList, ["output".toList])] := rfl
    rw [e] at h1
    cases h1
    have hE : Edge [("input".toList, ["input_block.M1".toList]), ("input_block".toList, ["output".toList])]
        "input_block".toList "output".toList := ⟨["output".toList], by decide, by decide⟩
    obtain ⟨ed, hed, m, r, m', r', hs, -, ha, -⟩ := (h4 _ _).1 hE
    have hsm : m = ["input_block".toList] := by
      have hc := comps_of_split hs.1 hs.2.1
      have := splitOn_joinWith '.' m (source_ne hs) (fun w hw => (hc.left w hw).2)
      have ha' : joinWith '.' m = "input_block".toList := ha.symm
      rw [ha'] at this
      rw [← this]; decide
    rcases hs.2.2 with h | h
    · rw [hsm] at h; revert h; decide
    · obtain ⟨-, -, -, b, hb⟩ := h
      rw [hsm] at hb
      have : Tree.get (.dict [("input_block".toList, .dict [("M1".toList, .leaf (1 : Nat))])]) ["input_block".toList]
        = .ok (.dict [("M1".toList, .leaf 1)]) := rfl
      rw [this] at hb
      simp at hb

end Verif.Props
