import Verif.Model.Matmul
import Verif.Spec.Matmul
import Verif.Lemmas.PathOrder
import Verif.Lemmas.Str

/-! The order of the factors of a matrix product. -/

namespace Verif.Matmul
open Tree TreeSpec PathSpec MatmulSpec
open ForwardSpec (At KeysOk Spells)

theorem mem_range_zip {γ : Type} {O : List γ} {i : Nat} {x : γ} : (i, x) ∈ (List.range O.length).zip O ↔ O[i]? = some x := by
  rw [List.mem_iff_getElem?]
  constructor
  · rintro ⟨j, hj⟩
    rw [List.getElem?_zip_eq_some] at hj
    obtain ⟨h1, h2⟩ := hj
    have : j = i := by
      rw [List.getElem?_eq_some_iff] at h1
      obtain ⟨_, h1⟩ := h1
      simpa using h1
    exact this ▸ h2
  · intro h
    refine ⟨i, List.getElem?_zip_eq_some.2 ⟨?_, h⟩⟩
    have := (List.getElem?_eq_some_iff.1 h).1
    rw [List.getElem?_range this]

theorem mapM_ok {α β : Type} {f : α → Except PyErr β} : ∀ {l : List α} {r : List β}, l.mapM f = .ok r → List.Forall₂ (fun a b => f a = .ok b) l r
  | [], r, h => by
    rw [List.mapM_nil] at h
    cases h
    exact .nil
  | a :: l, r, h => by
    rw [List.mapM_cons] at h
    cases ha : f a with
    | error e => rw [ha] at h; cases h
    | ok b =>
      rw [ha] at h
      cases hl : l.mapM f with
      | error e => simp only [hl] at h; cases h
      | ok r' =>
        simp only [hl] at h
        cases h
        exact .cons ha (mapM_ok hl)

theorem mapM_some {α β : Type} {f : α → Option β} : ∀ {l : List α} {r : List β}, l.mapM f = some r ↔ List.Forall₂ (fun a b => f a = some b) l r
  | [], r => by
    rw [List.mapM_nil]
    constructor
    · intro h; cases h; exact .nil
    · intro h; cases h; rfl
  | a :: l, r => by
    rw [List.mapM_cons]
    constructor
    · intro h
      cases ha : f a with
      | none => rw [ha] at h; cases h
      | some b =>
        rw [ha] at h
        cases hl : l.mapM f with
        | none => simp only [hl] at h; cases h
        | some r' =>
          simp only [hl] at h
          cases h
          exact .cons ha (mapM_some.1 hl)
    · intro h
      cases h with
      | cons h1 h2 =>
        rw [h1, mapM_some.2 h2]
        rfl

theorem mapM_total {α β : Type} {f : α → Option β} : ∀ {l : List α}, (∀ a ∈ l, (f a).isSome = true) → ∃ r, l.mapM f = some r
  | [], _ => ⟨[], rfl⟩
  | a :: l, h => by
    obtain ⟨b, hb⟩ := Option.isSome_iff_exists.1 (h a (by simp))
    obtain ⟨r, hr⟩ := mapM_total fun a ha => h a (List.mem_cons_of_mem _ ha)
    exact ⟨b :: r, mapM_some.2 (.cons hb (mapM_some.1 hr))⟩

/-- One entry of the list of factors. -/
def factor {γ : Type} (sep : Char) (param : Option γ) (t : Tree γ) (path : Str) : Option γ :=
  if path = [sep, sep] then param
  else match Tree.get t (splitOn sep path) with
    | .ok (.leaf x) => some x
    | _ => Option.none

theorem factor_param {γ : Type} {cfg : Cfg} {param : Option γ} {t : Tree γ} {path : Str} (e : path = cfg.param) : factor cfg.sep param t path = param := if_pos e

theorem factor_path {γ : Type} {cfg : Cfg} {param : Option γ} {t : Tree γ} {path : Str} (e : path ≠ cfg.param) {x : γ} :
    factor cfg.sep param t path = some x ↔ Tree.get t (splitOn cfg.sep path) = .ok (.leaf x) := by
  have : factor cfg.sep param t path = match Tree.get t (splitOn cfg.sep path) with
    | .ok (.leaf x) => some x
    | _ => Option.none := if_neg e
  rw [this]
  split
  · next y hy => rw [hy]; simp
  · next hy =>
    constructor
    · intro h; cases h
    · intro h; exact absurd h (hy x)

theorem operands_some {γ : Type} (sep : Char) (po : List Str) (param : Option γ) (t : Tree γ) : operands sep (some po) param t = po.mapM (factor sep param t) := rfl

/-- What the position of the parameter matrix has to do with the list of shapes. -/
def PosOk (sl : List (Option (List Nat))) (pos : Option (Nat × List Nat)) : Prop :=
  match pos with
  | Option.none => Option.none ∉ sl
  | some (k, _) => Option.none ∈ sl ∧ k = sl.idxOf Option.none

theorem paramPos_ok {cfg : Cfg} {param : Option (List Nat)} {sl : List (Option (List Nat))} {pos : Option (Nat × List Nat)} (h : paramPos cfg param sl = .ok pos) : PosOk sl pos := by
  unfold paramPos at h
  split at h
  · split at h
    · next hn => cases h; exact ⟨hn, rfl⟩
    · cases h
  · split at h
    · split at h
      · next hn =>
        cases hs : paramShape cfg.outShape sl (sl.idxOf Option.none) with
        | error e => rw [hs] at h; cases h
        | ok sh => rw [hs] at h; cases h; exact ⟨hn, rfl⟩
      · cases h
    · split at h
      · cases h
      · next hn => cases h; exact hn

theorem natEqv_leaf (v : Tree Nat) (b : Nat) (h : natEqv v (.leaf b) = true) : v = .leaf b := by
  cases v with
  | leaf m => simp only [natEqv, beq_iff_eq] at h; rw [h]
  | _ => simp [natEqv] at h

theorem splitOn_inj {sep : Char} {a b : Str} (h : splitOn sep a = splitOn sep b) : a = b := by
  rw [← joinWith_splitOn sep a, h, joinWith_splitOn]

/-- Sizes of the list of shapes. -/
theorem perm_none {cfg : Cfg} {hp : Bool} {shapes : Tree (List Nat)} {sl : List (Option (List Nat))} (hsl : shapeList cfg hp shapes = .ok sl) (hpo : cfg.pathOrder = Option.none)
    {pos : Option (Nat × List Nat)} (hpos : PosOk sl pos) : sl.length = (pos.map Prod.fst).toList.length + (jaxLeaves shapes).length ∧
      fillShapes sl pos = (pos.map Prod.snd).toList ++ jaxLeaves shapes := by
  unfold shapeList at hsl
  rw [hpo] at hsl
  simp only [Except.ok.injEq] at hsl
  subst hsl
  have hmap : ∀ l : List (List Nat), (l.map some).map (fun x : Option (List Nat) => x.getD []) = l := fun l => by
    rw [List.map_map]
    conv_rhs => rw [← List.map_id l]
    rfl
  generalize (cfg.trainable || hp) = bb at hpos ⊢
  cases bb with
  | true =>
    cases pos with
    | none => exact absurd (by simp) hpos
    | some pos =>
      obtain ⟨k, sh⟩ := pos
      obtain ⟨-, rfl⟩ := hpos
      simp [fillShapes, List.idxOf_cons, hmap, Nat.add_comm]
  | false =>
    cases pos with
    | none => simp [fillShapes, hmap]
    | some pos =>
      obtain ⟨k, sh⟩ := pos
      have := hpos.1
      simp at this

/-- The entries of the list of shapes. -/
theorem shapeList_order {cfg : Cfg} {hp : Bool} {shapes : Tree (List Nat)} {sl : List (Option (List Nat))} (hsl : shapeList cfg hp shapes = .ok sl) {po : List Str}
    (hpo : cfg.pathOrder = some po) : po.Nodup ∧ List.Forall₂ (fun path s => shapeAt cfg shapes path = .ok s) po sl ∧
      (po.filter fun path => path ≠ cfg.param).length = (jaxLeaves shapes).length := by
  unfold shapeList at hsl
  rw [hpo] at hsl
  simp only at hsl
  split at hsl
  · cases hsl
  · next hnd =>
    simp only [Bool.not_eq_true, Bool.not_eq_false', decide_eq_true_eq] at hnd
    split at hsl
    · cases hsl
    · next l hl =>
      split at hsl
      · cases hsl
      · next hlen =>
        cases hsl
        have hf := mapM_ok hl
        refine ⟨hnd, hf, ?_⟩
        have hcount : ∀ {po : List Str} {l : List (Option (List Nat))}, List.Forall₂ (fun path s => shapeAt cfg shapes path = .ok s) po l →
            (po.filter fun path => path ≠ cfg.param).length + l.count Option.none = l.length := by
          intro po l hf
          induction hf with
          | nil => rfl
          | cons h _ ih =>
            rename_i path s po l _
            unfold shapeAt at h
            by_cases e : path = cfg.param
            · rw [if_pos e] at h
              cases h
              rw [List.filter_cons_of_neg (by simpa using e), List.count_cons_self, List.length_cons]
              omega
            · rw [if_neg e] at h
              rw [List.filter_cons_of_pos (by simpa using e), List.length_cons, List.length_cons]
              have : s ≠ Option.none := by
                split at h
                · cases h
                · cases h; simp
                · cases h
              rw [List.count_cons_of_ne this]
              omega
        have := hcount hf
        omega

theorem shapeAt_ok {cfg : Cfg} {shapes : Tree (List Nat)} {path : Str} {s : Option (List Nat)} (h : shapeAt cfg shapes path = .ok s) :
    (path = cfg.param ∧ s = Option.none) ∨ (path ≠ cfg.param ∧ ∃ x, s = some x ∧ Tree.get shapes (splitOn cfg.sep path) = .ok (.leaf x)) := by
  unfold shapeAt at h
  by_cases e : path = cfg.param
  · rw [if_pos e] at h
    cases h
    exact .inl ⟨e, rfl⟩
  · rw [if_neg e] at h
    refine .inr ⟨e, ?_⟩
    split at h
    · cases h
    · next x hx => cases h; exact ⟨x, rfl, hx⟩
    · cases h

theorem forall₂_get {α β : Type} {R : α → β → Prop} : ∀ {l : List α} {r : List β}, List.Forall₂ R l r → ∀ {i : Nat} {a : α}, l[i]? = some a → ∃ b, r[i]? = some b ∧ R a b
  | _, _, .nil, _, _, h => by cases h
  | _, _, .cons h1 h2, 0, _, h => by cases h; exact ⟨_, rfl, h1⟩
  | _, _, .cons h1 h2, i + 1, _, h => forall₂_get h2 (i := i) h

theorem forall₂_get' {α β : Type} {R : α → β → Prop} : ∀ {l : List α} {r : List β}, List.Forall₂ R l r → ∀ {i : Nat} {b : β}, r[i]? = some b → ∃ a, l[i]? = some a ∧ R a b
  | _, _, .nil, _, _, h => by cases h
  | _, _, .cons h1 h2, 0, _, h => by cases h; exact ⟨_, rfl, h1⟩
  | _, _, .cons h1 h2, i + 1, _, h => forall₂_get' h2 (i := i) h

/-- The parameter matrix is where the path order says. -/
theorem param_index {cfg : Cfg} {shapes : Tree (List Nat)} {po : List Str} {sl : List (Option (List Nat))}
    (hf : List.Forall₂ (fun path s => shapeAt cfg shapes path = .ok s) po sl) (hnd : po.Nodup) {pos : Option (Nat × List Nat)} (hpos : PosOk sl pos) (i : Nat) :
    po[i]? = some cfg.param ↔ ∃ k sh, pos = some (k, sh) ∧ i = k := by
  have hpar : cfg.param ∈ po ↔ Option.none ∈ sl := by
    constructor
    · intro hm
      obtain ⟨i, hi⟩ := List.mem_iff_getElem?.1 hm
      obtain ⟨s, h1, hs⟩ := forall₂_get hf hi
      rcases shapeAt_ok hs with ⟨-, rfl⟩ | ⟨h, -⟩
      · exact List.mem_iff_getElem?.2 ⟨i, h1⟩
      · exact absurd rfl h
    · intro hm
      obtain ⟨i, hi⟩ := List.mem_iff_getElem?.1 hm
      obtain ⟨p, h1, hs⟩ := forall₂_get' hf hi
      rcases shapeAt_ok hs with ⟨rfl, -⟩ | ⟨-, x, h, -⟩
      · exact List.mem_iff_getElem?.2 ⟨i, h1⟩
      · cases h
  have huniq : ∀ i : Nat, sl[i]? = some Option.none → po[i]? = some cfg.param := by
    intro i hi
    obtain ⟨p, h1, hs⟩ := forall₂_get' hf hi
    rcases shapeAt_ok hs with ⟨rfl, -⟩ | ⟨-, x, h, -⟩
    · exact h1
    · cases h
  constructor
  · intro hi
    have hm : Option.none ∈ sl := hpar.1 (List.mem_of_getElem? hi)
    cases pos with
    | none => exact absurd hm hpos
    | some pos =>
      obtain ⟨k, sh⟩ := pos
      obtain ⟨-, rfl⟩ := hpos
      have h2 := huniq _ (List.getElem?_idxOf hm)
      refine ⟨_, sh, rfl, ?_⟩
      obtain ⟨hi1, hi2⟩ := List.getElem?_eq_some_iff.1 hi
      obtain ⟨hj1, hj2⟩ := List.getElem?_eq_some_iff.1 h2
      exact (List.Nodup.getElem_inj_iff hnd).1 (hi2.trans hj2.symm)
  · rintro ⟨k, sh, rfl, rfl⟩
    obtain ⟨hm, rfl⟩ := hpos
    exact huniq _ (List.getElem?_idxOf hm)

/-- With a path order: the factors exist for every tree of the structure, and the numbers of the leaves are their positions in the product. -/
theorem perm_order {cfg : Cfg} {hp : Bool} {shapes : Tree (List Nat)} (hk : KeysOk shapes) {sl : List (Option (List Nat))} (hsl : shapeList cfg hp shapes = .ok sl) {po : List Str}
    (hpo : cfg.pathOrder = some po) (hok : OrderOk cfg.sep cfg.pathOrder shapes) {pos : Option (Nat × List Nat)} (hpos : PosOk sl pos) {pm : List Nat}
    (hpm : perm cfg pos sl.length = .ok pm) {γ : Type} {t : Tree γ} {param : Option γ} (hparam : param.isSome = pos.isSome) (hkt : KeysOk t)
    (hst : sameStruct t.norm shapes.norm = true) :
    ∃ O, operands cfg.sep cfg.pathOrder param t = some O ∧ O.length = sl.length ∧ (pm.zip (param.toList ++ jaxLeaves t)).Perm ((List.range sl.length).zip O) ∧
      pm.length = (param.toList ++ jaxLeaves t).length := by
  obtain ⟨hnd, hf, hlen⟩ := shapeList_order hsl hpo
  obtain ⟨hpath, hdig⟩ := hok po hpo
  have hpl : places t = places shapes := by
    unfold places
    exact sameStruct_entries _ _ hst
  have hst' : map (fun _ => ()) shapes.norm = map (fun _ => ()) t.norm := ((sameStruct_iff _ _).1 hst).symm
  have hget : ∀ {path : Str}, path ∈ po → path ≠ cfg.param → ∃ x, Tree.get t (splitOn cfg.sep path) = .ok (.leaf x) := by
    intro path hm hne
    obtain ⟨i, hi⟩ := List.mem_iff_getElem?.1 hm
    obtain ⟨s, -, hs⟩ := forall₂_get hf hi
    rcases shapeAt_ok hs with ⟨e, -⟩ | ⟨-, x, -, hx⟩
    · exact absurd e hne
    · obtain ⟨q, h1, h2⟩ := at_of_get (hpath path hm hne).1 hx (.leaf x)
      rw [List.append_nil] at h2
      obtain ⟨y, hy⟩ := Scalers.at_of_struct hst' (at_norm.2 h2)
      exact ⟨y, get_of_at hkt (hpath path hm hne).1 h1 (at_norm.1 hy)⟩
  have hlp : po.length = sl.length := hf.length_eq
  have hidx := param_index hf hnd hpos
  obtain ⟨O, hO⟩ : ∃ O, po.mapM (factor cfg.sep param t) = some O := by
    refine mapM_total fun path hm => ?_
    by_cases e : path = cfg.param
    · rw [factor_param e, hparam]
      obtain ⟨i, hi⟩ := List.mem_iff_getElem?.1 hm
      rw [e] at hi
      obtain ⟨k, sh, rfl, -⟩ := (hidx i).1 hi
      rfl
    · obtain ⟨x, hx⟩ := hget hm e
      rw [(factor_path e).2 hx]
      rfl
  have hOf := mapM_some.1 hO
  have hOl : O.length = sl.length := by rw [← hOf.length_eq, hlp]
  have hOi : ∀ (i : Nat) x, O[i]? = some x ↔ ∃ path, po[i]? = some path ∧ factor cfg.sep param t path = some x := by
    intro i x
    constructor
    · exact fun h => forall₂_get' hOf h
    · rintro ⟨path, h1, h2⟩
      obtain ⟨y, h3, h4⟩ := forall₂_get hOf h1
      rw [h2] at h4
      cases h4
      exact h3
  -- the tree of positions
  unfold perm at hpm
  rw [hpo] at hpm
  simp only at hpm
  split at hpm
  · cases hpm
  · next tt htt =>
    cases hpm
    set pths := (po.zip (List.range po.length)).filter fun p => p.1 ≠ cfg.param with hpths
    have hpm : ∀ (path : Str) (i : Nat), (path, i) ∈ pths ↔ po[i]? = some path ∧ path ≠ cfg.param := by
      intro path i
      rw [hpths, List.mem_filter]
      refine and_congr ?_ (by simp)
      rw [← mem_range_zip]
      conv_lhs => rw [← List.zip_swap, List.mem_map]
      constructor
      · rintro ⟨⟨a, b⟩, h, e⟩
        cases e
        exact h
      · intro h; exact ⟨(i, path), h, rfl⟩
    set pfs : List (List Str × Nat) := pths.map fun p => (splitOn cfg.sep p.1, p.2) with hpfs
    have hpfse : (pths.map fun p => (splitOn cfg.sep p.1, (Tree.leaf p.2 : Tree Nat))) = pfs.map fun p => (p.1, .leaf p.2) := by
      rw [hpfs, List.map_map]; rfl
    rw [hpfse] at htt
    have hsub : (pths.map Prod.fst).Sublist po := by
      have h1 : pths.Sublist (po.zip (List.range po.length)) := List.filter_sublist
      have h2 := h1.map Prod.fst
      rwa [List.map_fst_zip (by simp)] at h2
    have hlf : pths.length = (jaxLeaves shapes).length := by
      rw [← hlen, ← List.length_map (f := Prod.fst), hpths]
      have : ((po.zip (List.range po.length)).filter fun p => p.1 ≠ cfg.param).map Prod.fst = po.filter fun path => path ≠ cfg.param := by
        conv_rhs => rw [← List.map_fst_zip (l₁ := po) (l₂ := List.range po.length) (by simp), List.filter_map]
        rfl
      rw [this]
    obtain ⟨pfs', hperm, hleaves, hspell⟩ := extend_order natEqv_leaf hk hdig (pfs := pfs) (by
        rw [hpfs, List.map_map]
        refine ((hnd.sublist hsub).map (f := splitOn cfg.sep) fun a b h => splitOn_inj h) |> fun h => ?_
        rwa [List.map_map] at h) (by
        intro pf hpf
        obtain ⟨⟨path, i⟩, hm, rfl⟩ := List.mem_map.1 hpf
        obtain ⟨h1, h2⟩ := (hpm _ _).1 hm
        obtain ⟨s, -, hs⟩ := forall₂_get hf h1
        refine ⟨splitOn_ne_nil _ _, (hpath path (List.mem_of_getElem? h1) h2).1, (hpath path (List.mem_of_getElem? h1) h2).2, ?_⟩
        rcases shapeAt_ok hs with ⟨e, -⟩ | ⟨-, x, -, hx⟩
        · exact absurd e h2
        · exact ⟨x, hx⟩) (by rw [hpfs, List.length_map, hlf]) htt
    have hF : List.Forall₂ (fun pf x => Tree.get t pf.1 = .ok (.leaf x)) pfs' (jaxLeaves t) := by
      rw [← hpl] at hspell
      have h1 : List.Forall₂ (fun (pf : List Str × Nat) (e : List ForwardSpec.Step × γ) => Spells pf.1 e.1) pfs' (entries (norm t)) := by
        rw [places, List.forall₂_map_right_iff] at hspell
        exact hspell
      rw [jaxLeaves, ← entries_snd, List.forall₂_map_right_iff]
      have hmem : ∀ pf ∈ pfs', Proper pf.1 := by
        intro pf hpf
        obtain ⟨⟨path, i⟩, hm, rfl⟩ := List.mem_map.1 (hperm.subset hpf)
        obtain ⟨h1, h2⟩ := (hpm _ _).1 hm
        exact (hpath path (List.mem_of_getElem? h1) h2).1
      have hent : ∀ e ∈ entries (norm t), At t e.1 e.2 := fun e he => at_norm.1 ((mem_entries _ _ _).1 he)
      clear hspell hleaves hperm
      generalize entries (norm t) = en at h1 hent
      induction h1 with
      | nil => exact .nil
      | cons h1 h2 ih =>
        refine .cons (get_of_at hkt (hmem _ (by simp)) h1 (hent _ (by simp))) (ih (fun pf hpf => hmem pf (by simp [hpf])) fun e he => hent e (by simp [he]))
    have hlen2 : pfs'.length = (jaxLeaves t).length := hF.length_eq
    have hmem' : ∀ (i : Nat) x, (i, x) ∈ (pfs'.map Prod.snd).zip (jaxLeaves t) ↔ ∃ path, po[i]? = some path ∧ path ≠ cfg.param ∧ Tree.get t (splitOn cfg.sep path) = .ok (.leaf x) := by
      intro i x
      rw [List.mem_iff_getElem?]
      constructor
      · rintro ⟨j, hj⟩
        rw [List.getElem?_zip_eq_some, List.getElem?_map] at hj
        obtain ⟨h1, h2⟩ := hj
        obtain ⟨pf, h3, h4⟩ := forall₂_get' hF h2
        rw [h3] at h1
        cases h1
        obtain ⟨⟨path, i⟩, hm, e⟩ := List.mem_map.1 (hperm.subset (List.mem_of_getElem? h3))
        obtain ⟨h5, h6⟩ := (hpm _ _).1 hm
        subst e
        exact ⟨path, h5, h6, h4⟩
      · rintro ⟨path, h1, h2, h3⟩
        have hm : (splitOn cfg.sep path, i) ∈ pfs' := hperm.symm.subset (List.mem_map.2 ⟨(path, i), (hpm _ _).2 ⟨h1, h2⟩, rfl⟩)
        obtain ⟨j, hj⟩ := List.mem_iff_getElem?.1 hm
        obtain ⟨y, h4, h5⟩ := forall₂_get hF hj
        rw [h3] at h5
        cases h5
        refine ⟨j, ?_⟩
        rw [List.getElem?_zip_eq_some, List.getElem?_map, hj]
        exact ⟨rfl, h4⟩
    have hzip : ((pos.map Prod.fst).toList ++ jaxLeaves tt).zip (param.toList ++ jaxLeaves t) =
        ((pos.map Prod.fst).toList.zip param.toList) ++ (pfs'.map Prod.snd).zip (jaxLeaves t) := by
      rw [hleaves]
      refine List.zip_append ?_
      cases pos <;> cases param <;> simp_all
    have hplen : (pos.map Prod.fst).toList.length = param.toList.length := by
      cases pos <;> cases param <;> simp_all
    have hndi : ((pos.map Prod.fst).toList ++ pfs'.map Prod.snd).Nodup := by
      rw [List.nodup_append']
      refine ⟨?_, ?_, ?_⟩
      · cases pos <;> simp
      · refine ((hperm.map Prod.snd).nodup_iff).2 ?_
        rw [hpfs, List.map_map]
        have h1 : pths.Sublist (po.zip (List.range po.length)) := List.filter_sublist
        have h2 := h1.map Prod.snd
        rw [List.map_snd_zip (by simp)] at h2
        exact List.nodup_range.sublist h2
      · intro i hi hi'
        obtain ⟨pf, hpf, rfl⟩ := List.mem_map.1 hi'
        obtain ⟨⟨path, j⟩, hm, rfl⟩ := List.mem_map.1 (hperm.subset hpf)
        obtain ⟨h1, h2⟩ := (hpm _ _).1 hm
        cases pos with
        | none => cases hi
        | some pos =>
          obtain ⟨k, sh⟩ := pos
          simp only [Option.map_some, Option.toList_some, List.mem_singleton] at hi
          have := (hidx j).2 ⟨k, sh, rfl, hi⟩
          rw [h1] at this
          cases this
          exact h2 rfl
    refine ⟨O, ?_, hOl, ?_, ?_⟩
    · rw [hpo, operands_some]
      exact hO
    · rw [hzip, ← hOl]
      refine (List.perm_ext_iff_of_nodup ?_ ?_).2 ?_
      · apply List.Nodup.of_map Prod.fst
        rw [← List.zip_append hplen, List.map_fst_zip (by simp [hplen, hlen2])]
        exact hndi
      · apply List.Nodup.of_map Prod.fst
        rw [List.map_fst_zip (by simp)]
        exact List.nodup_range
      · rintro ⟨i, x⟩
        rw [mem_range_zip, hOi, List.mem_append, hmem']
        constructor
        · rintro (h | ⟨path, h1, h2, h3⟩)
          · refine ⟨cfg.param, ?_, ?_⟩
            · refine (hidx i).2 ?_
              cases pos with
              | none => cases h
              | some pos =>
                obtain ⟨k, sh⟩ := pos
                cases param with
                | none => cases h
                | some y => simp only [Option.map_some, Option.toList_some, List.zip_cons_cons, List.zip_nil_right, List.mem_singleton, Prod.mk.injEq] at h; exact ⟨k, sh, rfl, h.1⟩
            · rw [factor_param rfl]
              cases pos with
              | none => cases h
              | some pos =>
                cases param with
                | none => cases h
                | some y => simp only [Option.map_some, Option.toList_some, List.zip_cons_cons, List.zip_nil_right, List.mem_singleton, Prod.mk.injEq] at h; rw [h.2]
          · exact ⟨path, h1, (factor_path h2).2 h3⟩
        · rintro ⟨path, h1, h2⟩
          by_cases e : path = cfg.param
          · left
            rw [factor_param e] at h2
            rw [e] at h1
            obtain ⟨k, sh, rfl, rfl⟩ := (hidx i).1 h1
            subst h2
            simp
          · right
            exact ⟨path, h1, e, (factor_path e).1 h2⟩
    · rw [hleaves, List.length_append, List.length_append, List.length_map, hplen, hlen2]

/-- The positions of the leaves, in all cases. -/
theorem perm_spec {cfg : Cfg} {hp : Bool} {shapes : Tree (List Nat)} (hk : KeysOk shapes) {sl : List (Option (List Nat))} (hsl : shapeList cfg hp shapes = .ok sl)
    (hok : OrderOk cfg.sep cfg.pathOrder shapes) {pos : Option (Nat × List Nat)} (hpos : PosOk sl pos) {pm : List Nat}
    (hpm : perm cfg pos sl.length = .ok pm) {γ : Type} {t : Tree γ} {param : Option γ} (hparam : param.isSome = pos.isSome) (hkt : KeysOk t)
    (hst : sameStruct t.norm shapes.norm = true) :
    ∃ O, operands cfg.sep cfg.pathOrder param t = some O ∧ O.length = sl.length ∧ (pm.zip (param.toList ++ jaxLeaves t)).Perm ((List.range sl.length).zip O) ∧
      pm.length = (param.toList ++ jaxLeaves t).length := by
  cases hpo : cfg.pathOrder with
  | some po =>
    rw [← hpo]
    exact perm_order hk hsl hpo hok hpos hpm hparam hkt hst
  | none =>
    unfold perm at hpm
    rw [hpo] at hpm
    cases hpm
    have hl := (perm_none hsl hpo hpos).1
    have h1 : (jaxLeaves t).length = (jaxLeaves shapes).length := by
      have := congrArg List.length (sameStruct_entries _ _ hst)
      rw [List.length_map, List.length_map] at this
      rw [jaxLeaves, jaxLeaves, ← entries_snd, ← entries_snd, List.length_map, List.length_map, this]
    have h2 : (pos.map Prod.fst).toList.length = param.toList.length := by
      cases pos <;> cases param <;> simp_all
    refine ⟨_, rfl, ?_, List.Perm.refl _, ?_⟩
    · rw [List.length_append, h1, hl, h2]
    · rw [List.length_range, List.length_append, h1, hl, h2]

/-- The filled list of shapes is the list of factors. -/
theorem fill_operands {cfg : Cfg} {hp : Bool} {shapes : Tree (List Nat)} {sl : List (Option (List Nat))} (hsl : shapeList cfg hp shapes = .ok sl)
    {pos : Option (Nat × List Nat)} (hpos : PosOk sl pos) : operands cfg.sep cfg.pathOrder (pos.map Prod.snd) shapes = some (fillShapes sl pos) := by
  cases hpo : cfg.pathOrder with
  | none => rw [(perm_none hsl hpo hpos).2]; rfl
  | some po =>
    obtain ⟨hnd, hf, -⟩ := shapeList_order hsl hpo
    have hidx := param_index hf hnd hpos
    rw [operands_some, mapM_some, List.forall₂_iff_get]
    have hl : (fillShapes sl pos).length = sl.length := by
      unfold fillShapes
      split <;> simp
    refine ⟨hf.length_eq.trans hl.symm, fun i h1 h2 => ?_⟩
    have hpi : po[i]? = some (po.get ⟨i, h1⟩) := List.getElem?_eq_getElem h1
    have hfi : (fillShapes sl pos)[i]? = some ((fillShapes sl pos).get ⟨i, h2⟩) := List.getElem?_eq_getElem h2
    generalize po.get ⟨i, h1⟩ = path at hpi ⊢
    generalize (fillShapes sl pos).get ⟨i, h2⟩ = v at hfi ⊢
    obtain ⟨s, h3, h4⟩ := forall₂_get hf hpi
    rcases shapeAt_ok h4 with ⟨e, rfl⟩ | ⟨e, x, rfl, hx⟩
    · rw [factor_param e]
      rw [e] at hpi
      obtain ⟨k, sh, rfl, rfl⟩ := (hidx i).1 hpi
      rw [fillShapes, List.getElem?_map, List.getElem?_set_self (hl ▸ h2)] at hfi
      exact hfi
    · rw [factor_path e, hx]
      have : v = x := by
        cases pos with
        | none =>
          rw [fillShapes, List.getElem?_map, h3] at hfi
          cases hfi
          rfl
        | some pos =>
          obtain ⟨k, sh⟩ := pos
          have hik : k ≠ i := by
            rintro rfl
            have := (hidx k).2 ⟨k, sh, rfl, rfl⟩
            rw [hpi] at this
            cases this
            exact e rfl
          rw [fillShapes, List.getElem?_map, List.getElem?_set_ne hik, h3] at hfi
          cases hfi
          rfl
      rw [this]

end Verif.Matmul
