import Verif.Lemmas.Npz

/-! # Properties of saving and loading scalers -/

namespace Verif.Props
open Tree Npz FileSpec Scalers
open ForwardSpec (KeysOk)

variable {R : Type}

theorem reloads {R S : Type} {contents d : Record R} {build : Record R → Except PyErr S} {same : S → Prop} {s' : S} (h : Trips contents d) (hb : build d = .ok s') (hs : same s') :
    Reloads contents build same := by
  intro fp hfp disk
  obtain ⟨disk', h1, h2⟩ := save_load h hfp disk
  exact ⟨disk', d, s', h1, h2, hb, hs⟩

theorem keyed {k : Str} {v v' : Val R} (h : Trip v v') : ((k, v) : Str × Val R).1 = ((k, v') : Str × Val R).1 ∧ Trip ((k, v) : Str × Val R).2 ((k, v') : Str × Val R).2 := ⟨rfl, h⟩

/-- A tree of arrays without texts survives. -/
theorem trip_map {α : Type} {f : α → NArr (Entry R)} (hf : ∀ a i, ((f a).val i).isText = false) {t : Tree α} (h : Storable t) : Trip (map f t) (map f t.norm) := by
  rw [← Tree.norm_map]
  rcases h.2 with ⟨x, rfl⟩ | ⟨kvs, rfl⟩ | ⟨ts, rfl, hne, hts⟩
  · exact trip_array (hf x)
  · exact trip_dict _
  · refine trip_list (ts := mapL f ts) ?_ ?_
    · have : ∀ ts : List (Tree α), (∀ u ∈ ts, ∃ kvs, u = .dict kvs) → ∀ v ∈ mapL f ts, Unit0 v := by
        intro ts
        induction ts with
        | nil => intro _ v hv; cases hv
        | cons t ts ih =>
          intro h v hv
          rw [mapL, List.mem_cons] at hv
          rcases hv with rfl | hv
          · obtain ⟨kvs, rfl⟩ := h t (by simp)
            exact .inr (.inr ⟨_, rfl⟩)
          · exact ih (fun u hu => h u (List.mem_cons_of_mem _ hu)) v hv
      exact this ts hts
    · cases ts with
      | nil => exact absurd rfl hne
      | cons t ts =>
        obtain ⟨kvs, rfl⟩ := hts t (by simp)
        rfl

theorem arrVal_text (x : RArr) (i : List Nat) : ((arrVal x).val i).isText = false := rfl

theorem optionVal_text (o : Opt) (i : List Nat) : ((optionVal o).val i).isText = false := by cases o <;> rfl

theorem valArr_arrVal (x : RArr) : valArr (arrVal x) = x := rfl

theorem valOption_optionVal (o : Opt) : valOption (optionVal o) = o := by
  cases o with
  | flag b => rfl
  | level q =>
    unfold valOption
    split
    · next h1 h2 => cases h2
    · rfl

theorem map_id' {α : Type} {f : α → α} (h : ∀ a, f a = a) (t : Tree α) : map f t = t := by
  have : f = id := funext h
  subst this
  exact map_id t

theorem map_valArr (t : Tree RArr) : map valArr (map arrVal t) = t := by
  rw [map_map]
  exact map_id' valArr_arrVal t

theorem map_valOption (t : Tree Opt) : map valOption (map optionVal t) = t := by
  rw [map_map]
  exact map_id' valOption_optionVal t

theorem norm_ne_none {α : Type} {t : Tree α} (h : t ≠ .none) : t.norm ≠ .none := by
  cases t with
  | none => exact absurd rfl h
  | _ => rintro e; cases e

theorem map_ne_none {α β : Type} {f : α → β} {t : Tree α} (h : t ≠ .none) : map f t ≠ .none := by
  cases t with
  | none => exact absurd rfl h
  | _ => rintro e; cases e

theorem valOpt_map {t : Tree RArr} (h : t ≠ .none) : valOpt (map arrVal t) = some t := by
  unfold valOpt
  split
  · next e => exact absurd e (map_ne_none h)
  · rw [map_valArr]

theorem trip_opt {o : Option (Tree RArr)} (h : StorableOpt o) : Trip (optVal o) (optVal (o.map norm)) := by
  cases o with
  | none => exact trip_none
  | some t => exact trip_map arrVal_text (h t rfl)

theorem storable_ne {α : Type} {t : Tree α} (h : Storable t) : t ≠ .none := by
  rintro rfl
  rcases h.2 with ⟨x, e⟩ | ⟨x, e⟩ | ⟨x, e, _⟩ <;> cases e

theorem valOpt_optVal {o : Option (Tree RArr)} (h : o ≠ some .none) : valOpt (optVal o) = o := by
  cases o with
  | none => rfl
  | some t => exact valOpt_map fun e => h (by rw [e])

theorem storable_norm_ne {o : Option (Tree RArr)} (h : StorableOpt o) : o.map norm ≠ some .none := by
  cases o with
  | none => simp
  | some t =>
    intro e
    simp only [Option.map_some, Option.some.injEq] at e
    exact norm_ne_none (storable_ne (h t rfl)) e

theorem stdFwd_norm (x : RArr) (vs : List (Tree RArr)) : stdFwd x (vs.map norm) = stdFwd x vs := by
  match vs with
  | [] => rfl
  | [m] => cases m <;> rfl
  | m :: s :: _ :: _ => cases m <;> cases s <;> rfl
  | [m, s] => cases m <;> cases s <;> rfl

theorem stdBwd_norm (x : RArr) (vs : List (Tree RArr)) : stdBwd x (vs.map norm) = stdBwd x vs := by
  match vs with
  | [] => rfl
  | [m] => cases m <;> rfl
  | m :: s :: _ :: _ => cases m <;> cases s <;> rfl
  | [m, s] => cases m <;> cases s <;> rfl

theorem robFwd_norm (e : ℝ) (x : RArr) (vs : List (Tree RArr)) : robFwd e x (vs.map norm) = robFwd e x vs := by
  match vs with
  | [] => rfl
  | [m] => cases m <;> rfl
  | m :: s :: _ :: _ => cases m <;> cases s <;> rfl
  | [m, s] => cases m <;> cases s <;> rfl

theorem robBwd_norm (e : ℝ) (x : RArr) (vs : List (Tree RArr)) : robBwd e x (vs.map norm) = robBwd e x vs := by
  match vs with
  | [] => rfl
  | [m] => cases m <;> rfl
  | m :: s :: _ :: _ => cases m <;> cases s <;> rfl
  | [m, s] => cases m <;> cases s <;> rfl

theorem std_same {s : Std} (hm : ∀ t, s.mean = some t → KeysOk t) (hs : ∀ t, s.scale = some t → KeysOk t) :
    ∀ X, (⟨s.mean.map norm, s.scale.map norm⟩ : Std).transform X = s.transform X ∧ (⟨s.mean.map norm, s.scale.map norm⟩ : Std).inverse X = s.inverse X := by
  intro X
  obtain ⟨m, sc⟩ := s
  cases m with
  | none => exact ⟨rfl, rfl⟩
  | some m => cases sc with
    | none => exact ⟨rfl, rfl⟩
    | some sc =>
      have hk : ∀ u ∈ [m, sc], KeysOk u := by
        intro u hu
        simp only [List.mem_cons, List.not_mem_nil, or_false] at hu
        rcases hu with rfl | rfl
        · exact hm u rfl
        · exact hs u rfl
      constructor
      · simp only [Std.transform, Option.map_some]
        rw [← jaxMap_norm stdFwd_norm X _ hk]
        rfl
      · simp only [Std.inverse, Option.map_some]
        rw [← jaxMap_norm stdBwd_norm X _ hk]
        rfl

/-- C42: a standard scaler written to a file and read again transforms all data, in both directions, as before, if it was fitted on a bare array, on a dictionary or on a list of
dictionaries (or not at all). -/
theorem C42_standard {s : Std} (hm : StorableOpt s.mean) (hs : StorableOpt s.scale) :
    Reloads s.serialize Std.deserialize fun s' => s' = ⟨s.mean.map norm, s.scale.map norm⟩ ∧ ∀ X, s'.transform X = s.transform X ∧ s'.inverse X = s.inverse X := by
  refine reloads (s' := ⟨s.mean.map norm, s.scale.map norm⟩) (.cons (keyed (trip_opt hm)) (.cons (keyed (trip_opt hs)) .nil)) ?_ ⟨rfl, ?_⟩
  · show Except.ok (⟨valOpt (optVal _), valOpt (optVal _)⟩ : Std) = _
    rw [valOpt_optVal (storable_norm_ne hm), valOpt_optVal (storable_norm_ne hs)]
  · exact std_same (fun t h => (hm t h).1) (fun t h => (hs t h).1)

theorem mmFwd_norm (x : RArr) (vs : List (Tree RArr)) : mmFwd x (vs.map norm) = mmFwd x vs := by
  match vs with
  | [] => rfl
  | [a] => cases a <;> rfl
  | [a, b] => cases a <;> cases b <;> rfl
  | [a, b, c] => cases a <;> cases b <;> cases c <;> rfl
  | [a, b, c, d] => cases c <;> cases d <;> cases a <;> cases b <;> rfl
  | a :: b :: c :: d :: _ :: _ => cases c <;> cases d <;> cases a <;> cases b <;> rfl

theorem mmBwd_norm (x : RArr) (vs : List (Tree RArr)) : mmBwd x (vs.map norm) = mmBwd x vs := by
  match vs with
  | [] => rfl
  | [a] => cases a <;> rfl
  | [a, b] => cases a <;> cases b <;> rfl
  | [a, b, c] => cases a <;> cases b <;> cases c <;> rfl
  | [a, b, c, d] => cases c <;> cases d <;> cases a <;> cases b <;> rfl
  | a :: b :: c :: d :: _ :: _ => cases c <;> cases d <;> cases a <;> cases b <;> rfl

theorem trip_range {α : Type} {f : α → NArr (Entry R)} {shape : α → List Nat} (hf : ∀ a i, ((f a).val i).isText = false) (hs : ∀ a, (f a).shape = shape a) {a b : Tree α}
    (h : RangeOk shape a b) : ∃ v, Trip (.tuple [map f a, map f b]) v ∧ unpack2 v = .ok (map f a.norm, map f b.norm) := by
  obtain ⟨-, -, h⟩ := h
  rw [← Tree.norm_map, ← Tree.norm_map]
  apply trip_pair
  have hsing : ∀ {t : Tree α}, Single shape t → Unit0 (map f t) := by
    rintro t (⟨x, rfl, hx⟩ | rfl | ⟨kvs, rfl⟩)
    · exact .inl ⟨_, rfl, by rw [hs, hx]⟩
    · exact .inr (.inl rfl)
    · exact .inr (.inr ⟨_, rfl⟩)
  rcases h with ⟨x, y, rfl, rfl, e⟩ | ⟨h1, h2⟩
  · exact .inl ⟨_, _, rfl, rfl, by rw [hs, hs, e], hf x, hf y⟩
  · by_cases ho : (hasObj (map f a) || hasObj (map f b)) = true
    · exact .inr ⟨hsing h1, hsing h2, ho⟩
    · left
      rcases h1 with ⟨x, rfl, hx⟩ | rfl | ⟨kvs, rfl⟩
      · rcases h2 with ⟨y, rfl, hy⟩ | rfl | ⟨kvs, rfl⟩
        · exact ⟨_, _, rfl, rfl, by rw [hs, hs, hx, hy], hf x, hf y⟩
        · simp [map, hasObj] at ho
        · simp [map, hasObj] at ho
      · simp [map, hasObj] at ho
      · simp [map, hasObj] at ho

theorem spread_norm (b like : Tree RArr) (hb : KeysOk b) (hl : KeysOk like) : (spread b.norm like.norm).norm = (spread b like).norm := by
  cases b with
  | leaf v =>
    simp only [Tree.norm, spread, norm_norm hl]
  | none => rfl
  | list ts => exact norm_norm (t := .list ts) hb
  | tuple ts => exact norm_norm (t := .tuple ts) hb
  | dict kvs => exact norm_norm (t := .dict kvs) hb

theorem mm_same {s : MinMax} (ha : KeysOk s.minVal) (hb : KeysOk s.maxVal) (hn : ∀ t, s.dmin = some t → KeysOk t) (hx : ∀ t, s.dmax = some t → KeysOk t) :
    ∀ X, (⟨s.minVal.norm, s.maxVal.norm, s.dmin.map norm, s.dmax.map norm⟩ : MinMax).transform X = s.transform X ∧
      (⟨s.minVal.norm, s.maxVal.norm, s.dmin.map norm, s.dmax.map norm⟩ : MinMax).inverse X = s.inverse X := by
  intro X
  obtain ⟨lo, hi, m, sc⟩ := s
  cases m with
  | none => exact ⟨rfl, rfl⟩
  | some m => cases sc with
    | none => exact ⟨rfl, rfl⟩
    | some sc =>
      have hkm := hn m rfl
      have hks := hx sc rfl
      have hspread : ∀ {b like : Tree RArr}, KeysOk b → KeysOk like → KeysOk (spread b like) := by
        intro b like hb hl
        cases b with
        | leaf v =>
          simp only [spread]
          split
          · exact (keysOk_map _ _).2 (keysOk_norm' hl)
          · exact hb
        | _ => exact hb
      have hk : ∀ u ∈ [m, sc, spread lo m, spread hi sc], KeysOk u := by
        intro u hu
        simp only [List.mem_cons, List.not_mem_nil, or_false] at hu
        rcases hu with rfl | rfl | rfl | rfl
        · exact hkm
        · exact hks
        · exact hspread ha hkm
        · exact hspread hb hks
      have hk' : ∀ u ∈ [m.norm, sc.norm, spread lo.norm m.norm, spread hi.norm sc.norm], KeysOk u := by
        intro u hu
        simp only [List.mem_cons, List.not_mem_nil, or_false] at hu
        rcases hu with rfl | rfl | rfl | rfl
        · exact keysOk_norm' hkm
        · exact keysOk_norm' hks
        · exact hspread (keysOk_norm' ha) (keysOk_norm' hkm)
        · exact hspread (keysOk_norm' hb) (keysOk_norm' hks)
      have e : [m.norm, sc.norm, spread lo.norm m.norm, spread hi.norm sc.norm].map Tree.norm = [m, sc, spread lo m, spread hi sc].map Tree.norm := by
        simp only [List.map_cons, List.map_nil, norm_norm hkm, norm_norm hks, spread_norm lo m ha hkm, spread_norm hi sc hb hks]
      constructor
      · simp only [MinMax.transform, Option.map_some]
        rw [← jaxMap_norm mmFwd_norm X _ hk, ← jaxMap_norm mmFwd_norm X _ hk', e]
      · simp only [MinMax.inverse, Option.map_some]
        rw [← jaxMap_norm mmBwd_norm X _ hk, ← jaxMap_norm mmBwd_norm X _ hk', e]

/-- C42: a min-max scaler written to a file and read again transforms all data, in both directions, as before, under the same condition on the fitted data and if its range consists of
two arrays of the same shape, or each bound is one number, `None` or a dictionary. -/
theorem C42_minmax {s : MinMax} (hr : RangeOk NArr.shape s.minVal s.maxVal) (hn : StorableOpt s.dmin) (hx : StorableOpt s.dmax) :
    Reloads s.serialize MinMax.deserialize fun s' => s' = ⟨s.minVal.norm, s.maxVal.norm, s.dmin.map norm, s.dmax.map norm⟩ ∧
      ∀ X, s'.transform X = s.transform X ∧ s'.inverse X = s.inverse X := by
  obtain ⟨v, hv, hv'⟩ := trip_range (R := Option ℝ) arrVal_text (fun _ => rfl) hr
  refine reloads (s' := ⟨s.minVal.norm, s.maxVal.norm, s.dmin.map norm, s.dmax.map norm⟩) (.cons (keyed hv) (.cons (keyed (trip_opt hn)) (.cons (keyed (trip_opt hx)) .nil))) ?_ ⟨rfl, ?_⟩
  · show Except.bind (unpack2 v) _ = _
    rw [hv']
    show Except.ok (⟨map valArr (map arrVal _), map valArr (map arrVal _), valOpt (optVal _), valOpt (optVal _)⟩ : MinMax) = _
    rw [map_valArr, map_valArr, valOpt_optVal (storable_norm_ne hn), valOpt_optVal (storable_norm_ne hx)]
  · exact mm_same hr.1 hr.2.1 (fun t h => (hn t h).1) (fun t h => (hx t h).1)

theorem rob_same {s : Robust} (hn : ∀ t, s.scale = some t → KeysOk t) (hx : ∀ t, s.median = some t → KeysOk t) :
    ∀ X, (⟨s.qlow.norm, s.qhigh.norm, s.centering.norm, s.scaling.norm, s.eps, s.scale.map norm, s.median.map norm⟩ : Robust).transform X = s.transform X ∧
      (⟨s.qlow.norm, s.qhigh.norm, s.centering.norm, s.scaling.norm, s.eps, s.scale.map norm, s.median.map norm⟩ : Robust).inverse X = s.inverse X := by
  intro X
  obtain ⟨lo, hi, c, sc, e, m, md⟩ := s
  cases m with
  | none => exact ⟨rfl, rfl⟩
  | some m => cases md with
    | none => exact ⟨rfl, rfl⟩
    | some md =>
      have hk : ∀ u ∈ [md, m], KeysOk u := by
        intro u hu
        simp only [List.mem_cons, List.not_mem_nil, or_false] at hu
        rcases hu with rfl | rfl
        · exact hx u rfl
        · exact hn u rfl
      constructor
      · simp only [Robust.transform, Option.map_some]
        rw [← jaxMap_norm (robFwd_norm e) X _ hk]
        rfl
      · simp only [Robust.inverse, Option.map_some]
        rw [← jaxMap_norm (robBwd_norm e) X _ hk]
        rfl

/-- C42: a robust scaler written to a file and read again transforms all data, in both directions, as before, and has its settings, under the same conditions on the fitted data and
the range, and if each switch is one value, a dictionary or a list of dictionaries. -/
theorem C42_robust {s : Robust} (hr : RangeOk optShape s.qlow s.qhigh) (hc : Storable s.centering) (hsc : Storable s.scaling) (hn : StorableOpt s.scale) (hx : StorableOpt s.median) :
    Reloads s.serialize Robust.deserialize fun s' =>
      s' = ⟨s.qlow.norm, s.qhigh.norm, s.centering.norm, s.scaling.norm, s.eps, s.scale.map norm, s.median.map norm⟩ ∧
      ∀ X, s'.transform X = s.transform X ∧ s'.inverse X = s.inverse X := by
  obtain ⟨v, hv, hv'⟩ := trip_range (R := Option ℝ) optionVal_text (fun o => by cases o <;> rfl) hr
  refine reloads (s' := ⟨s.qlow.norm, s.qhigh.norm, s.centering.norm, s.scaling.norm, s.eps, s.scale.map norm, s.median.map norm⟩)
    (.cons (keyed hv) (.cons (keyed (trip_map optionVal_text hc)) (.cons (keyed (trip_map optionVal_text hsc)) (.cons (keyed (trip_scalar rfl))
      (.cons (keyed (trip_opt hn)) (.cons (keyed (trip_opt hx)) .nil)))))) ?_ ⟨rfl, ?_⟩
  · show Except.bind (unpack2 v) _ = _
    rw [hv']
    show Except.ok (⟨map valOption (map optionVal _), map valOption (map optionVal _), map valOption (map optionVal _), map valOption (map optionVal _), s.eps, valOpt (optVal _),
      valOpt (optVal _)⟩ : Robust) = _
    rw [map_valOption, map_valOption, map_valOption, map_valOption, valOpt_optVal (storable_norm_ne hn), valOpt_optVal (storable_norm_ne hx)]
  · exact rob_same (fun t h => (hn t h).1) (fun t h => (hx t h).1)

end Verif.Props
