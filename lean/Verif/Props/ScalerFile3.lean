import Verif.Props.ScalerFile2
import Verif.Props.Scalers

/-! # Scalers inside a mixed scaler, and scalers that are not restored -/

namespace Verif.Props
open Tree Npz FileSpec Scalers
open ForwardSpec (KeysOk)

section
variable {R : Type}

theorem field_norm {c d : Record R} (h : Tree.norm (.dict c) = .dict d) (hk : (c.map Prod.fst).Nodup) (k : Str) : field d k = (field c k).map Tree.norm := by
  cases h
  unfold field
  rw [Tree.lookup_norm hk]
  cases c.lookup k <;> rfl

theorem optVal_norm (o : Option (Tree RArr)) : (optVal o).norm = optVal (o.map norm) := by
  cases o with
  | none => rfl
  | some t => exact Tree.norm_map _ _

theorem inside_ne {o : Option (Tree RArr)} (ho : ∀ t, o = some t → KeysOk t ∧ t ≠ .none) : o.map Tree.norm ≠ some .none := by
  intro e
  cases o with
  | none => cases e
  | some t => exact norm_ne_none (ho t rfl).2 (Option.some.inj e)

/-- C42: a standard scaler inside a mixed scaler is restored, whatever data it was fitted on. -/
theorem C42_standard_inside {s : Std} (hm : ∀ t, s.mean = some t → KeysOk t ∧ t ≠ .none) (hs : ∀ t, s.scale = some t → KeysOk t ∧ t ≠ .none) :
    Restores s.serialize Std.deserialize fun s' => ∀ X, s'.transform X = s.transform X ∧ s'.inverse X = s.inverse X := by
  intro d hd
  refine ⟨⟨s.mean.map norm, s.scale.map norm⟩, ?_, std_same (fun t h => (hm t h).1) fun t h => (hs t h).1⟩
  have hk : (s.serialize.map Prod.fst).Nodup := by
    show (["mean_".toList, "scale_".toList] : List Str).Nodup
    decide +kernel
  unfold Std.deserialize
  rw [field_norm hd hk, field_norm hd hk]
  show Except.ok (⟨valOpt (Tree.norm (optVal _)), valOpt (Tree.norm (optVal _))⟩ : Std) = _
  rw [optVal_norm, optVal_norm, valOpt_optVal (inside_ne hm), valOpt_optVal (inside_ne hs)]

/-- C42: a min-max scaler inside a mixed scaler is restored, whatever data it was fitted on and whatever its range. -/
theorem C42_minmax_inside {s : MinMax} (ha : KeysOk s.minVal) (hb : KeysOk s.maxVal) (hm : ∀ t, s.dmin = some t → KeysOk t ∧ t ≠ .none)
    (hs : ∀ t, s.dmax = some t → KeysOk t ∧ t ≠ .none) :
    Restores s.serialize MinMax.deserialize fun s' => ∀ X, s'.transform X = s.transform X ∧ s'.inverse X = s.inverse X := by
  intro d hd
  refine ⟨⟨s.minVal.norm, s.maxVal.norm, s.dmin.map norm, s.dmax.map norm⟩, ?_, mm_same ha hb (fun t h => (hm t h).1) fun t h => (hs t h).1⟩
  have hk : (s.serialize.map Prod.fst).Nodup := by
    show (["feature_range".toList, "data_min_".toList, "data_max_".toList] : List Str).Nodup
    decide +kernel
  unfold MinMax.deserialize
  rw [field_norm hd hk, field_norm hd hk, field_norm hd hk]
  show Except.ok (⟨map valArr (Tree.norm (map arrVal _)), map valArr (Tree.norm (map arrVal _)), valOpt (Tree.norm (optVal _)), valOpt (Tree.norm (optVal _))⟩ : MinMax) = _
  rw [Tree.norm_map, Tree.norm_map, map_valArr, map_valArr, optVal_norm, optVal_norm, valOpt_optVal (inside_ne hm), valOpt_optVal (inside_ne hs)]

/-- C42: a robust scaler inside a mixed scaler is restored, whatever data it was fitted on and whatever its settings. -/
theorem C42_robust_inside {s : Robust} (hm : ∀ t, s.scale = some t → KeysOk t ∧ t ≠ .none) (hs : ∀ t, s.median = some t → KeysOk t ∧ t ≠ .none) :
    Restores s.serialize Robust.deserialize fun s' => ∀ X, s'.transform X = s.transform X ∧ s'.inverse X = s.inverse X := by
  intro d hd
  refine ⟨⟨s.qlow.norm, s.qhigh.norm, s.centering.norm, s.scaling.norm, s.eps, s.scale.map norm, s.median.map norm⟩, ?_, rob_same (fun t h => (hm t h).1) fun t h => (hs t h).1⟩
  have hk : (s.serialize.map Prod.fst).Nodup := by
    show (["quantile_range".toList, "with_centering".toList, "with_scaling".toList, "eps".toList, "scale_".toList, "median_".toList] : List Str).Nodup
    decide +kernel
  unfold Robust.deserialize
  rw [field_norm hd hk, field_norm hd hk, field_norm hd hk, field_norm hd hk, field_norm hd hk, field_norm hd hk]
  show Except.ok (⟨map valOption (Tree.norm (map optionVal _)), map valOption (Tree.norm (map optionVal _)), map valOption (Tree.norm (map optionVal _)),
    map valOption (Tree.norm (map optionVal _)), s.eps, valOpt (Tree.norm (optVal _)), valOpt (Tree.norm (optVal _))⟩ : Robust) = _
  rw [Tree.norm_map, Tree.norm_map, Tree.norm_map, Tree.norm_map, map_valOption, map_valOption, map_valOption, map_valOption, optVal_norm, optVal_norm,
    valOpt_optVal (inside_ne hm), valOpt_optVal (inside_ne hs)]

/-- C42: a one-hot encoder inside a mixed scaler is restored, whatever data it was fitted on. -/
theorem C42_onehot_inside {K : Type} [LinearOrder K] [Semiring K] {s : Option (Tree (OneHot.Fitted K))} (h : ∀ t, s = some t → ∃ X, KeysOk X ∧ X ≠ .none ∧ OneHot.fit X = .ok t) :
    Restores (OneHot.serialize s) OneHot.deserialize fun s' => s' = s := by
  intro d hd
  refine ⟨s, ?_, rfl⟩
  cases s with
  | none =>
    have hk : ((OneHot.serialize (K := K) Option.none).map Prod.fst).Nodup := by
      show (["unique_vals_".toList, "original_shapes_".toList] : List Str).Nodup
      decide +kernel
    unfold OneHot.deserialize
    rw [field_norm hd hk, field_norm hd hk]
    rfl
  | some t =>
    have hk : ((OneHot.serialize (K := K) (some t)).map Prod.fst).Nodup := by
      show (["unique_vals_".toList, "original_shapes_".toList] : List Str).Nodup
      decide +kernel
    obtain ⟨X, hX, hne, hf⟩ := h t rfl
    unfold OneHot.fit at hf
    split at hf
    · simp only [Except.ok.injEq] at hf
      have hkt : KeysOk t := hf ▸ (keysOk_map _ _).2 (keysOk_norm' hX)
      have hn : t.norm = t := by rw [← hf, Tree.norm_map, norm_norm hX]
      have hrect : ∀ u ∈ flat t, ∀ r ∈ u.table, r.length = u.width := by
        intro u hu
        obtain ⟨p, hp⟩ := mem_flat_at.1 hu
        rw [← hf] at hp
        obtain ⟨x, -, rfl⟩ := at_map.1 hp
        exact colSort_rect _ _
      have hnt : t ≠ .none := hf ▸ map_ne_none (norm_ne_none hne)
      have := onehot_reads hkt hn hrect sizesOf_norm
      unfold OneHot.deserialize
      rw [field_norm hd hk, field_norm hd hk]
      show (match Tree.norm (map OneHot.tableVal t), Tree.norm (Tree.bind OneHot.shapeVal t) with
        | .none, .none => Except.ok Option.none
        | u, o => (jaxMap OneHot.fittedOf u [o]).bind fun t => Except.ok (some t)) = _
      rw [Tree.norm_map, norm_bind, hn]
      split
      · next e _ => exact absurd e (map_ne_none hnt)
      · rw [this]; rfl
    · cases hf

/-! ## What is not restored -/

theorem storeAll_ok {d : Record R} (h : ∀ p ∈ d, ∃ s, store p.2 = .ok s) : ∃ r, storeAll d = .ok r := by
  induction d with
  | nil => exact ⟨_, rfl⟩
  | cons p d ih =>
    obtain ⟨k, v⟩ := p
    obtain ⟨s, hs⟩ := h _ (List.mem_cons_self ..)
    obtain ⟨r, hr⟩ := ih fun q hq => h q (List.mem_cons_of_mem _ hq)
    exact ⟨(k, s) :: r, by simp only [storeAll, show store v = .ok s from hs, hr]⟩

theorem jaxMap_tuple_error {α β γ : Type} {F : α → List (Tree β) → Except PyErr (Tree γ)} (ts : List (Tree α)) (u : Tree β) (us : List (Tree β)) (h : ∀ vs, u ≠ .tuple vs) :
    ∃ e, jaxMap F (.tuple ts) (u :: us) = .error e := by
  refine ⟨.valueError, ?_⟩
  unfold jaxMap
  have : zipAll (u :: us) (map (fun a => (a, ([] : List (Tree β)))) (Tree.norm (.tuple ts))) = .error .valueError := by
    rw [Tree.norm, map, zipAll]
    cases u with
    | tuple vs => exact absurd rfl (h vs)
    | _ => rfl
  rw [this]

theorem jaxMap_list_error {α β γ : Type} {F : α → List (Tree β) → Except PyErr (Tree γ)} (ts : List (Tree α)) (u : Tree β) (us : List (Tree β)) (h : ∀ vs, u ≠ .list vs) :
    ∃ e, jaxMap F (.list ts) (u :: us) = .error e := by
  refine ⟨.valueError, ?_⟩
  unfold jaxMap
  have : zipAll (u :: us) (map (fun a => (a, ([] : List (Tree β)))) (Tree.norm (.list ts))) = .error .valueError := by
    rw [Tree.norm, map, zipAll]
    cases u with
    | list vs => exact absurd rfl (h vs)
    | _ => rfl
  rw [this]

/-- C42: a range of a single number and an array with axes cannot be written. -/
theorem C42_range_refuted (s : MinMax) (x y : RArr) (h1 : s.minVal = .leaf x) (h2 : s.maxVal = .leaf y) (hx : x.shape = []) (hy : y.shape ≠ []) (fp : FilePath) (disk : Disk (Option ℝ)) :
    save s.serialize fp disk = .error .valueError := by
  have : store (.tuple [map arrVal s.minVal, map arrVal s.maxVal]) = .error .valueError := by
    rw [h1, h2]
    simp only [map, store, storeSeq, shapeOf, shapeOfL, arrVal, hx]
    rw [if_neg (Ne.symm hy)]
  simp only [save, MinMax.serialize, storeAll, this]

/-- C42: through a `pathlib` path without the ending, what is read is not what was written: the file that was there before, or an error. -/
theorem C42_path_refuted {d : Record R} {s : Str} (h : npzExt.isSuffixOf s = false) (disk disk' : Disk R) (hs : save d (.path s) disk = .ok disk') :
    load (.path s) disk' = load (.path s) disk := by
  unfold save at hs
  split at hs
  · cases hs
  · cases hs
    have : s ≠ (FilePath.path s).written := by
      intro e
      have e' : s = withExt s := e
      rw [withExt, h] at e'
      have := congrArg List.length e'
      simp [npzExt] at this
    unfold load
    beta_reduce
    rw [if_neg (show ¬ (FilePath.path s).read = (FilePath.path s).written from this)]

mutual
theorem entryOf_text {α : Type} {f : α → NArr (Entry R)} (hf : ∀ a i, ((f a).val i).isText = false) : ∀ (t : Tree α) (i : List Nat), (entryOf (map f t) i).isText = false
  | .leaf a, i => by rw [map]; cases i <;> exact hf a _
  | .none, i => by cases i <;> rfl
  | .dict _, i => by cases i <;> rfl
  | .list ts, i => by
    cases i with
    | nil => rfl
    | cons i is => exact entryOfL_notext hf ts i is
  | .tuple ts, i => by
    cases i with
    | nil => rfl
    | cons i is => exact entryOfL_notext hf ts i is
theorem entryOfL_notext {α : Type} {f : α → NArr (Entry R)} (hf : ∀ a i, ((f a).val i).isText = false) : ∀ (ts : List (Tree α)) (i : Nat) (is : List Nat), (entryOfL (mapL f ts) i is).isText = false
  | [], _, _ => rfl
  | t :: _, 0, is => entryOf_text hf t is
  | _ :: ts, i + 1, is => entryOfL_notext hf ts i is
end

theorem storeSeq_cases {α : Type} {f : α → NArr (Entry R)} (hf : ∀ a i, ((f a).val i).isText = false) {t : Tree α} (ht : (∃ ts, t = .tuple ts) ∨ ∃ ts, t = .list ts) :
    (∃ e, store (map f t) = .error e) ∨ ∃ v, Trip (map f t) v ∧ ((∃ vs, v = .list vs ∧ hasObj (map f t) = true) ∨ ∃ x, v = .leaf x) := by
  have hseq : store (map f t) = storeSeq (map f t) := by rcases ht with ⟨ts, rfl⟩ | ⟨ts, rfl⟩ <;> rfl
  have hl : ∃ vs, toList (map f t) = .list vs := by rcases ht with ⟨ts, rfl⟩ | ⟨ts, rfl⟩ <;> exact ⟨_, rfl⟩
  rw [hseq]
  cases hsh : shapeOf (map f t) with
  | error e => exact .inl ⟨e, by simp only [storeSeq, hsh]⟩
  | ok s =>
    right
    by_cases ho : hasObj (map f t) = true
    · obtain ⟨vs, hvs⟩ := hl
      refine ⟨Tree.norm (.list vs), ⟨.objects (.list vs), ?_, rfl⟩, .inl ⟨_, rfl, ho⟩⟩
      rw [hseq]
      simp only [storeSeq, hsh, ho, if_true, hvs]
    · refine ⟨.leaf ⟨s, entryOf (map f t)⟩, ⟨.array ⟨s, entryOf (map f t)⟩, ?_, ?_⟩, .inr ⟨_, rfl⟩⟩
      · rw [hseq]
        simp only [storeSeq, hsh, if_neg ho]
      · simp only [fetch]
        split
        · rfl
        · rw [if_neg]
          simp only [NArr.entries, List.any_map, List.any_eq_true, not_exists, not_and, Function.comp]
          intro i _
          rw [entryOf_text hf]
          simp

theorem save_error {d : Record R} {k : Str} {v : Val R} {e : PyErr} (hm : (k, v) ∈ d) (h : store v = .error e) (fp : FilePath) (disk : Disk R) : ∃ e, save d fp disk = .error e := by
  have : ∃ e, storeAll d = .error e := by
    induction d with
    | nil => cases hm
    | cons p d ih =>
      obtain ⟨k', v'⟩ := p
      simp only [storeAll]
      cases hs : store v' with
      | error e => exact ⟨e, rfl⟩
      | ok s =>
        rcases List.mem_cons.1 hm with he | hm
        · cases he
          rw [h] at hs
          cases hs
        · obtain ⟨e, he⟩ := ih hm
          exact ⟨e, by simp only [he]⟩
  obtain ⟨e, he⟩ := this
  exact ⟨e, by simp only [save, he]⟩

/-- C42: a standard scaler fitted on a tuple, or on a list of arrays, is not restored: it cannot be written, or the scaler that is read refuses every tuple, or list, in particular the
data it was fitted on. -/
theorem C42_sequence_refuted {s : Std} {m sc : Tree RArr} (hm : s.mean = some m) (hs : s.scale = some sc) {wrap : List (Tree RArr) → Tree RArr}
    (h : (wrap = .tuple ∧ (∃ ts, m = .tuple ts) ∧ ∃ ts, sc = .tuple ts) ∨ (wrap = .list ∧ (∃ xs : List RArr, m = .list (xs.map .leaf)) ∧ ∃ xs : List RArr, sc = .list (xs.map .leaf)))
    {fp : FilePath} (hfp : Named fp) (disk : Disk (Option ℝ)) :
    (∃ e, save s.serialize fp disk = .error e) ∨
      ∃ disk' d s', save s.serialize fp disk = .ok disk' ∧ load fp disk' = .ok d ∧ Std.deserialize d = .ok s' ∧ ∀ us, (∃ e, s'.transform (wrap us) = .error e) ∧ ∃ e, s'.inverse (wrap us) = .error e := by
  have hleaf : ∀ xs : List RArr, hasObjL (mapL arrVal (xs.map .leaf)) = false := by
    intro xs
    induction xs with
    | nil => rfl
    | cons x xs ih => simp only [List.map_cons, mapL, map, hasObjL, hasObj, ih]; rfl
  have h1 : ((∃ ts, m = .tuple ts) ∨ ∃ ts, m = .list ts) ∧ ((∃ ts, sc = .tuple ts) ∨ ∃ ts, sc = .list ts) := by
    rcases h with ⟨_, h1, h2⟩ | ⟨_, ⟨xs, h1⟩, ys, h2⟩
    · exact ⟨.inl h1, .inl h2⟩
    · exact ⟨.inr ⟨_, h1⟩, .inr ⟨_, h2⟩⟩
  have hser : s.serialize = [("mean_".toList, map arrVal m), ("scale_".toList, map arrVal sc)] := by rw [Std.serialize, hm, hs]; rfl
  rcases storeSeq_cases (R := Option ℝ) (f := arrVal) arrVal_text h1.1 with ⟨e, he⟩ | ⟨v, hv, hv'⟩
  · exact .inl (save_error (k := "mean_".toList) (by rw [hser]; simp) he fp disk)
  rcases storeSeq_cases (R := Option ℝ) (f := arrVal) arrVal_text h1.2 with ⟨e, he⟩ | ⟨w, hw, hw'⟩
  · exact .inl (save_error (k := "scale_".toList) (by rw [hser]; simp) he fp disk)
  right
  have hT : Trips s.serialize [("mean_".toList, v), ("scale_".toList, w)] := by
    rw [hser]
    exact .cons (keyed hv) (.cons (keyed hw) .nil)
  obtain ⟨disk', hd1, hd2⟩ := save_load hT hfp disk
  refine ⟨disk', _, ⟨valOpt v, valOpt w⟩, hd1, hd2, rfl, ?_⟩
  have hvv : ∃ a b, valOpt v = some a ∧ valOpt w = some b := by
    have : ∀ u : Val (Option ℝ), ((∃ vs, u = .list vs) ∨ ∃ x, u = .leaf x) → ∃ a, valOpt u = some a := by
      rintro u (⟨vs, rfl⟩ | ⟨x, rfl⟩) <;> exact ⟨_, rfl⟩
    obtain ⟨a, ha⟩ := this v (by rcases hv' with ⟨vs, e, _⟩ | h; exacts [.inl ⟨vs, e⟩, .inr h])
    obtain ⟨b, hb⟩ := this w (by rcases hw' with ⟨vs, e, _⟩ | h; exacts [.inl ⟨vs, e⟩, .inr h])
    exact ⟨a, b, ha, hb⟩
  obtain ⟨a, b, ha, hb⟩ := hvv
  have hbad : ∀ (F : RArr → List (Tree RArr) → Except PyErr (Tree RArr)) us, ∃ e, jaxMap F (wrap us) [a, b] = .error e := by
    intro F us
    rcases h with ⟨rfl, -, -⟩ | ⟨rfl, ⟨xs, rfl⟩, -⟩
    · refine jaxMap_tuple_error us a [b] fun vs e => ?_
      rcases hv' with ⟨vs', rfl, _⟩ | ⟨x, rfl⟩ <;> · subst e; cases ha
    · refine jaxMap_list_error us a [b] fun vs e => ?_
      rcases hv' with ⟨vs', rfl, ho⟩ | ⟨x, rfl⟩
      · have : hasObjL (mapL arrVal (xs.map Tree.leaf)) = true := ho
        rw [hleaf] at this
        cases this
      · subst e; cases ha
  intro us
  constructor
  · unfold Std.transform
    split
    · simp only [ha, hb]
      exact hbad _ us
    · exact ⟨_, rfl⟩
  · unfold Std.inverse
    split
    · simp only [ha, hb]
      exact hbad _ us
    · exact ⟨_, rfl⟩

theorem text_store {wrap : List (Val R) → Val R} (hw : wrap = .list ∨ wrap = .tuple) (a : Str) (as : List Str) :
    ∃ s, store (wrap ((a :: as).map Mixed.textVal)) = .ok s ∧ fetch s = .error .typeError := by
  have hseq : store (wrap ((a :: as).map Mixed.textVal)) = storeSeq (wrap ((a :: as).map Mixed.textVal)) := by rcases hw with rfl | rfl <;> rfl
  have hu : shapeOfL (R := R) ((a :: as).map Mixed.textVal) = .ok [] := by
    refine shapeOfL_unit fun t ht => ?_
    obtain ⟨x, -, rfl⟩ := List.mem_map.1 ht
    exact .inl ⟨_, rfl, rfl⟩
  have hsh : shapeOf (wrap ((a :: as).map Mixed.textVal)) = .ok [as.length + 1] := by
    rcases hw with rfl | rfl
    · rw [shapeOf, hu]; simp
    · rw [shapeOf, hu]; simp
  have hno : ∀ as : List Str, hasObjL (R := R) (as.map Mixed.textVal) = false := by
    intro as
    induction as with
    | nil => rfl
    | cons a as ih => rw [List.map_cons, hasObjL, ih]; rfl
  have ho : hasObj (wrap ((a :: as).map Mixed.textVal)) = false := by rcases hw with rfl | rfl <;> exact hno _
  refine ⟨.array ⟨[as.length + 1], entryOf (wrap ((a :: as).map Mixed.textVal))⟩, ?_, ?_⟩
  · rw [hseq]
    simp only [storeSeq, hsh, ho]
    rfl
  · simp only [fetch]
    rw [if_neg (by simp), if_pos]
    simp only [NArr.entries, List.any_map, List.any_eq_true, Function.comp]
    refine ⟨[0], ?_, ?_⟩
    · simp [NArr.indices]
    · rcases hw with rfl | rfl <;> rfl

theorem dict_store {wrap : List (Val R) → Val R} (hw : wrap = .list ∨ wrap = .tuple) (a : Record R) (as : List (Record R)) :
    ∃ s v, store (wrap ((a :: as).map .dict)) = .ok s ∧ fetch s = .ok v := by
  have hu : ∀ t ∈ (a :: as).map (Tree.dict (β := NArr (Entry R))), Unit0 t := by
    intro t ht
    obtain ⟨x, -, rfl⟩ := List.mem_map.1 ht
    exact .inr (.inr ⟨_, rfl⟩)
  rcases hw with rfl | rfl
  · obtain ⟨s, h1, h2⟩ := trip_list hu rfl
    exact ⟨s, _, h1, h2⟩
  · obtain ⟨s, h1, h2⟩ := trip_tuple hu rfl
    exact ⟨s, _, h1, h2⟩

/-- C42: a mixed scaler whose tree is a list, or a tuple, of scalers can be written but never read. -/
theorem C42_mixed_sequence_refuted {σ : Type} (fo : Mixed.FileOps σ R) (h : Nat → σ) (r : Nat) (rs : List Nat) {S : Tree (Option Nat)}
    (hS : S = .list ((r :: rs).map fun q => .leaf (some q)) ∨ S = .tuple ((r :: rs).map fun q => .leaf (some q))) {fp : FilePath} (hfp : Named fp) (disk : Disk R) :
    ∃ disk', save (Mixed.serialize fo h (some S)) fp disk = .ok disk' ∧ load fp disk' = .error .typeError := by
  have hon : ∃ wrap : List (Val R) → Val R, (wrap = .list ∨ wrap = .tuple) ∧ ∀ f : σ → Val R, Mixed.onScalers f h S = wrap ((r :: rs).map fun q => f (h q)) := by
    have hb : ∀ (f : σ → Val R) (qs : List Nat), bindL (Mixed.onScaler f h) (normL (qs.map fun q => .leaf (some q))) = qs.map fun q => f (h q) := by
      intro f qs
      induction qs with
      | nil => rfl
      | cons q qs ih => simp only [List.map_cons, normL, bindL, ih]; rfl
    rcases hS with rfl | rfl
    · exact ⟨.list, .inl rfl, fun f => congrArg Tree.list (hb f (r :: rs))⟩
    · exact ⟨.tuple, .inr rfl, fun f => congrArg Tree.tuple (hb f (r :: rs))⟩
  obtain ⟨wrap, hw, hon⟩ := hon
  have htext : ∀ g : σ → Str, ∃ s, store (Mixed.onScalers (R := R) (fun s => Mixed.textVal (g s)) h S) = .ok s ∧ fetch s = .error .typeError := by
    intro g
    rw [hon]
    have := text_store hw (g (h r)) (rs.map fun q => g (h q))
    simpa [Function.comp_def] using this
  have hdict : ∃ s v, store (Mixed.onScalers (fun s => .dict (fo.ser s)) h S) = .ok s ∧ fetch s = .ok v := by
    rw [hon]
    have := dict_store hw (fo.ser (h r)) (rs.map fun q => fo.ser (h q))
    simpa [Function.comp_def] using this
  obtain ⟨s1, v1, a1, b1⟩ := hdict
  obtain ⟨s2, a2, b2⟩ := htext fun s => fo.module s ++ '.' :: fo.name s
  obtain ⟨s3, a3, b3⟩ := htext fo.name
  obtain ⟨s4, a4, b4⟩ := htext fo.module
  have hst : storeAll (Mixed.serialize fo h (some S)) =
      .ok [("feature_scalers".toList, s1), ("scaler_fulltypenames".toList, s2), ("scaler_typenames".toList, s3), ("scaler_modules".toList, s4)] := by
    simp only [Mixed.serialize, storeAll, a1, a2, a3, a4]
  refine ⟨_, by rw [save, hst], ?_⟩
  rw [load, named_read hfp]
  simp only [if_true, fetchAll, b1, b2]

end

/-! ## Cases that meet the hypotheses -/

/-- Two places. -/
noncomputable def fileData : Tree RArr := .dict [("b".toList, .leaf exArr), ("a".toList, .leaf exArr)]

theorem fileData_storable : Storable fileData := ⟨⟨by decide +kernel, trivial, trivial, trivial⟩, .inr (.inl ⟨_, rfl⟩)⟩

/-- Fitting on data that survives gives attributes that survive. -/
example (X : Tree RArr) (hX : Storable X) (s : Std) (h : Std.fit X = .ok s) : StorableOpt s.mean ∧ StorableOpt s.scale := by
  unfold Std.fit at h
  split at h
  · cases h
    exact ⟨fun t e => Option.some.inj e ▸ storable_norm _ hX, fun t e => Option.some.inj e ▸ storable_norm _ hX⟩
  · cases h

example : Storable fileData ∧ Storable (Tree.leaf exArr) ∧ Storable (.list [fileData]) :=
  ⟨fileData_storable, ⟨trivial, .inl ⟨_, rfl⟩⟩, ⟨fileData_storable.1, trivial⟩, .inr (.inr ⟨_, rfl, by simp, by
    intro u hu
    rw [List.mem_singleton] at hu
    exact ⟨_, hu⟩⟩)⟩

example : ∃ s, Std.fit fileData = .ok s := by
  unfold Std.fit
  rw [if_pos (show dataOk fileData = true from rfl)]
  exact ⟨_, rfl⟩

/-- The default range, and the same on fitted data. -/
example : ∃ s : MinMax, RangeOk NArr.shape s.minVal s.maxVal ∧ StorableOpt s.dmin ∧ StorableOpt s.dmax ∧ s.dmin ≠ Option.none :=
  ⟨⟨.leaf (num 0), .leaf (num 1), some fileData, some fileData⟩, ⟨trivial, trivial, .inl ⟨_, _, rfl, rfl, rfl⟩⟩, fun _ e => Option.some.inj e ▸ fileData_storable,
    fun _ e => Option.some.inj e ▸ fileData_storable, by simp⟩

example : ∃ s : Robust, RangeOk optShape s.qlow s.qhigh ∧ Storable s.centering ∧ Storable s.scaling ∧ StorableOpt s.scale ∧ StorableOpt s.median ∧ s.scale ≠ Option.none :=
  ⟨⟨.leaf (.level (num 25)), .leaf (.level (num 75)), .leaf (.flag true), .dict [("a".toList, .leaf (.flag false))], 0, some fileData, some fileData⟩,
    ⟨trivial, trivial, .inl ⟨_, _, rfl, rfl, rfl⟩⟩, ⟨trivial, .inl ⟨_, rfl⟩⟩, ⟨⟨by decide +kernel, trivial, trivial⟩, .inr (.inl ⟨_, rfl⟩)⟩,
    fun _ e => Option.some.inj e ▸ fileData_storable, fun _ e => Option.some.inj e ▸ fileData_storable, by simp⟩

example : ∃ (X : Tree (NArr Nat)) (t : Tree (OneHot.Fitted Nat)), Storable X ∧ X ≠ .none ∧ OneHot.fit X = .ok t :=
  ⟨.dict [("a".toList, .leaf ⟨[2, 1], fun i => i.headD 0⟩)], _, ⟨⟨by decide +kernel, trivial, trivial⟩, .inr (.inl ⟨_, rfl⟩)⟩, by simp, by
    unfold OneHot.fit
    rw [if_pos (by decide +kernel)]⟩

/-- The methods of standard scalers. -/
noncomputable def fileOps : Mixed.Ops Std RArr := ⟨fun x => x.shape.head?, fun _ X => Std.fit X, Std.transform, Std.inverse⟩

/-- Files of standard scalers. -/
noncomputable def stdFile : Mixed.FileOps Std (Option ℝ) := ⟨Std.serialize, fun _ => "StandardScaler".toList, fun _ => "parametricmatrixmodels.preprocessing".toList, fun _ _ => Std.deserialize⟩

example : ∃ (h : Nat → Std) (S : Tree (Option Nat)), ScalersOk S ∧ (∃ r, some r ∈ S.flat ∧ (h r).mean ≠ Option.none) ∧
    ∀ r, some r ∈ S.flat → ∀ d, Tree.norm (.dict (stdFile.ser (h r))) = .dict d →
      ∃ s', stdFile.deser (stdFile.name (h r)) (stdFile.module (h r)) d = .ok s' ∧ ∀ X, fileOps.transform s' X = fileOps.transform (h r) X ∧ fileOps.inverse s' X = fileOps.inverse (h r) X :=
  ⟨fun _ => ⟨some fileData, some fileData⟩, .list [.dict [("x".toList, .leaf (some 0)), ("y".toList, .leaf Option.none)], .leaf (some 1)],
    ⟨⟨⟨by decide +kernel, trivial, trivial, trivial⟩, trivial, trivial⟩, ⟨⟨trivial, trivial, trivial⟩, trivial, trivial⟩, .inr (.inr ⟨_, rfl, by simp, by simp⟩)⟩,
    ⟨0, by simp [flat, flatL, flatD], by simp⟩,
    fun _ _ => C42_standard_inside (fun _ e => Option.some.inj e ▸ ⟨fileData_storable.1, by simp [fileData]⟩) fun _ e => Option.some.inj e ▸ ⟨fileData_storable.1, by simp [fileData]⟩⟩

example : Named (.str "scaler".toList) ∧ Named (.path "scaler.npz".toList) ∧ npzExt.isSuffixOf "scaler".toList = false := ⟨trivial, show npzExt.isSuffixOf "scaler.npz".toList = true by decide +kernel, by decide +kernel⟩

/-- Fitted on a tuple. -/
example : ∃ s ts, Std.fit (.tuple [.leaf exArr, .leaf exArr]) = .ok s ∧ s.mean = some (.tuple ts) ∧ ∃ ts, s.scale = some (.tuple ts) := by
  have : ∃ s, Std.fit (.tuple [.leaf exArr, .leaf exArr]) = .ok s ∧ (∃ ts, s.mean = some (.tuple ts)) ∧ ∃ ts, s.scale = some (.tuple ts) := by
    unfold Std.fit
    rw [if_pos (by simp [dataOk, jaxLeaves, Tree.norm, normL, flat, flatL, exArr])]
    exact ⟨_, rfl, ⟨_, rfl⟩, _, rfl⟩
  obtain ⟨s, h1, ⟨ts, h2⟩, h3⟩ := this
  exact ⟨s, ts, h1, h2, h3⟩

/-- A range for which saving fails. -/
example : ∃ (s : MinMax) (x y : RArr), s.minVal = .leaf x ∧ s.maxVal = .leaf y ∧ x.shape = [] ∧ y.shape ≠ [] :=
  ⟨⟨.leaf (num 0), .leaf ⟨[2], fun _ => some 1⟩, Option.none, Option.none⟩, _, _, rfl, rfl, rfl, by simp⟩

end Verif.Props
