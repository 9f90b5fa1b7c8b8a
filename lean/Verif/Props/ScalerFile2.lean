import Verif.Props.ScalerFile
import Verif.Lemmas.TreeBind
import Verif.Lemmas.TreeDec

/-! # Properties of saving and loading one-hot encoders and mixed scalers -/

namespace Verif.Props
open Tree Npz FileSpec
open ForwardSpec (KeysOk KeysOkL KeysOkD)

section
variable {K : Type} [LinearOrder K] [Semiring K]
open OneHot

theorem colSort_rect (w : Nat) (M : List (List K)) : ∀ r ∈ colSort w M, r.length = w := by
  intro r hr
  obtain ⟨i, -, rfl⟩ := List.mem_map.1 hr
  simp

theorem tableOf_tableVal {u : Fitted K} (h : ∀ r ∈ u.table, r.length = u.width) : tableOf (tableVal u) = u.table := by
  refine List.ext_getElem ?_ ?_
  · simp [tableOf, tableVal]
  · intro i h1 h2
    simp only [tableOf, tableVal, List.getElem_map, List.getElem_range]
    refine List.ext_getElem ?_ ?_
    · simp [h _ (List.getElem_mem h2)]
    · intro j h3 h4
      simp [entryK, List.getD, List.getElem?_eq_getElem h2, List.getElem?_eq_getElem h4]

theorem entryOfL_int (l : List Nat) (i : Nat) (hi : i < l.length) : entryOfL (R := K) (l.map fun n => .leaf ⟨[], fun _ => .int n⟩) i [] = .int l[i] := by
  induction l generalizing i with
  | nil => simp at hi
  | cons a l ih =>
    cases i with
    | zero => rfl
    | succ i => exact ih i (by simpa using hi)

theorem hasObjL_int (l : List Nat) : hasObjL (R := K) (l.map fun n => .leaf ⟨[], fun _ => .int n⟩) = false := by
  induction l with
  | nil => rfl
  | cons a l ih => simpa [hasObjL, hasObj] using ih

theorem entryOfL_text (l : List Nat) (i : Nat) : (entryOfL (R := K) (l.map fun n => .leaf ⟨[], fun _ => .int n⟩) i []).isText = false := by
  induction l generalizing i with
  | nil => rfl
  | cons a l ih =>
    cases i with
    | zero => rfl
    | succ i => exact ih i

theorem trip_shape (u : Fitted K) : ∃ v, Trip (shapeVal u) v ∧ sizesOf v = .ok u.shape := by
  have hs : shapeOfL (R := K) (u.shape.map fun n => .leaf ⟨[], fun _ => .int n⟩) = .ok [] := by
    refine shapeOfL_unit ?_
    intro t ht
    obtain ⟨n, -, rfl⟩ := List.mem_map.1 ht
    exact .inl ⟨_, rfl, rfl⟩
  refine ⟨.leaf ⟨[u.shape.length], entryOf (shapeVal u)⟩, ⟨.array ⟨[u.shape.length], entryOf (shapeVal u)⟩, ?_, ?_⟩, ?_⟩
  · simp only [shapeVal, store, storeSeq, shapeOf, hs, hasObj, hasObjL_int, List.length_map]
    rfl
  · simp only [fetch]
    rw [if_neg (by simp), if_neg]
    simp only [NArr.entries, List.any_map, List.any_eq_true, not_exists, not_and, Function.comp]
    intro i hi
    simp only [NArr.indices, List.mem_flatMap, List.mem_range, List.map_cons, List.map_nil, List.mem_singleton] at hi
    obtain ⟨j, -, rfl⟩ := hi
    simp only [shapeVal, entryOf, entryOfL_text]
    simp
  · simp only [sizesOf]
    congr 1
    refine List.ext_getElem (by simp) ?_
    intro i h1 h2
    simp only [List.getElem_map, List.getElem_range, shapeVal, entryOf, entryOfL_int _ i h2]
    rfl

theorem sizesOf_norm (u : Fitted K) : sizesOf (shapeVal u).norm = .ok u.shape := by
  simp only [shapeVal, Tree.norm, sizesOf, normL_eq, List.map_map]
  congr 1
  refine List.ext_getElem (by simp) ?_
  intro i h1 h2
  simp [Tree.norm, entryOf, entryInt]

theorem storable_norm {α β : Type} (f : α → β) {t : Tree α} (h : Storable t) : Storable (map f t.norm) := by
  refine ⟨(keysOk_map _ _).2 (keysOk_norm' h.1), ?_⟩
  rcases h.2 with ⟨x, rfl⟩ | ⟨kvs, rfl⟩ | ⟨ts, rfl, hne, hts⟩
  · exact .inl ⟨_, rfl⟩
  · exact .inr (.inl ⟨_, rfl⟩)
  · refine .inr (.inr ⟨_, rfl, ?_, ?_⟩)
    · cases ts with
      | nil => exact absurd rfl hne
      | cons t ts => simp [normL, mapL]
    · intro u hu
      rw [mapL_eq, normL_eq, List.map_map] at hu
      obtain ⟨v, hv, rfl⟩ := List.mem_map.1 hu
      obtain ⟨kvs, rfl⟩ := hts v hv
      exact ⟨_, rfl⟩

/-- The shapes survive, as values that give the same sizes. -/
theorem trip_shapes {t : Tree (Fitted K)} (h : Storable t) : ∃ w : Fitted K → Val K, Trip (bind shapeVal t) (bind w t.norm) ∧ ∀ u, sizesOf (w u) = .ok u.shape := by
  rcases h.2 with ⟨x, rfl⟩ | ⟨kvs, rfl⟩ | ⟨ts, rfl, hne, hts⟩
  · choose w hw hw' using trip_shape (K := K)
    exact ⟨w, hw x, hw'⟩
  · refine ⟨fun u => (shapeVal u).norm, ?_, sizesOf_norm⟩
    rw [← norm_bind]
    exact trip_dict _
  · refine ⟨fun u => (shapeVal u).norm, ?_, sizesOf_norm⟩
    rw [← norm_bind]
    refine trip_list (ts := bindL shapeVal ts) ?_ ?_
    · intro v hv
      rw [bindL_eq] at hv
      obtain ⟨u, hu, rfl⟩ := List.mem_map.1 hv
      obtain ⟨kvs, rfl⟩ := hts u hu
      exact .inr (.inr ⟨_, rfl⟩)
    · cases ts with
      | nil => exact absurd rfl hne
      | cons t ts =>
        obtain ⟨kvs, rfl⟩ := hts t (by simp)
        rfl

theorem onehot_reads {t : Tree (Fitted K)} (hk : KeysOk t) (hn : t.norm = t) (hr : ∀ u ∈ flat t, ∀ r ∈ u.table, r.length = u.width) {w : Fitted K → Val K} (hw : ∀ u, sizesOf (w u) = .ok u.shape) :
    jaxMap fittedOf (map tableVal t) [bind w t] = .ok t := by
  rw [jaxMap_bind _ _ hk hn]
  have : mapM (fun u => fittedOf (tableVal u) [w u]) t = mapM (fun u => .ok (.leaf (id u))) t := by
    refine mapM_congr _ _ t fun u hu => ?_
    simp only [fittedOf, hw, tableOf_tableVal (hr u hu), id]
  rw [this, mapM_pure]
  exact congrArg _ (map_id t)

/-- C42: a one-hot encoder fitted on a bare array, on a dictionary or on a list of dictionaries (or not fitted), written to a file and read again, is the same encoder. -/
theorem C42_onehot {s : Option (Tree (Fitted K))} (h : ∀ t, s = some t → ∃ X, Storable X ∧ OneHot.fit X = .ok t) :
    Reloads (OneHot.serialize s) OneHot.deserialize fun s' => s' = s := by
  cases s with
  | none => exact reloads (.cons (keyed trip_none) (.cons (keyed trip_none) .nil)) rfl rfl
  | some t =>
    obtain ⟨X, hX, hf⟩ := h t rfl
    unfold OneHot.fit at hf
    split at hf
    · simp only [Except.ok.injEq] at hf
      have hst : Storable t := hf ▸ storable_norm _ hX
      have hn : t.norm = t := by rw [← hf, Tree.norm_map, norm_norm hX.1]
      have hrect : ∀ u ∈ flat t, ∀ r ∈ u.table, r.length = u.width := by
        intro u hu
        obtain ⟨p, hp⟩ := mem_flat_at.1 hu
        rw [← hf] at hp
        obtain ⟨x, -, rfl⟩ := at_map.1 hp
        exact colSort_rect _ _
      obtain ⟨w, hw, hw'⟩ := trip_shapes hst
      have ht := trip_map (f := tableVal) (fun _ _ => rfl) hst
      rw [hn] at hw ht
      refine reloads (.cons (keyed ht) (.cons (keyed hw) .nil)) ?_ rfl
      have := onehot_reads hst.1 hn hrect hw'
      have hne := map_ne_none (f := tableVal) (storable_ne hst)
      show (match map tableVal t, bind w t with
        | .none, .none => Except.ok Option.none
        | u, o => (jaxMap fittedOf u [o]).bind fun t => Except.ok (some t)) = _
      split
      · next e _ => exact absurd e hne
      · rw [this]; rfl
    · cases hf

end

section
variable {σ R A α β : Type}
open Mixed

mutual
theorem noneLeaf_bind (f : α → Tree β) (g : α → Option β) (h : ∀ a, noneLeaf (f a) = .leaf (g a)) : ∀ t : Tree α, NoNone t → noneLeaf (Tree.bind f t) = map g t
  | .leaf a, _ => h a
  | .none, hn => absurd hn (by simp [NoNone])
  | .list ts, hn => by rw [Tree.bind, noneLeaf, noneLeafL_bind f g h ts hn, map]
  | .tuple ts, hn => by rw [Tree.bind, noneLeaf, noneLeafL_bind f g h ts hn, map]
  | .dict kvs, hn => by rw [Tree.bind, noneLeaf, noneLeafD_bind f g h kvs hn, map]
theorem noneLeafL_bind (f : α → Tree β) (g : α → Option β) (h : ∀ a, noneLeaf (f a) = .leaf (g a)) : ∀ ts : List (Tree α), NoNoneL ts → noneLeafL (bindL f ts) = mapL g ts
  | [], _ => rfl
  | t :: ts, hn => by rw [bindL, noneLeafL, noneLeaf_bind f g h t hn.1, noneLeafL_bind f g h ts hn.2, mapL]
theorem noneLeafD_bind (f : α → Tree β) (g : α → Option β) (h : ∀ a, noneLeaf (f a) = .leaf (g a)) : ∀ ts : List (Str × Tree α), NoNoneD ts → noneLeafD (bindD f ts) = mapD g ts
  | [], _ => rfl
  | (k, t) :: ts, hn => by rw [bindD, noneLeafD, noneLeaf_bind f g h t hn.1, noneLeafD_bind f g h ts hn.2, mapD]
end

mutual
theorem noNone_norm : ∀ {t : Tree α}, NoNone t → NoNone t.norm
  | .leaf _, h => h
  | .none, h => h
  | .list _, h => noNoneL_norm h
  | .tuple _, h => noNoneL_norm h
  | .dict kvs, h => by
    have h1 := noNoneD_norm (ts := kvs) h
    have : ∀ ts : List (Str × Tree α), NoNoneD ts ↔ ∀ p ∈ ts, NoNone p.2 := by
      intro ts
      induction ts with
      | nil => simp [NoNoneD]
      | cons p ts ih => simp [NoNoneD, ih]
    rw [this] at h1
    show NoNoneD _
    rw [this]
    intro p hp
    exact h1 p ((sortKvs_perm _).mem_iff.1 hp)
theorem noNoneL_norm : ∀ {ts : List (Tree α)}, NoNoneL ts → NoNoneL (normL ts)
  | [], _ => trivial
  | _ :: _, h => ⟨noNone_norm h.1, noNoneL_norm h.2⟩
theorem noNoneD_norm : ∀ {ts : List (Str × Tree α)}, NoNoneD ts → NoNoneD (normD ts)
  | [], _ => trivial
  | (_, _) :: _, h => ⟨noNone_norm h.1, noNoneD_norm h.2⟩
end

theorem hasObjL_of {ts : List (Val R)} {t : Val R} (h : t ∈ ts) (ht : hasObj t = true) : hasObjL ts = true := by
  induction ts with
  | nil => cases h
  | cons u ts ih =>
    rw [hasObjL]
    rcases List.mem_cons.1 h with rfl | h
    · rw [ht]; rfl
    · rw [ih h]; simp

theorem trip_scalers {f : Option Nat → Val R} (hf : ∀ o, Trip (f o) (f o).norm ∧ Unit0 (f o)) (h0 : hasObj (f Option.none) = true) {S : Tree (Option Nat)} (h : ScalersOk S) :
    Trip (Tree.bind f S.norm) (Tree.bind (fun o => (f o).norm) S.norm) := by
  have e : Tree.bind (fun o => (f o).norm) S.norm = (Tree.bind f S.norm).norm := by rw [norm_bind, norm_norm h.1]
  rw [e]
  rcases h.2.2 with ⟨o, rfl⟩ | ⟨kvs, rfl⟩ | ⟨ts, rfl, hts, t, ht, ht'⟩
  · exact (hf o).1
  · exact trip_dict _
  · refine trip_list (ts := bindL f (normL ts)) ?_ ?_
    · intro v hv
      rw [bindL_eq, normL_eq, List.map_map] at hv
      obtain ⟨u, hu, rfl⟩ := List.mem_map.1 hv
      rcases hts u hu with ⟨o, rfl⟩ | ⟨kvs, rfl⟩
      · exact (hf o).2
      · exact .inr (.inr ⟨_, rfl⟩)
    · refine hasObjL_of (t := Tree.bind f t.norm) ?_ ?_
      · rw [bindL_eq, normL_eq, List.map_map]
        exact List.mem_map.2 ⟨t, ht, rfl⟩
      · rcases ht' with rfl | ⟨kvs, rfl⟩
        · exact h0
        · rfl

theorem trip_names (f : σ → Str) (h : Nat → σ) (o : Option Nat) : Trip (onScaler (R := R) (fun s => textVal (f s)) h o) (onScaler (R := R) (fun s => textVal (f s)) h o).norm ∧
    Unit0 (onScaler (R := R) (fun s => textVal (f s)) h o) := by
  cases o with
  | none => exact ⟨trip_none, .inr (.inl rfl)⟩
  | some r => exact ⟨trip_scalar rfl, .inl ⟨_, rfl, rfl⟩⟩

theorem trip_parts (f : σ → Record R) (h : Nat → σ) (o : Option Nat) : Trip (onScaler (fun s => .dict (f s)) h o) (onScaler (fun s => .dict (f s)) h o).norm ∧
    Unit0 (onScaler (fun s => .dict (f s)) h o) := by
  cases o with
  | none => exact ⟨trip_none, .inr (.inl rfl)⟩
  | some r => exact ⟨trip_dict _, .inr (.inr ⟨_, rfl⟩)⟩

/-- The name at a place. -/
def nameAt (f : σ → Str) (h : Nat → σ) : Option Nat → Option (NArr (Entry R))
  | Option.none => Option.none
  | some r => some ⟨[], fun _ => .text (f (h r))⟩

theorem noneLeaf_name (f : σ → Str) (h : Nat → σ) (o : Option Nat) : noneLeaf (onScaler (R := R) (fun s => textVal (f s)) h o).norm = .leaf (nameAt f h o) := by
  cases o <;> rfl

/-- C42: a mixed scaler written to a file and read again transforms all data, in both directions, as before, if its tree of scalers is one scaler, a dictionary or a list in which a
scaler is missing or a dictionary occurs, and each of its scalers is restored from the contents it had. -/
theorem C42_mixed (ops : Ops σ A) (fo : FileOps σ R) (h : Nat → σ) (S : Scalers) (hS : ∀ t, S = some t → ScalersOk t)
    (hr : ∀ t, S = some t → ∀ r, some r ∈ t.flat → ∀ d, Tree.norm (.dict (fo.ser (h r))) = .dict d →
      ∃ s', fo.deser (fo.name (h r)) (fo.module (h r)) d = .ok s' ∧ ∀ X, ops.transform s' X = ops.transform (h r) X ∧ ops.inverse s' X = ops.inverse (h r) X) :
    Reloads (Mixed.serialize fo h S) (Mixed.deserialize fo) fun S' =>
      ∀ X, transformObj ops S' X = Mixed.transform ops h S X ∧ inverseObj ops S' X = Mixed.inverse ops h S X := by
  cases S with
  | none => exact reloads (.cons (keyed trip_none) (.cons (keyed trip_none) (.cons (keyed trip_none) (.cons (keyed trip_none) .nil)))) rfl fun X => ⟨rfl, rfl⟩
  | some S =>
    have hS := hS S rfl
    have hr := hr S rfl
    have t1 := trip_scalers (trip_parts fo.ser h) rfl hS
    have t2 := trip_scalers (trip_names (R := R) (fun s => fo.module s ++ '.' :: fo.name s) h) rfl hS
    have t3 := trip_scalers (trip_names (R := R) fo.name h) rfl hS
    have t4 := trip_scalers (trip_names (R := R) fo.module h) rfl hS
    have hT : Trips (Mixed.serialize fo h (some S)) [("feature_scalers".toList, _), ("scaler_fulltypenames".toList, _), ("scaler_typenames".toList, _), ("scaler_modules".toList, _)] :=
      .cons (keyed (k := "feature_scalers".toList) t1) (.cons (keyed (k := "scaler_fulltypenames".toList) t2)
      (.cons (keyed (k := "scaler_typenames".toList) t3) (.cons (keyed (k := "scaler_modules".toList) t4) .nil)))
    by_cases h0 : S = .leaf Option.none
    · subst h0
      exact reloads (s' := Option.none) hT rfl fun X => ⟨rfl, rfl⟩
    have hk := keysOk_norm' hS.1
    have hn : S.norm.norm = S.norm := norm_norm hS.1
    have hre : ∃ re : Nat → σ, ∀ r, some r ∈ S.flat → (∀ d, Tree.norm (.dict (fo.ser (h r))) = .dict d → fo.deser (fo.name (h r)) (fo.module (h r)) d = .ok (re r)) ∧
        ∀ X, ops.transform (re r) X = ops.transform (h r) X ∧ ops.inverse (re r) X = ops.inverse (h r) X := by
      have : ∀ r, ∃ s', some r ∈ S.flat → (∀ d, Tree.norm (.dict (fo.ser (h r))) = .dict d → fo.deser (fo.name (h r)) (fo.module (h r)) d = .ok s') ∧
          ∀ X, ops.transform s' X = ops.transform (h r) X ∧ ops.inverse s' X = ops.inverse (h r) X := by
        intro r
        by_cases hm : some r ∈ S.flat
        · obtain ⟨s', h1, h2⟩ := hr r hm _ rfl
          exact ⟨s', fun _ => ⟨fun d hd => by rw [← h1]; cases hd; rfl, h2⟩⟩
        · exact ⟨h r, fun e => absurd e hm⟩
      choose re hre using this
      exact ⟨re, hre⟩
    obtain ⟨re, hre⟩ := hre
    have hbuild : jaxMap (build fo) (noneLeaf (Tree.bind (fun o => (onScaler (R := R) (fun s => textVal (fo.name s)) h o).norm) S.norm))
        [Tree.bind (fun o => (onScaler (R := R) (fun s => textVal (fo.module s)) h o).norm) S.norm, Tree.bind (fun o => (onScaler (fun s => .dict (fo.ser s)) h o).norm) S.norm] =
        .ok (map (Option.map re) S.norm) := by
      rw [noneLeaf_bind _ _ (noneLeaf_name fo.name h) _ (noNone_norm hS.2.1), jaxMap_bind2 _ _ _ hk hn, ← mapM_pure]
      refine mapM_congr _ _ _ fun o ho => ?_
      cases o with
      | none => rfl
      | some r =>
        have hm : some r ∈ S.flat := by
          obtain ⟨p, hp⟩ := mem_flat_at.1 ho
          exact mem_flat_at.2 ⟨p, at_norm.1 hp⟩
        have := (hre r hm).1 _ rfl
        show (match fo.deser (fo.name (h r)) (fo.module (h r)) _ with
          | .error e => Except.error e
          | .ok a => .ok (Tree.leaf (some a))) = _
        rw [this]
        rfl
    refine reloads (s' := some (map (Option.map re) S.norm)) hT ?_ ?_
    · unfold Mixed.deserialize
      have hne : Tree.bind (fun o => (onScaler (fun s => .dict (fo.ser s)) h o).norm) S.norm ≠ .none := by
        intro e
        rcases hS.2.2 with ⟨o, rfl⟩ | ⟨kvs, rfl⟩ | ⟨ts, rfl, _⟩
        · cases o with
          | none => exact h0 rfl
          | some r => cases e
        · cases e
        · cases e
      split
      · next e => cases e
      · next e =>
        have : some (Tree.bind (fun o => (onScaler (fun s => .dict (fo.ser s)) h o).norm) S.norm) = some .none := e
        exact absurd (Option.some.inj this) hne
      · next serial _ e =>
        have : some (Tree.bind (fun o => (onScaler (fun s => .dict (fo.ser s)) h o).norm) S.norm) = some serial := e
        cases this
        show (match jaxMap (build fo) (noneLeaf (Tree.bind (fun o => (onScaler (R := R) (fun s => textVal (fo.name s)) h o).norm) S.norm))
          [Tree.bind (fun o => (onScaler (R := R) (fun s => textVal (fo.module s)) h o).norm) S.norm, Tree.bind (fun o => (onScaler (fun s => .dict (fo.ser s)) h o).norm) S.norm] with
          | .error e => Except.error e
          | .ok t => .ok (some t)) = _
        rw [hbuild]
    · intro X
      have : ∀ (f : σ → Tree A → Except PyErr (Tree A)), (∀ r, some r ∈ S.flat → ∀ X, f (re r) X = f (h r) X) → eachObj f (map (Option.map re) S.norm) X = eachPart (fun r x => f (h r) x) S X := by
        intro f hf
        unfold eachObj eachPart
        rw [jaxMap_map, jaxMap_normal hS.1]
        refine jaxMap_congr ?_ _
        intro o ho vs
        cases o with
        | none =>
          match vs with
          | [] => rfl
          | [x] => rfl
          | _ :: _ :: _ => rfl
        | some r =>
          match vs with
          | [] => rfl
          | [x] => exact hf r ho x
          | _ :: _ :: _ => rfl
      exact ⟨by simp only [transformObj, Mixed.transform, this _ fun r hm X => ((hre r hm).2 X).1], by simp only [inverseObj, Mixed.inverse, this _ fun r hm X => ((hre r hm).2 X).2]⟩

end
end Verif.Props
