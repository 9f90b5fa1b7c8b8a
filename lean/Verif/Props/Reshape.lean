import Verif.Lemmas.Reshape
import Verif.Lemmas.TreeBack
import Verif.Lemmas.TreeDec
import Verif.Lemmas.Scalers
import Mathlib.Tactic.ByContra

/-!
# C59: reshaping
-/

namespace Verif.Props
open Reshape ReshapeSpec Tree ForwardSpec NArr NdSpec

variable {V : Type}

theorem prod_eq_count (s : List Nat) : prod s = count s := by
  induction s with
  | nil => rfl
  | cons n s ih => rw [prod_cons, ih]; rfl

theorem concretify_count {s : List Nat} {t : List Int} {r : Option (List Int)} (h : concretify (some s) (some t) = .ok r) : t.count (-1) ≤ 1 := by
  unfold concretify at h
  simp only at h
  split at h
  · split at h
    · cases h
    · omega
  · rename_i hm
    have := List.count_eq_zero.2 hm
    omega

theorem meets_unique {t : List Int} {r r' : List Nat} (hc : t.count (-1) ≤ 1) (hk : t.count (-1) = 1 → knownNat t ≠ 0) (h : Meets t r)
    (h' : Meets t r') (e : prod r = prod r') : r = r' := by
  obtain ⟨q, rfl⟩ := fill_of_meets h hc
  obtain ⟨q', rfl⟩ := fill_of_meets h' hc
  by_cases h1 : t.count (-1) = 1
  · rw [fill_prod, fill_prod, h1, pow_one, pow_one] at e
    rw [Nat.eq_of_mul_eq_mul_left (Nat.pos_of_ne_zero (hk h1)) e]
  · have h0 : t.count (-1) = 0 := by omega
    rw [count_zero_map t h0, count_zero_map t h0]

/-- **C59 (the declared shape).** For a target with dimensions ≥ −1 the declared shape meets the target, has as many entries as the input and is
the only such shape. -/
theorem C59_inferred (s : List Nat) (t : List Int) (ht : ∀ d ∈ t, -1 ≤ d) (r : Option (List Int)) (h : concretify (some s) (some t) = .ok r) :
    ∃ r' : List Nat, r = some (r'.map Int.ofNat) ∧ Meets t r' ∧ count r' = count s ∧
      ∀ r'', Meets t r'' → count r'' = count s → r'' = r' := by
  have hc := concretify_count h
  obtain ⟨r', h1, h2, h3, h4⟩ := (concretify_spec s t ht hc).1 r h
  refine ⟨r', h1, h2, by rw [← prod_eq_count, ← prod_eq_count, h3], fun r'' hm he => ?_⟩
  exact meets_unique hc h4 hm h2 (by rw [h3, prod_eq_count, prod_eq_count, he])

example : concretify (some [4, 3]) (some [2, -1]) = .ok (some [2, 6]) := by decide +kernel
example : concretify (some [0, 3]) (some [2, -1]) = .ok (some [2, 0]) := by decide +kernel

/-- **C59 (incompatible targets are refused).** A target is accepted exactly if it has at most one −1 and exactly one shape with the right number
of entries meets it. -/
theorem C59_refused (s : List Nat) (t : List Int) (ht : ∀ d ∈ t, -1 ≤ d) :
    (∃ r, concretify (some s) (some t) = .ok r) ↔ t.count (-1) ≤ 1 ∧ ∃! r', Meets t r' ∧ count r' = count s := by
  constructor
  · rintro ⟨r, h⟩
    obtain ⟨r', -, h2, h3, h4⟩ := C59_inferred s t ht r h
    exact ⟨concretify_count h, r', ⟨h2, h3⟩, fun r'' ⟨a, b⟩ => h4 r'' a b⟩
  · rintro ⟨hc, r', ⟨hm, he⟩, hu⟩
    refine (concretify_spec s t ht hc).2 ⟨r', hm, by rw [prod_eq_count, prod_eq_count, he]⟩ fun h1 hk => ?_
    have hp : ∀ q, prod (t.map fun d => if d = -1 then q else d.toNat) = 0 := fun q => by rw [fill_prod, hk, Nat.zero_mul]
    obtain ⟨q, rfl⟩ := fill_of_meets hm hc
    have h0 : count s = 0 := by rw [← he, ← prod_eq_count, hp]
    have key : ∀ q', (t.map fun d => if d = -1 then q' else d.toNat) = t.map fun d => if d = -1 then q else d.toNat := fun q' =>
      hu _ ⟨meets_fill t ht q', by rw [← prod_eq_count, hp, h0]⟩
    have hmem : -1 ∈ t := List.count_pos_iff.1 (by omega)
    have e : ∀ q', q' = q := fun q' => by
      have := List.map_inj_left.1 (key q') (-1) hmem
      simpa using this
    have := e 0
    have := e 1
    omega

example : ∀ r, concretify (some [4, 3]) (some [5, -1]) ≠ .ok r := by
  intro r h
  have : concretify (some [4, 3]) (some [5, -1]) = .error .assertionError := by decide +kernel
  rw [this] at h; cases h

theorem npReshape_samples {x y : NArr V} {b : Nat} {s : List Nat} {t : List Int} (hx : x.shape = b :: s)
    (h : npReshape x ((b : Int) :: t) = .ok y) :
    ∃ r, y.shape = b :: r ∧ Meets t r ∧ (0 < b → prod r = prod s) ∧ ∀ k, k < b → sample y k = sample x k := by
  unfold npReshape at h
  cases hr : resolve x.size ((b : Int) :: t) with
  | error e => rw [hr] at h; cases h
  | ok r =>
    rw [hr] at h
    cases h
    obtain ⟨h1, h2, h3, h4⟩ := resolve_spec hr
    cases h1 with
    | cons hd htl =>
      rename_i n r
      have hn : n = b := by omega
      subst hn
      have hsz : n * prod r = n * prod s := by
        rw [← prod_cons, h2]
        unfold NArr.size
        rw [hx]
        rfl
      refine ⟨r, rfl, htl, fun hb => Nat.eq_of_mul_eq_mul_left hb hsz, fun k hk => ?_⟩
      have hp : prod r = prod s := Nat.eq_of_mul_eq_mul_left (by omega) hsz
      unfold sample
      simp only [hx, List.tail_cons]
      rw [← map_unravel s, ← hp, ← map_ravel r, List.map_map, List.map_map]
      refine List.map_congr_left fun i hi => ?_
      have hlt := ravel_lt (mem_indices.1 hi)
      simp only [Function.comp, ravel]
      rw [hp, unravel_cons _ _ _ _ (by omega)]

/-- **C59 (samples keep their entries).** A reshaped array has the same number of samples, every sample has the same entries in the same row-major
order, and the dimensions asked for. -/
theorem C59_samples (x y : NArr V) (b : Nat) (s : List Nat) (t : List Int) (hx : x.shape = b :: s)
    (h : reshapeArray x (.leaf (some t)) = .ok y) :
    ∃ r, y.shape = b :: r ∧ Meets t r ∧ (0 < b → count r = count s) ∧ ∀ k, k < b → sample y k = sample x k := by
  unfold reshapeArray at h
  rw [hx] at h
  simp only at h
  obtain ⟨r, h1, h2, h3, h4⟩ := npReshape_samples hx h
  exact ⟨r, h1, h2, fun hb => by rw [← prod_eq_count, ← prod_eq_count, h3 hb], h4⟩

example : ∃ y : NArr (List Nat), reshapeArray ⟨[2, 4, 3], id⟩ (.leaf (some [2, -1])) = .ok y ∧ y.shape = [2, 2, 6] ∧
    y.val [1, 1, 0] = [1, 2, 0] := ⟨_, rfl, by decide, by decide⟩

theorem reshape_of_declared {x : NArr V} {b : Nat} {s : List Nat} {t : List Int} (hx : x.shape = b :: s) (hb : 0 < b) (ht : ∀ d ∈ t, -1 ≤ d)
    {r : Option (List Int)} (h : concretify (some s) (some t) = .ok r) :
    ∃ (y : NArr V) (r' : List Nat), reshapeArray x (.leaf (some t)) = .ok y ∧ y.shape = b :: r' ∧ r = some (r'.map Int.ofNat) := by
  have hc := concretify_count h
  obtain ⟨r', h1, h2, h3, h4⟩ := (concretify_spec s t ht hc).1 r h
  have : resolve x.size ((b : Int) :: t) = .ok (b :: r') := by
    have := resolve_total hb ht hc h2 h3 h4
    unfold NArr.size
    rw [hx]
    exact this
  refine ⟨⟨b :: r', fun i => x.val (unravel x.shape (ravel (b :: r') i))⟩, r', ?_, rfl, h1⟩
  unfold reshapeArray npReshape
  rw [hx]
  simp only
  rw [this]

/-! ### Whole trees -/

theorem concretifyTree_at {s : Tree (Option (List Nat))} {t out : Target} (h : concretifyTree s t = .ok out) {p : List ForwardSpec.Step}
    {a : Option (List Nat)} (ha : At s p a) : ∃ b r, At t p b ∧ concretify a b = .ok r ∧ At out p r := by
  unfold concretifyTree at h
  split at h
  · obtain ⟨vs, w, h1, h2, h3, h4⟩ := jaxMap_at h ha
    match vs, h1 with
    | [v], _ =>
      have hv := h2 0 t v rfl rfl
      cases v with
      | leaf b =>
        simp only at h3
        split at h3
        · rename_i r hr
          cases h3
          exact ⟨b, r, sub_leaf.1 hv, hr, sub_leaf.1 h4⟩
        · cases h3
      | _ => cases h3
  · cases h

theorem concretifyTree_same {s : Tree (Option (List Nat))} {t out : Target} (h : concretifyTree s t = .ok out) :
    map (fun _ => ()) out = map (fun _ => ()) s.norm := by
  unfold concretifyTree at h
  split at h
  · refine jaxMap_struct (fun a vs w hw => ?_) h
    split at hw
    · split at hw
      · cases hw; exact ⟨_, rfl⟩
      · cases hw
    · cases hw
  · cases h

theorem isInts_struct {A B : Type} {s : Tree (Option A)} {t : Tree (Option B)} (h : sameStruct s.norm t.norm = true) (hs : isInts s = true)
    (ht : t ≠ .leaf Option.none) : isInts t = true := by
  cases s with
  | leaf a =>
    cases t with
    | leaf b => cases b with
      | none => exact absurd rfl ht
      | some b => rfl
    | _ => simp [Tree.norm, sameStruct] at h
  | none => cases hs
  | list ts =>
    cases ts with
    | cons _ _ => cases hs
    | nil =>
      cases t with
      | list us => cases us with
        | nil => rfl
        | cons _ _ => simp [Tree.norm, normL, sameStruct, sameStructL] at h
      | _ => simp [Tree.norm, normL, sameStruct] at h
  | tuple ts =>
    cases ts with
    | cons _ _ => cases hs
    | nil =>
      cases t with
      | tuple us => cases us with
        | nil => rfl
        | cons _ _ => simp [Tree.norm, normL, sameStruct, sameStructL] at h
      | _ => simp [Tree.norm, normL, sameStruct] at h
  | dict ts =>
    cases ts with
    | cons _ _ => cases hs
    | nil =>
      cases t with
      | dict us => cases us with
        | nil => rfl
        | cons u us =>
          obtain ⟨k, u⟩ := u
          simp only [Tree.norm, normD, sameStruct] at h
          have hp := sortKvs_perm ((k, Tree.norm u) :: normD us)
          cases e : sortKvs ((k, Tree.norm u) :: normD us) with
          | nil => rw [e] at hp; exact absurd hp.length_eq (by simp)
          | cons x xs => rw [e] at h; simp [sortKvs, sameStructD] at h
      | _ => simp [Tree.norm, sameStruct] at h

theorem sameStruct_symm {A B : Type} {s : Tree A} {t : Tree B} (h : sameStruct s t = true) : sameStruct t s = true :=
  (sameStruct_iff _ _).2 ((sameStruct_iff _ _).1 h).symm

/-- The declared shape leaf by leaf. -/
theorem output_at {t out : Target} {s : Tree (Option (List Nat))} (hstr : sameStruct s.norm t.norm = true) (h : outputShape (some t) s = .ok out) :
    map (fun _ => ()) out = map (fun _ => ()) s.norm ∧
      ∀ p a, At s p a → ∃ b r, At t p b ∧ concretify a b = .ok r ∧ At out p r := by
  unfold outputShape at h
  simp only at h
  split at h
  · cases h
  · cases h
  · rename_i hn1 hn2
    split at h
    · cases h
    · split at h
      · cases h
      · rename_i r hr
        by_cases hs : isInts s = true
        · rw [if_pos hs] at h
          rw [if_pos hs] at hr
          have htn : t ≠ .leaf Option.none := by
            rintro rfl
            rw [if_neg (by simp [isInts])] at hr
            unfold concretifyTree at hr
            simp [Tree.norm, sameStruct] at hr
          rw [if_pos (isInts_struct hstr hs htn)] at hr
          have hst := concretifyTree_same hr
          cases r with
          | tuple rs =>
            cases rs with
            | nil => cases h
            | cons r0 rs =>
              cases h
              simp only [map, Tree.norm, normL, mapL, Tree.tuple.injEq, List.cons.injEq] at hst
              refine ⟨hst.1, fun p a ha => ?_⟩
              obtain ⟨b, q, h1, h2, h3⟩ := concretifyTree_at hr (At.tuple (i := 0) (ts := [s]) rfl ha)
              refine ⟨b, q, ?_, h2, ?_⟩
              · cases h1 with
                | tuple hi h1 => cases hi; exact h1
              · cases h3 with
                | tuple hi h1 => cases hi; exact h1
          | _ => cases h
        · have ht : ¬ isInts t = true := by
            intro ht
            refine hs (isInts_struct (sameStruct_symm hstr) ht ?_)
            rintro rfl
            exact hn1 rfl
          rw [if_neg hs] at h
          rw [if_neg hs, if_neg ht] at hr
          cases h
          exact ⟨concretifyTree_same hr, fun p a ha => concretifyTree_at hr ha⟩

/-- **C59 (a compiled module does what it declared).** If the target has the structure of the data, its dimensions are ≥ −1 and the batch is not
empty, then a target that `compile` accepts is also accepted by the call; the output has the structure of the data, every array has the declared shape
behind the batch axis and each sample keeps its entries; leaves with target `None` are unchanged. -/
theorem C59_call (t out : Target) (data : Tree (NArr V)) (hk : KeysOk data) (hkt : KeysOk t) (hstr : sameStruct data.norm t.norm = true)
    (hb : ∀ p x, At data p x → ∃ b s, x.shape = b :: s ∧ 0 < b) (ht : ∀ p d, At t p (some d) → ∀ n ∈ d, -1 ≤ n)
    (h : outputShape (some t) (map (fun x : NArr V => some x.shape.tail) data) = .ok out) :
    ∃ data', callable (some t) data = .ok data' ∧ map (fun _ => ()) data' = map (fun _ => ()) data.norm ∧
      ∀ p x, At data p x → ∃ tgt y, At t p tgt ∧ At data' p y ∧ (tgt = Option.none → y = x) ∧
        ∀ d, tgt = some d → ∃ r : List Nat, At out p (some (r.map Int.ofNat)) ∧ Meets d r ∧ count r = count x.shape.tail ∧
          (∀ r', Meets d r' → count r' = count x.shape.tail → r' = r) ∧
          y.shape = x.shape.headD 0 :: r ∧ ∀ k, k < x.shape.headD 0 → sample y k = sample x k := by
  have hstr' : sameStruct (map (fun x : NArr V => some x.shape.tail) data).norm t.norm = true := by
    rw [sameStruct_iff, norm_map, map_map]
    exact (sameStruct_iff _ _).1 hstr
  obtain ⟨-, ho⟩ := output_at hstr' h
  have hleaf : ∀ p x, At data p x → ∀ tgt, At t p tgt → ∃ y, reshapeArray x (.leaf tgt) = .ok y ∧ (tgt = Option.none → y = x) ∧
      ∀ d, tgt = some d → ∃ r : List Nat, At out p (some (r.map Int.ofNat)) ∧ Meets d r ∧ count r = count x.shape.tail ∧
          (∀ r', Meets d r' → count r' = count x.shape.tail → r' = r) ∧
          y.shape = x.shape.headD 0 :: r ∧ ∀ k, k < x.shape.headD 0 → sample y k = sample x k := by
    intro p x hx tgt htg
    obtain ⟨b, s, e, hb0⟩ := hb p x hx
    cases tgt with
    | none =>
      refine ⟨x, ?_, fun _ => rfl, fun d hd => by cases hd⟩
      unfold reshapeArray
      rw [e]
    | some d =>
      obtain ⟨tg, r, h1, h2, h3⟩ := ho p (some x.shape.tail) (at_map.2 ⟨x, hx, rfl⟩)
      have := at_unique hkt h1 htg
      subst this
      rw [e, List.tail_cons] at h2
      obtain ⟨y, r', h4, h5, h6⟩ := reshape_of_declared e hb0 (ht p d htg) h2
      subst h6
      refine ⟨y, h4, fun hd => (by cases hd), fun d' hd => ?_⟩
      cases hd
      obtain ⟨r'', e', h7, h8, h9⟩ := C59_inferred s d (ht p d htg) _ h2
      have hrr : r' = r'' := by
        have hinj : Function.Injective Int.ofNat := fun a b h => by cases h; rfl
        exact List.map_injective_iff.2 hinj (Option.some.inj e')
      subst hrr
      obtain ⟨r2, h10, -, -, h11⟩ := C59_samples x y b s d e h4
      rw [e, List.tail_cons, List.headD_cons]
      exact ⟨r', h3, h7, h8, h9, h5, h11⟩
  have htot : ∃ data', callable (some t) data = .ok data' := by
    unfold callable
    refine jaxMap_total (us := [t]) (fun u hu => ?_) fun p x bs hx hbs => ?_
    · cases hu with
      | head => exact ⟨hkt, (sameStruct_iff _ _).1 hstr⟩
      | tail _ hu => cases hu
    · cases hbs with
      | cons h1 h2 =>
        cases h2
        obtain ⟨y, hy, -⟩ := hleaf p x hx _ h1
        refine ⟨.leaf y, ?_⟩
        simp only [List.map_cons, List.map_nil, hy]
  obtain ⟨data', hd⟩ := htot
  refine ⟨data', hd, ?_, fun p x hx => ?_⟩
  · unfold callable at hd
    refine jaxMap_struct (fun a vs w hw => ?_) hd
    split at hw
    · split at hw
      · cases hw; exact ⟨_, rfl⟩
      · cases hw
    · cases hw
  · unfold callable at hd
    obtain ⟨vs, w, h1, h2, h3, h4⟩ := jaxMap_at hd hx
    match vs, h1 with
    | [v], _ =>
      have hv := h2 0 t v rfl rfl
      simp only at h3
      split at h3
      · rename_i y hy
        cases h3
        cases v with
        | leaf tgt =>
          have htg := sub_leaf.1 hv
          obtain ⟨y', hy', h5, h6⟩ := hleaf p x hx tgt htg
          rw [hy] at hy'
          cases hy'
          exact ⟨tgt, y, htg, sub_leaf.1 h4, h5, h6⟩
        | _ =>
          obtain ⟨b, s, e, -⟩ := hb p x hx
          unfold reshapeArray at hy
          rw [e] at hy
          cases hy
      · cases h3

/-- Two arrays to reshape. -/
def reshapeData : Tree (NArr (List Nat)) := .dict [("b".toList, .leaf ⟨[2, 4], id⟩), ("a".toList, .list [.leaf ⟨[2, 2, 6], id⟩])]
/-- Their targets. -/
def reshapeTarget : Target := .dict [("a".toList, .list [.leaf (some [3, -1])]), ("b".toList, .leaf (some [2, 2]))]

example : sameStruct reshapeData.norm reshapeTarget.norm = true ∧
    outputShape (some reshapeTarget) (map (fun x => some x.shape.tail) reshapeData)
      = .ok (.dict [("a".toList, .list [.leaf (some [3, 4])]), ("b".toList, .leaf (some [2, 2]))]) := by decide +kernel

/-- **C59 (no target).** Without a target nothing changes, and the declared shape is the input shape. -/
theorem C59_identity (data : Tree (NArr V)) (s : Tree (Option (List Nat))) : callable Option.none data = .ok data ∧
    outputShape Option.none s = .ok (map (fun o => o.map fun s => s.map Int.ofNat) s) := ⟨rfl, rfl⟩

example : outputShape Option.none (.leaf (some [3, 2])) = .ok (.leaf (some [3, 2])) := by decide +kernel

/-- **C59 refuted for declared shapes of skipped leaves.** A leaf whose target is `None` keeps its shape in the call, but the declared shape has
`None` there whatever its shape is: a following module is compiled for no shape. -/
theorem C59_skipped_refuted (t out : Target) (s : Tree (Option (List Nat))) (hkt : KeysOk t) (hstr : sameStruct s.norm t.norm = true)
    (h : outputShape (some t) s = .ok out) (p : List ForwardSpec.Step) (sh : List Nat) (hs : At s p (some sh)) (htg : At t p Option.none) :
    At out p Option.none := by
  obtain ⟨-, ho⟩ := output_at hstr h
  obtain ⟨b, r, h1, h2, h3⟩ := ho p _ hs
  have := at_unique hkt h1 htg
  subst this
  cases h2
  exact h3

example : outputShape (some (.list [.leaf (some [2, 3]), .leaf Option.none])) (.list [.leaf (some [6]), .leaf (some [5])])
    = .ok (.list [.leaf (some [2, 3]), .leaf Option.none]) := by decide +kernel

/-- **C59 refuted for senseless targets and for wrapped inputs.** `compile` accepts dimensions such as (−2, −3) and declares them; and it accepts the
bare target `(2, 3)` for an input that is a tuple of one array. Both calls raise. -/
theorem C59_accepted_refuted :
    outputShape (some (.leaf (some [-2, -3]))) (.leaf (some [6])) = .ok (.leaf (some [-2, -3])) ∧
    (∀ x : NArr V, x.shape = [4, 6] → callable (some (.leaf (some [-2, -3]))) (.leaf x) = .error .typeError) ∧
    outputShape (some (.leaf (some [2, 3]))) (.tuple [.leaf (some [6])]) = .ok (.tuple [.leaf (some [2, 3])]) ∧
    ∀ x : NArr V, callable (some (.leaf (some [2, 3]))) (.tuple [.leaf x]) = .error .valueError := by
  refine ⟨by decide +kernel, fun x hx => ?_, by decide +kernel, fun x => rfl⟩
  obtain ⟨sh, v⟩ := x
  cases hx
  rfl

end Verif.Props
