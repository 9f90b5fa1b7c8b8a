import Verif.Lemmas.TreeGraft
import Verif.Model.MixedScaler
import Verif.Props.Scalers

/-! # Properties of the mixed scaler (C46) -/

namespace Verif.Props
open Verif.Tree Verif.Mixed Verif.ForwardSpec

variable {σ A : Type}

theorem batchOk_iff (ops : Ops σ A) (xs : List A) : batchOk ops xs = true ↔ ∃ n, ∀ x ∈ xs, ops.batch x = some n := by
  cases xs with
  | nil => exact ⟨fun _ => ⟨0, by simp⟩, fun _ => rfl⟩
  | cons x xs =>
    simp only [batchOk, Bool.and_eq_true, List.all_eq_true, decide_eq_true_eq]
    constructor
    · rintro ⟨h1, h2⟩
      obtain ⟨n, hn⟩ := Option.isSome_iff_exists.1 h1
      exact ⟨n, fun y hy => (List.mem_cons.1 hy).elim (fun e => e ▸ hn) fun hy => by rw [h2 y hy, hn]⟩
    · rintro ⟨n, h⟩
      refine ⟨by rw [h x List.mem_cons_self]; rfl, fun y hy => ?_⟩
      rw [h x List.mem_cons_self, h y (List.mem_cons_of_mem _ hy)]

theorem mem_jaxLeaves {X : Tree A} {a : A} : a ∈ jaxLeaves X ↔ ∃ p, At X p a := by
  have : a ∈ jaxLeaves X ↔ a ∈ flat X.norm := Iff.rfl
  rw [this, mem_flat_at]
  exact ⟨fun ⟨p, h⟩ => ⟨p, at_norm.1 h⟩, fun ⟨p, h⟩ => ⟨p, at_norm.2 h⟩⟩

theorem annotated_ok {ops : Ops σ A} {X Y : Tree A} {run : Except PyErr (Tree A)} (h : annotated ops X run = .ok Y) :
    run = .ok Y ∧ ∃ n, (∀ p a, At X p a → ops.batch a = some n) ∧ ∀ p a, At Y p a → ops.batch a = some n := by
  unfold annotated at h
  split at h
  · split at h
    · cases h
    · split at h
      · rename_i hb
        cases h
        obtain ⟨n, hn⟩ := (batchOk_iff _ _).1 hb
        exact ⟨rfl, n, fun p a ha => hn a (List.mem_append_left _ (mem_jaxLeaves.2 ⟨p, ha⟩)),
          fun p a ha => hn a (List.mem_append_right _ (mem_jaxLeaves.2 ⟨p, ha⟩))⟩
      · cases h
  · cases h

theorem annotated_run {ops : Ops σ A} {X Y : Tree A} {n : Nat} (h1 : ∀ p a, At X p a → ops.batch a = some n)
    (h2 : ∀ p a, At Y p a → ops.batch a = some n) : annotated ops X (.ok Y) = .ok Y := by
  have e1 : batchOk ops (jaxLeaves X) = true :=
    (batchOk_iff _ _).2 ⟨n, fun x hx => by obtain ⟨p, hp⟩ := mem_jaxLeaves.1 hx; exact h1 p x hp⟩
  have e2 : batchOk ops (jaxLeaves X ++ jaxLeaves Y) = true :=
    (batchOk_iff _ _).2 ⟨n, fun x hx => by
      rcases List.mem_append.1 hx with hx | hx
      · obtain ⟨p, hp⟩ := mem_jaxLeaves.1 hx; exact h1 p x hp
      · obtain ⟨p, hp⟩ := mem_jaxLeaves.1 hx; exact h2 p x hp⟩
  unfold annotated
  rw [if_pos e1]
  simp only [e2, if_true]

/-- The treatment of one place. -/
def part (f : Nat → Tree A → Except PyErr (Tree A)) (x : Option Nat × Tree A) : Except PyErr (Tree A) := match x.1 with
  | Option.none => .ok x.2
  | some r => f r x.2

theorem eachPart_eq (f : Nat → Tree A → Except PyErr (Tree A)) (S : Tree (Option Nat)) (X : Tree A) :
    eachPart f S X = match zipPre (Tree.norm S) X with
      | .error e => .error e
      | .ok r => mapM (part f) r := by
  unfold eachPart jaxMap zipAll
  rw [zipPre_map]
  cases h : zipPre (Tree.norm S) X with
  | error e => rfl
  | ok r =>
    simp only [Except.map, zipAll, map_map]
    rw [mapM_comp]
    refine mapM_congr _ _ _ fun x _ => ?_
    obtain ⟨o, x⟩ := x
    cases o <;> rfl

/-- **C46** Every part of the data is transformed with the scaler standing at its place, and parts without a scaler are unchanged; the
result consists of nothing else. For every tree of scalers, any kind of scaler, every tree of data. -/
theorem C46_transform (ops : Ops σ A) (h : Nat → σ) (S : Tree (Option Nat)) (X Y : Tree A)
    (ht : Mixed.transform ops h (some S) X = .ok Y) :
    (∀ p o, At S p o → ∃ x y, Sub X p x ∧ Sub Y p y ∧ (o = Option.none → y = x) ∧ ∀ r, o = some r → ops.transform (h r) x = .ok y) ∧
    ∀ q a, At Y q a → ∃ p o q', At S p o ∧ q = p ++ q' := by
  obtain ⟨hr, -⟩ := annotated_ok ht
  simp only [eachPart_eq] at hr
  split at hr
  · cases hr
  · rename_i r hz
    have hf := zipPre_fst _ _ hz
    constructor
    · intro p o ho
      have ho' : At (map Prod.fst r) p o := by rw [hf]; exact at_norm.2 ho
      obtain ⟨⟨o', x⟩, hx, rfl⟩ := at_map.1 ho'
      obtain ⟨w, hw, hs⟩ := mapM_at hr hx
      refine ⟨x, w, zipPre_at hz hx, hs, ?_, ?_⟩
      · rintro e; simp only at e; subst e; cases hw; rfl
      · rintro q e; simp only at e; subst e; exact hw
    · intro q a ha
      obtain ⟨p, c, q', w, h1, -, -, rfl⟩ := mapM_cover _ _ hr ha
      exact ⟨p, c.1, q', at_norm.1 (by rw [← hf]; exact at_map.2 ⟨c, h1, rfl⟩), rfl⟩

/-- **C46** If the inverse transform of every scaler in the tree undoes its transform (up to any relation `R` that keeps the batch
size and relates everything to itself), then so does the inverse transform of the mixed scaler: it succeeds, and every part is related to
the original part. -/
theorem C46_inverse (ops : Ops σ A) (h : Nat → σ) (S : Tree (Option Nat)) (hS : KeysOk S) (X Y : Tree A)
    (ht : Mixed.transform ops h (some S) X = .ok Y) (R : Tree A → Tree A → Prop) (hrefl : ∀ x, R x x)
    (hbatch : ∀ x x', R x x' → ∀ q b, At x' q b → ∃ q' a, At x q' a ∧ ops.batch b = ops.batch a)
    (hundo : ∀ p r x y, At S p (some r) → Sub X p x → ops.transform (h r) x = .ok y → ∃ x', ops.inverse (h r) y = .ok x' ∧ R x x') :
    ∃ X', Mixed.inverse ops h (some S) Y = .ok X' ∧
      (∀ p o, At S p o → ∃ x x', Sub X p x ∧ Sub X' p x' ∧ R x x' ∧ (o = Option.none → x' = x)) ∧
      ∀ q a, At X' q a → ∃ p o q', At S p o ∧ q = p ++ q' := by
  obtain ⟨hr, n, hn1, hn2⟩ := annotated_ok ht
  simp only [eachPart_eq] at hr
  split at hr
  · cases hr
  · rename_i r hz
    have hf := zipPre_fst _ _ hz
    have hk : KeysOk r := by
      rw [← keysOk_map Prod.fst, hf]; exact keysOk_norm' hS
    obtain ⟨z, hzz, hzf⟩ := graft _ r hk hr
    have hzr := zipPre_fst _ _ hzz
    have hcut : zipPre (Tree.norm S) Y = .ok (map (fun x : (Option Nat × Tree A) × Tree A => (x.1.1, x.2)) z) := by
      rw [← hf, zipPre_map, hzz]; rfl
    have hat : ∀ p x, At z p x → At S p x.1.1 ∧ Sub X p x.1.2 ∧ part (fun r x => ops.transform (h r) x) x.1 = .ok x.2 := by
      intro p x hx
      have hx1 : At r p x.1 := by rw [← hzr]; exact at_map.2 ⟨x, hx, rfl⟩
      exact ⟨at_norm.1 (by rw [← hf]; exact at_map.2 ⟨x.1, hx1, rfl⟩), zipPre_at hz hx1, hzf x (mem_flat_at.2 ⟨p, hx⟩)⟩
    have hone : ∀ p x, At z p x → ∃ x', part (fun r x => ops.inverse (h r) x) (x.1.1, x.2) = .ok x' ∧ R x.1.2 x' ∧
        (x.1.1 = Option.none → x' = x.1.2) := by
      intro p x hx
      obtain ⟨h1, h2, h3⟩ := hat p x hx
      obtain ⟨⟨o, x0⟩, y⟩ := x
      cases o with
      | none => cases h3; exact ⟨_, rfl, hrefl _, fun _ => rfl⟩
      | some k =>
        obtain ⟨x', e1, e2⟩ := hundo p k _ _ h1 h2 h3
        exact ⟨x', e1, e2, fun e => by cases e⟩
    have hrun : ∃ X', mapM (fun x : (Option Nat × Tree A) × Tree A => part (fun r x => ops.inverse (h r) x) (x.1.1, x.2)) z = .ok X' :=
      mapM_total _ z fun x hx => by
        obtain ⟨p, hp⟩ := mem_flat_at.1 hx
        obtain ⟨x', e, -⟩ := hone p x hp
        exact ⟨x', e⟩
    obtain ⟨X', hX'⟩ := hrun
    have hcov : ∀ q a, At X' q a → ∃ p x q' w, At z p x ∧ part (fun r x => ops.inverse (h r) x) (x.1.1, x.2) = .ok w ∧ At w q' a ∧
        q = p ++ q' := fun q a ha => mapM_cover _ _ hX' ha
    refine ⟨X', ?_, fun p o ho => ?_, fun q a ha => ?_⟩
    · have e : eachPart (fun r x => ops.inverse (h r) x) S Y = .ok X' := by
        rw [eachPart_eq, hcut]
        simp only [mapM_comp]
        exact hX'
      unfold Mixed.inverse
      simp only [e]
      refine annotated_run hn2 fun q a ha => ?_
      obtain ⟨p, x, q', w, h1, h2, h3, -⟩ := hcov q a ha
      obtain ⟨x', e1, e2, -⟩ := hone p x h1
      rw [h2] at e1
      cases e1
      obtain ⟨q'', b, hb, eb⟩ := hbatch _ _ e2 _ _ h3
      rw [eb]
      exact hn1 _ _ (sub_at (hat p x h1).2.1 hb)
    · have ho' : At (map Prod.fst (map Prod.fst z)) p o := by rw [hzr, hf]; exact at_norm.2 ho
      rw [map_map] at ho'
      obtain ⟨x, hx, rfl⟩ := at_map.1 ho'
      obtain ⟨x', e1, e2, e3⟩ := hone p x hx
      obtain ⟨w, hw, hs⟩ := mapM_at hX' hx
      simp only [e1, Except.ok.injEq] at hw
      subst hw
      exact ⟨x.1.2, x', (hat p x hx).2.1, hs, e2, e3⟩
    · obtain ⟨p, x, q', w, h1, -, -, rfl⟩ := hcov q a ha
      exact ⟨p, x.1.1, q', (hat p x h1).1, rfl⟩

/-- **C46** A mixed scaler without scalers leaves all data alone, both ways. -/
theorem C46_none (ops : Ops σ A) (h : Nat → σ) (X : Tree A) (n : Nat) (hn : ∀ p a, At X p a → ops.batch a = some n) :
    Mixed.transform ops h Option.none X = .ok X ∧ Mixed.inverse ops h Option.none X = .ok X ∧
      Mixed.fit ops h Option.none X = .ok (h, Option.none) := by
  refine ⟨annotated_run hn hn, annotated_run hn hn, ?_⟩
  unfold Mixed.fit
  rw [if_pos]
  exact (batchOk_iff _ _).2 ⟨n, fun x hx => by obtain ⟨p, hp⟩ := mem_jaxLeaves.1 hx; exact hn p x hp⟩

theorem fitAll_other {ops : Ops σ A} {r : Nat} : ∀ {l : List (Option Nat × Tree A)} {h h' : Nat → σ}, fitAll ops l h = .ok h' →
    (∀ y ∈ l, y.1 ≠ some r) → h' r = h r
  | [], h, h', he, _ => by cases he; rfl
  | (Option.none, x) :: l, h, h', he, hn => fitAll_other (l := l) he fun y hy => hn y (List.mem_cons_of_mem _ hy)
  | (some k, x) :: l, h, h', he, hn => by
    unfold fitAll at he
    split at he
    · cases he
    · rw [fitAll_other (l := l) he fun y hy => hn y (List.mem_cons_of_mem _ hy)]
      have : r ≠ k := fun e => hn (some k, x) List.mem_cons_self (by rw [e])
      rw [if_neg this]

theorem fitAll_mem {ops : Ops σ A} {r : Nat} {x : Tree A} : ∀ {l1 l2 : List (Option Nat × Tree A)} {h h' : Nat → σ},
    fitAll ops (l1 ++ (some r, x) :: l2) h = .ok h' → (∀ y ∈ l1, y.1 ≠ some r) → (∀ y ∈ l2, y.1 ≠ some r) → ops.fit (h r) x = .ok (h' r)
  | [], l2, h, h', he, _, hn => by
    rw [List.nil_append] at he
    unfold fitAll at he
    split at he
    · cases he
    · rename_i s hs
      have := fitAll_other he hn
      rw [if_pos rfl] at this
      rw [hs, this]
  | (Option.none, y) :: l1, l2, h, h', he, hn1, hn2 =>
    fitAll_mem (l1 := l1) he (fun y hy => hn1 y (List.mem_cons_of_mem _ hy)) hn2
  | (some k, y) :: l1, l2, h, h', he, hn1, hn2 => by
    rw [List.cons_append] at he
    unfold fitAll at he
    split at he
    · cases he
    · have := fitAll_mem (l1 := l1) he (fun y hy => hn1 y (List.mem_cons_of_mem _ hy)) hn2
      have hk : r ≠ k := fun e => hn1 (some k, y) List.mem_cons_self (by rw [e])
      rwa [if_neg hk] at this

/-- **C46** Fitting: a scaler that stands at one place only is fitted to the part of the data at its place; scalers outside the tree are
not touched; the tree keeps its structure. -/
theorem C46_fit (ops : Ops σ A) (h h' : Nat → σ) (S : Tree (Option Nat)) (S' : Scalers) (hS : KeysOk S) (X : Tree A)
    (ht : Mixed.fit ops h (some S) X = .ok (h', S')) :
    S' = some S.norm ∧
    (∀ p r, At S p (some r) → (∀ p', At S p' (some r) → p' = p) → ∃ x, Sub X p x ∧ ops.fit (h r) x = .ok (h' r)) ∧
    ∀ r, (∀ p, ¬ At S p (some r)) → h' r = h r := by
  unfold Mixed.fit at ht
  split at ht
  case isFalse => cases ht
  simp only at ht
  split at ht
  · cases ht
  · rename_i z hz
    split at ht
    · cases ht
    · rename_i g hg
      cases ht
      have hf := zipPre_fst _ _ hz
      have hat : ∀ p x, At z p x → At S p x.1 ∧ Sub X p x.2 := fun p x hx =>
        ⟨at_norm.1 (by rw [← hf]; exact at_map.2 ⟨x, hx, rfl⟩), zipPre_at hz hx⟩
      refine ⟨rfl, fun p r hp huniq => ?_, fun r hr => fitAll_other hg fun y hy e => ?_⟩
      · have hp' : At (map Prod.fst z) p (some r) := by rw [hf]; exact at_norm.2 hp
        obtain ⟨⟨o, x⟩, hx, ho⟩ := at_map.1 hp'
        simp only at ho
        subst ho
        refine ⟨x, (hat p _ hx).2, ?_⟩
        have hmem := (mem_entries z p (some r, x)).2 hx
        obtain ⟨e1, e2, he⟩ := List.append_of_mem hmem
        have hsorted := entries_sorted z (by rw [← sorted_map Prod.fst, hf]; exact sorted_norm S hS)
        have hall : ∀ q y, (q, y) ∈ entries z → y.1 = some r → q = p := fun q y hy e => by
          have := (hat q y ((mem_entries _ _ _).1 hy)).1
          rw [e] at this
          exact huniq q this
        rw [← entries_snd, he, List.map_append, List.map_cons] at hg
        rw [he, List.pairwise_append] at hsorted
        obtain ⟨-, hs2, hs3⟩ := hsorted
        refine fitAll_mem hg (fun y hy e => ?_) (fun y hy e => ?_)
        · obtain ⟨⟨q, y⟩, hq, rfl⟩ := List.mem_map.1 hy
          have := hall q y (by rw [he]; exact List.mem_append_left _ hq) e
          subst this
          have := hs3 _ hq _ List.mem_cons_self
          exact Forward.precedes_asymm this this
        · obtain ⟨⟨q, y⟩, hq, rfl⟩ := List.mem_map.1 hy
          have := hall q y (by rw [he]; exact List.mem_append_right _ (List.mem_cons_of_mem _ hq)) e
          subst this
          have := (List.pairwise_cons.1 hs2).1 _ hq
          exact Forward.precedes_asymm this this
      · obtain ⟨q, hq⟩ := mem_flat_at.1 hy
        have := (hat q y hq).1
        rw [e] at this
        exact hr q this

/-- **C46** If the same scaler object stands at two places, it is fitted to the first part and then again to the second: both parts are
then transformed with the statistics of the second part. -/
theorem C46_shared_refuted (ops : Ops σ A) (h : Nat → σ) (x1 x2 : A) (n : Nat) (h1 : ops.batch x1 = some n) (h2 : ops.batch x2 = some n)
    (s1 s2 : σ) (f1 : ops.fit (h 0) (.leaf x1) = .ok s1) (f2 : ops.fit s1 (.leaf x2) = .ok s2) :
    ∃ h', Mixed.fit ops h (some (.list [.leaf (some 0), .leaf (some 0)])) (.list [.leaf x1, .leaf x2]) =
      .ok (h', some (.list [.leaf (some 0), .leaf (some 0)])) ∧ h' 0 = s2 := by
  refine ⟨fun q => if q = 0 then s2 else if q = 0 then s1 else h q, ?_, rfl⟩
  unfold Mixed.fit
  rw [if_pos ((batchOk_iff _ _).2 ⟨n, fun x hx => by
    obtain ⟨p, hp⟩ := mem_jaxLeaves.1 hx
    cases hp with
    | list hi hp =>
      rename_i i t q
      match i, hi with
      | 0, hi => cases hi; cases hp; exact h1
      | 1, hi => cases hi; cases hp; exact h2⟩)]
  simp only [Tree.norm, normL, zipPre, zipPreL, flat, flatL, List.append_nil, List.nil_append, List.cons_append, fitAll, f1, if_true, f2]

/-! ### Standard scalers in a mixed scaler -/

open Verif.Scalers in
/-- The methods of the standard scaler. -/
noncomputable def stdOps : Ops Std RArr :=
  ⟨fun x => x.shape.head?, fun _ X => Std.fit X, fun s X => s.transform X, fun s X => s.inverse X⟩

open Verif.Scalers in
/-- The hypotheses of `C46_inverse` are met by a list of two arrays, the first with a fitted standard scaler and the second without, with
`R` saying that structure and shapes agree. -/
example : ∃ (s : Std) (Y : Tree RArr), Mixed.transform stdOps (fun _ => s) (some (.list [.leaf (some 0), .leaf Option.none]))
      (.list [.leaf exArr, .leaf exArr]) = .ok Y ∧
    ∀ y, s.transform (.leaf exArr) = .ok y → ∃ x', s.inverse y = .ok x' ∧ ∀ q b, At x' q b → ∃ a, At (.leaf exArr) q a ∧ b.shape = a.shape := by
  have hd := exArr_ok
  have hfit : ∃ s, Std.fit (.leaf exArr) = .ok s := by unfold Std.fit; rw [if_pos hd]; exact ⟨_, rfl⟩
  obtain ⟨s, hfit⟩ := hfit
  obtain ⟨Y, hY⟩ := C43_defined (.leaf exArr) (.leaf exArr) trivial trivial s hfit hd rfl (fun p x x0 h h' => by cases h; cases h'; rfl)
  obtain ⟨X', h1, h2, h3⟩ := C43_inverse (.leaf exArr) (.leaf exArr) Y trivial trivial s hfit hY
  obtain ⟨z, hz, hsz, -⟩ := h3 [] exArr exArr (.leaf _) (.leaf _) rfl
  have hy : ∃ y, Y = .leaf y ∧ y.shape = exArr.shape := by
    obtain ⟨y, -, hy, hf, -⟩ := C43_standardised (.leaf exArr) Y trivial s hfit hY [] exArr (.leaf _) 2 [0] _ exArr_feature
      ⟨0, 1, by omega, by omega, by norm_num⟩
    cases hy
    refine ⟨y, rfl, ?_⟩
    obtain ⟨hdd, m, sc, -, -, hj⟩ := std_transform hY
    obtain ⟨hsh, -⟩ := back std_rel (X := .leaf exArr) trivial hj
    obtain ⟨x, hx, e⟩ := hsh [] y (.leaf _)
    cases hx
    exact e
  obtain ⟨y, rfl, hys⟩ := hy
  refine ⟨s, .list [.leaf y, .leaf exArr], ?_, fun y' hy' => ⟨X', ?_, fun q b hb => ?_⟩⟩
  · have e : eachPart (fun r x => stdOps.transform ((fun _ => s) r) x) (.list [.leaf (some 0), .leaf Option.none])
        (.list [.leaf exArr, .leaf exArr]) = .ok (.list [.leaf y, .leaf exArr]) := by
      simp only [eachPart_eq, Tree.norm, normL, zipPre, zipPreL, mapM, mapML, part, stdOps, hY]
    unfold Mixed.transform
    simp only [e]
    refine annotated_run (n := 2) (fun p a ha => ?_) fun p a ha => ?_
    · cases ha with
      | list hi hp =>
        rename_i i t q
        match i, hi with
        | 0, hi => cases hi; cases hp; rfl
        | 1, hi => cases hi; cases hp; rfl
    · cases ha with
      | list hi hp =>
        rename_i i t q
        match i, hi with
        | 0, hi => cases hi; cases hp; simp only [stdOps, hys]; rfl
        | 1, hi => cases hi; cases hp; rfl
  · rw [hY] at hy'; cases hy'; exact h1
  · cases X' with
    | leaf z' => cases hz; cases hb; exact ⟨exArr, .leaf _, hsz⟩
    | _ => simp [map, Tree.norm] at h2

end Verif.Props
