import Verif.Spec.LoadedTrain
import Verif.Lemmas.Loaded
import Verif.Props.Loaded

/-! # Lemmas about training loaded models -/

namespace Verif
namespace Loaded
open Tree Ser ModelSer ModelSpec Forward Props LoadedSpec
open Nested (ValAt)
open ForwardSpec (KeysOk)

variable {σ D A P S K X : Type}

/-- `c` does not change what the methods see of the objects with `G`. -/
structure Faithful (ops : Ops σ D) (tr : σ → Bool) (c : σ → σ) (G : σ → Prop) : Prop where
  idem : ∀ m, G m → c (c m) = c m
  good : ∀ m, G m → G (c m)
  ready : ∀ m, G m → ops.ready (c m) = ops.ready m
  params : ∀ m, G m → ops.getParams (c m) = ops.getParams m
  state : ∀ m, G m → ops.getState (c m) = ops.getState m
  trains : ∀ m, G m → tr (c m) = tr m
  setP : ∀ m p, G m → (ops.setParams (c m) p).map c = (ops.setParams m p).map c
  setS : ∀ m p, G m → (ops.setState (c m) p).map c = (ops.setState m p).map c
  keepP : ∀ m p m', G m → ops.setParams m p = .ok m' → G m'
  keepS : ∀ m p m', G m → ops.setState m p = .ok m' → G m'

theorem map_after {α β γ : Type} (f : α → Except PyErr (Tree β)) (c : β → γ) : ∀ t : Tree α, (mapM f t).map (map c) = mapM (fun a => (f a).map (map c)) t := by
  apply Tree.rec (motive_1 := fun t => (mapM f t).map (map c) = mapM (fun a => (f a).map (map c)) t) (motive_2 := fun ts => (mapML f ts).map (mapL c) = mapML (fun a => (f a).map (map c)) ts)
    (motive_3 := fun ts => (mapMD f ts).map (mapD c) = mapMD (fun a => (f a).map (map c)) ts) (motive_4 := fun kv => (mapM f kv.2).map (map c) = mapM (fun a => (f a).map (map c)) kv.2)
  · intro a; rfl
  · rfl
  · intro ts h; simp only [mapM, ← h]; cases mapML f ts <;> rfl
  · intro ts h; simp only [mapM, ← h]; cases mapML f ts <;> rfl
  · intro ts h; simp only [mapM, ← h]; cases mapMD f ts <;> rfl
  · rfl
  · intro t ts h1 h2; simp only [mapML, ← h1, ← h2]; cases mapM f t <;> cases mapML f ts <;> rfl
  · rfl
  · rintro ⟨k, t⟩ ts h1 h2
    simp only at h1
    simp only [mapMD, ← h1, ← h2]; cases mapM f t <;> cases mapMD f ts <;> rfl
  · intro k t h; exact h

theorem jaxMap_after {α β γ δ : Type} (F : α → List (Tree β) → Except PyErr (Tree γ)) (c : γ → δ) (t : Tree α) (us : List (Tree β)) :
    (jaxMap F t us).map (map c) = jaxMap (fun a vs => (F a vs).map (map c)) t us := by
  unfold jaxMap
  cases zipAll us (map (fun a => (a, ([] : List (Tree β)))) t.norm) with
  | error e => rfl
  | ok r => exact map_after _ c r

theorem onModule_leaf {f : σ → PyVal → Except PyErr σ} (a : σ) (vs : List PyVal) (w : Tree σ) (h : onModule f a vs = .ok w) : ∃ x p, w = .leaf x ∧ vs = [p] ∧ f a p = .ok x := by
  unfold onModule at h
  split at h
  · next p =>
    split at h
    · cases h
    · next m' hm => cases h; exact ⟨m', p, rfl, rfl, hm⟩
  · cases h

/-- Setting the parameters of all modules: the result has the modules set one by one. -/
theorem setAll_keep {f : σ → PyVal → Except PyErr σ} {G : σ → Prop} (hf : ∀ m p m', G m → f m p = .ok m' → G m') {t t' : Tree σ} (hk : KeysOk t) (hg : ∀ m ∈ t.flat, G m) {p : PyVal}
    (h : jaxMap (onModule f) t [p] = .ok t') : KeysOk t' ∧ t'.norm = t' ∧ (∀ m ∈ t'.flat, G m) ∧ map (fun _ => ()) t' = map (fun _ => ()) t.norm := by
  obtain ⟨z, h1, h2, h3, h4⟩ := jaxMap_graph (fun a vs w h => let ⟨x, _, e, _⟩ := onModule_leaf a vs w h; ⟨x, e⟩) h
  have hs := jaxMap_struct (fun a vs w h => let ⟨x, _, e, _⟩ := onModule_leaf a vs w h; ⟨x, e⟩) h
  have hz : Tree.norm z = z := by
    have hs := sorted_norm t hk
    rw [← h2] at hs
    exact norm_of_sorted _ ((sorted_map _ z).1 hs)
  refine ⟨?_, by rw [← h3, Tree.norm_map, hz], fun m hm => ?_, hs⟩
  · have hk' : KeysOk (map (fun x => x.1.1) z) := by rw [h2]; exact keysOk_norm' hk
    rw [← h3]
    exact (keysOk_map _ _).2 ((keysOk_map _ _).1 hk')
  · rw [← h3, Props.flat_map] at hm
    obtain ⟨x, hx, rfl⟩ := List.mem_map.1 hm
    obtain ⟨y, q, e1, -, e2⟩ := onModule_leaf _ _ _ (h4 x hx)
    cases e1
    refine hf x.1.1 q x.2 (hg _ (mem_flat_norm.1 ?_)) e2
    rw [← h2, Props.flat_map]
    exact List.mem_map_of_mem hx

theorem setAll_view {f : σ → PyVal → Except PyErr σ} {c : σ → σ} {G : σ → Prop} (hf : ∀ m p, G m → (f (c m) p).map c = (f m p).map c) {t : Tree σ} (hk : KeysOk t) (hg : ∀ m ∈ t.flat, G m) (p : PyVal) :
    (jaxMap (onModule f) (map c t.norm) [p]).map (map c) = (jaxMap (onModule f) t [p]).map (map c) := by
  rw [jaxMap_after, jaxMap_after, jaxMap_map, ← jaxMap_normal hk]
  refine jaxMap_congr (fun a ha vs => ?_) _
  have h := fun q => hf a q (hg a (mem_flat_norm.1 ha))
  unfold onModule
  split
  · next q =>
    have := h q
    cases h1 : f (c a) q with
    | error e =>
      rw [h1] at this
      cases h2 : f a q with
      | error e' => rw [h2] at this; simp only [Except.map, Except.error.injEq] at this ⊢; exact this
      | ok x => rw [h2] at this; cases this
    | ok x =>
      rw [h1] at this
      cases h2 : f a q with
      | error e' => rw [h2] at this; cases this
      | ok y => rw [h2] at this; simp only [Except.map, Except.ok.injEq, map] at this ⊢; rw [this]
  · rfl

theorem typedKey_idem (k : Key) : typedKey (typedKey k) = typedKey k := by cases k <;> rfl

theorem truthy_norm (t : Tree (OptState.St A)) : OptState.truthy (some t.norm) = OptState.truthy (some t) := by
  cases t with
  | leaf a => rfl
  | none => rfl
  | list ts => simp [Tree.norm, OptState.truthy, normL_eq]
  | tuple ts => simp [Tree.norm, OptState.truthy, normL_eq]
  | dict kvs =>
    have h := (sortKvs_perm (normD kvs)).length_eq
    rw [normD_eq, List.length_map] at h
    show (!(sortKvs (normD kvs)).isEmpty) = !kvs.isEmpty
    rw [normD_eq]
    cases hs : sortKvs (kvs.map fun p => (p.1, Tree.norm p.2)) <;> cases kvs <;> simp_all

theorem opt_idem (o : Option (Tree (OptState.St A))) :
    (if OptState.truthy (if OptState.truthy o then o.map Tree.norm else Option.none) then (if OptState.truthy o then o.map Tree.norm else Option.none).map Tree.norm else Option.none) =
      if OptState.truthy o then o.map Tree.norm else Option.none := by
  cases o with
  | none => rfl
  | some t =>
    cases h : OptState.truthy (some t) with
    | false => rfl
    | true => simp [truthy_norm, h, norm_idem]

theorem ready_view {ops : Ops σ D} {c : σ → σ} {M : Mdl σ A} (hk : KeysOk M.modules) (hm : ∀ m ∈ M.modules.flat, ops.ready (c m) = ops.ready m) :
    ModelSer.ready ops (restored c M) = ModelSer.ready ops M := by
  have hl : jaxLeaves (map c M.modules.norm) = (jaxLeaves M.modules).map c := by
    rw [Matmul.jaxLeaves_map]
    unfold jaxLeaves
    rw [norm_norm hk]
  have hlm : ∀ m ∈ jaxLeaves M.modules, ops.ready (c m) = ops.ready m := fun m h => hm m (mem_flat_norm.1 h)
  unfold ModelSer.ready restored
  simp only [hl]
  cases M.kind with
  | seq =>
    simp only [List.isEmpty_map, List.all_map]
    congr 3
    rw [Bool.eq_iff_iff, List.all_eq_true, List.all_eq_true]
    refine forall₂_congr fun m h => ?_
    rw [Function.comp_apply, hlm m h]
  | nonseq o k s =>
    cases o with
    | none => rfl
    | some l =>
      simp only
      congr 3
      funext p
      unfold pathReady
      split
      · rfl
      · rw [get_map, get_norm hk]
        cases hg : Tree.get M.modules (splitOn s p) with
        | error e => rfl
        | ok t =>
          cases t with
          | leaf m =>
            simp only [Except.map, Tree.norm, map]
            exact hm m (get_leaf_mem hg (by simp [flat]))
          | _ => rfl

theorem norm_view {c : σ → σ} {M : Mdl σ A} (hk : KeysOk M.modules) : (restored c M).modules.norm = map c M.modules.norm := by
  show (map c M.modules.norm).norm = _
  rw [Tree.norm_map, norm_norm hk]

theorem getState_view {ops : Ops σ D} {c : σ → σ} {M : Mdl σ A} (hk : KeysOk M.modules) (hr : ∀ m ∈ M.modules.flat, ops.ready (c m) = ops.ready m) (hs : ∀ m ∈ M.modules.flat, ops.getState (c m) = ops.getState m) :
    ModelSer.getState ops (restored c M) = ModelSer.getState ops M := by
  unfold ModelSer.getState
  rw [ready_view hk hr, norm_view hk]
  show (match M.kind with | .seq => _ | .nonseq _ _ _ => _) = _
  cases M.kind with
  | seq =>
    simp only [mapM_after]
    exact mapM_congr _ _ _ fun m h => hs m (mem_flat_norm.1 h)
  | nonseq o k s =>
    simp only [mapM_after]
    split
    · refine mapM_congr _ _ _ fun m h => ?_
      unfold stateOrNone
      rw [hs m (mem_flat_norm.1 h), hr m (mem_flat_norm.1 h)]
    · rfl

theorem getParams_view {ops : Ops σ D} {c : σ → σ} {M : Mdl σ A} (hk : KeysOk M.modules) (hp : ∀ m ∈ M.modules.flat, ops.getParams (c m) = ops.getParams m) :
    ModelSer.getParams ops (restored c M) = ModelSer.getParams ops M := by
  unfold ModelSer.getParams
  rw [norm_view hk, Tree.bind_map]
  exact bind_congr fun m h => hp m (mem_flat_norm.1 h)

theorem restored_idem {c : σ → σ} {M : Mdl σ A} (hk : KeysOk M.modules) (hc : ∀ m ∈ M.modules.flat, c (c m) = c m) : restored c (restored c M) = restored c M := by
  have h1 : map c (restored c M).modules.norm = map c M.modules.norm := by
    rw [norm_view hk, map_map]
    exact map_congr fun m h => hc m (mem_flat_norm.1 h)
  show Mdl.mk M.kind (map c (restored c M).modules.norm) (typedKey (typedKey M.rng)) M.name M.inShape M.outShape _ = Mdl.mk _ _ _ _ _ _ _
  rw [h1, typedKey_idem]
  congr 1
  exact opt_idem M.opt

/-- Two models that differ only in their modules. -/
theorem restored_modules {c : σ → σ} {M : Mdl σ A} {t t' : Tree σ} (h : map c t.norm = map c t'.norm) : restored c { M with modules := t } = restored c { restored c M with modules := t' } := by
  show Mdl.mk _ _ _ _ _ _ _ = Mdl.mk M.kind (map c t'.norm) (typedKey (typedKey M.rng)) M.name M.inShape M.outShape _
  rw [← h, typedKey_idem]
  congr 1
  exact (opt_idem M.opt).symm

theorem Except.map_eq {α β : Type} {f : α → β} {x y : Except PyErr α} (h : x.map f = y.map f) : (∃ e, x = .error e ∧ y = .error e) ∨ ∃ a b, x = .ok a ∧ y = .ok b ∧ f a = f b := by
  cases x with
  | error e => cases y with
    | error e' => cases h; exact Or.inl ⟨e, rfl, rfl⟩
    | ok b => cases h
  | ok a => cases y with
    | error e' => cases h
    | ok b => exact Or.inr ⟨a, b, rfl, rfl, Except.ok.inj h⟩

theorem set_view {f : σ → PyVal → Except PyErr σ} {c : σ → σ} {G : σ → Prop} (hf : ∀ m p, G m → (f (c m) p).map c = (f m p).map c) (hkeep : ∀ m p m', G m → f m p = .ok m' → G m')
    (hgood : ∀ m, G m → G (c m)) {M : Mdl σ A} (hk : KeysOk M.modules) (hg : ∀ m ∈ M.modules.flat, G m) (p : PyVal) :
    (∃ e, jaxMap (onModule f) (restored c M).modules [p] = .error e ∧ jaxMap (onModule f) M.modules [p] = .error e) ∨
    ∃ t t', jaxMap (onModule f) (restored c M).modules [p] = .ok t ∧ jaxMap (onModule f) M.modules [p] = .ok t' ∧ restored c { restored c M with modules := t } = restored c { M with modules := t' } := by
  rcases Except.map_eq (setAll_view hf hk hg p) with h | ⟨t, t', h1, h2, h3⟩
  · exact Or.inl h
  · refine Or.inr ⟨t, t', h1, h2, (restored_modules ?_).symm⟩
    obtain ⟨-, n2, -⟩ := setAll_keep hkeep hk hg h2
    obtain ⟨-, n1, -⟩ := setAll_keep hkeep (G := G) ((keysOk_map _ _).2 (keysOk_norm' hk)) (fun m hm => by
      obtain ⟨a, ha, rfl⟩ := flat_map_mem hm
      exact hgood a (hg a (mem_flat_norm.1 ha))) h1
    rw [n1, n2, h3]

theorem faithful_model (ops : Ops σ D) (w r : Str) {tr : σ → Bool} {c : σ → σ} {G : σ → Prop} (h : Faithful ops tr c G) :
    Faithful (modelOps ops w r) (fun M : Mdl σ A => (jaxLeaves M.modules).any tr) (restored c) (fun M => KeysOk M.modules ∧ ∀ m ∈ M.modules.flat, G m) where
  idem M hM := restored_idem hM.1 fun m hm => h.idem m (hM.2 m hm)
  good M hM := ⟨(keysOk_map _ _).2 (keysOk_norm' hM.1), fun m hm => by
    obtain ⟨a, ha, rfl⟩ := flat_map_mem hm
    exact h.good a (hM.2 a (mem_flat_norm.1 ha))⟩
  ready M hM := ready_view hM.1 fun m hm => h.ready m (hM.2 m hm)
  params M hM := getParams_view hM.1 fun m hm => h.params m (hM.2 m hm)
  state M hM := getState_view hM.1 (fun m hm => h.ready m (hM.2 m hm)) fun m hm => h.state m (hM.2 m hm)
  trains M hM := by
    have hl : jaxLeaves (restored c M).modules = (jaxLeaves M.modules).map c := by
      show jaxLeaves (map c M.modules.norm) = _
      rw [Matmul.jaxLeaves_map]
      unfold jaxLeaves
      rw [norm_norm hM.1]
    show (jaxLeaves (restored c M).modules).any tr = _
    rw [hl, List.any_map, Bool.eq_iff_iff, List.any_eq_true, List.any_eq_true]
    refine exists_congr fun m => and_congr_right fun hm => ?_
    rw [Function.comp_apply, h.trains m (hM.2 m (mem_flat_norm.1 hm))]
  setP M p hM := by
    show (ModelSer.setParams ops (restored c M) p).map _ = (ModelSer.setParams ops M p).map _
    unfold ModelSer.setParams
    rcases set_view h.setP h.keepP h.good hM.1 hM.2 p with ⟨e, h1, h2⟩ | ⟨t, t', h1, h2, h3⟩
    · rw [h1, h2]
    · rw [h1, h2]; exact congrArg Except.ok h3
  setS M p hM := by
    show (ModelSer.setState ops (restored c M) p).map _ = (ModelSer.setState ops M p).map _
    have key : ∀ q, q ≠ .none → (ModelSer.setState ops (restored c M) q).map (restored c) = (ModelSer.setState ops M q).map (restored c) := by
      intro q hq
      rcases set_view h.setS h.keepS h.good hM.1 hM.2 q with ⟨e, h1, h2⟩ | ⟨t, t', h1, h2, h3⟩
      · unfold ModelSer.setState
        cases q <;> first | exact absurd rfl hq | simp only [h1, h2]
      · unfold ModelSer.setState
        cases q <;> first | exact absurd rfl hq | (simp only [h1, h2]; exact congrArg Except.ok h3)
    by_cases hq : p = .none
    · subst hq
      exact congrArg Except.ok (restored_idem hM.1 fun m hm => h.idem m (hM.2 m hm))
    · exact key p hq
  keepP M p M' hM hp := by
    replace hp : ModelSer.setParams ops M p = .ok M' := hp
    unfold ModelSer.setParams at hp
    split at hp
    · cases hp
    · next t ht =>
      cases hp
      obtain ⟨k, -, g, -⟩ := setAll_keep h.keepP hM.1 hM.2 ht
      exact ⟨k, g⟩
  keepS M p M' hM hp := by
    replace hp : ModelSer.setState ops M p = .ok M' := hp
    unfold ModelSer.setState at hp
    split at hp
    · cases hp; exact hM
    · split at hp
      · cases hp
      · next t ht =>
        cases hp
        obtain ⟨k, -, g, -⟩ := setAll_keep h.keepS hM.1 hM.2 ht
        exact ⟨k, g⟩

theorem faithful_at (ops : Ops σ D) (tr : σ → Bool) (w r : Str) : ∀ n, Faithful (opsAt ops w r n : Ops (Obj σ A n) (Dat D A n)) (trainableAt tr n) (restoredAt id n) (KeysAt n)
  | 0 => ⟨fun _ _ => rfl, fun _ _ => trivial, fun _ _ => rfl, fun _ _ => rfl, fun _ _ => rfl, fun _ _ => rfl, fun _ _ _ => rfl, fun _ _ _ => rfl, fun _ _ _ _ _ => trivial, fun _ _ _ _ _ => trivial⟩
  | n + 1 => by
    have h := faithful_model (A := A) (opsAt ops w r n) w r (faithful_at ops tr w r n)
    refine ⟨?_, ?_, ?_, ?_, ?_, ?_, ?_, ?_, ?_, ?_⟩
    · rintro (m | M) hm
      · rfl
      · exact congrArg Sum.inr (h.idem M hm)
    · rintro (m | M) hm
      · trivial
      · exact h.good M hm
    · rintro (m | M) hm
      · rfl
      · exact h.ready M hm
    · rintro (m | M) hm
      · rfl
      · exact h.params M hm
    · rintro (m | M) hm
      · rfl
      · exact h.state M hm
    · rintro (m | M) hm
      · rfl
      · exact h.trains M hm
    · rintro (m | M) p hm
      · rfl
      · show ((ModelSer.setParams (opsAt ops w r n) (restored (restoredAt id n) M) p).map Sum.inr).map (Sum.map id (restored (restoredAt id n))) = ((ModelSer.setParams (opsAt ops w r n) M p).map Sum.inr).map (Sum.map id (restored (restoredAt id n)))
        have h1 := h.setP M p hm
        rcases Except.map_eq h1 with ⟨e, h2, h3⟩ | ⟨a, b, h2, h3, h4⟩
        · rw [show ModelSer.setParams (opsAt ops w r n) (restored (restoredAt id n) M) p = _ from h2, show ModelSer.setParams (opsAt ops w r n) M p = _ from h3]
        · rw [show ModelSer.setParams (opsAt ops w r n) (restored (restoredAt id n) M) p = _ from h2, show ModelSer.setParams (opsAt ops w r n) M p = _ from h3]
          exact congrArg (fun x => Except.ok (Sum.inr x)) h4
    · rintro (m | M) p hm
      · rfl
      · show ((ModelSer.setState (opsAt ops w r n) (restored (restoredAt id n) M) p).map Sum.inr).map (Sum.map id (restored (restoredAt id n))) = ((ModelSer.setState (opsAt ops w r n) M p).map Sum.inr).map (Sum.map id (restored (restoredAt id n)))
        have h1 := h.setS M p hm
        rcases Except.map_eq h1 with ⟨e, h2, h3⟩ | ⟨a, b, h2, h3, h4⟩
        · rw [show ModelSer.setState (opsAt ops w r n) (restored (restoredAt id n) M) p = _ from h2, show ModelSer.setState (opsAt ops w r n) M p = _ from h3]
        · rw [show ModelSer.setState (opsAt ops w r n) (restored (restoredAt id n) M) p = _ from h2, show ModelSer.setState (opsAt ops w r n) M p = _ from h3]
          exact congrArg (fun x => Except.ok (Sum.inr x)) h4
    · rintro (m | M) p m' hm hp
      · replace hp : (ops.setParams m p).map Sum.inl = .ok m' := hp
        cases hq : ops.setParams m p with
        | error e => rw [hq] at hp; cases hp
        | ok x => rw [hq] at hp; cases hp; trivial
      · replace hp : (ModelSer.setParams (opsAt ops w r n) M p).map Sum.inr = .ok m' := hp
        cases hq : ModelSer.setParams (opsAt ops w r n) M p with
        | error e => rw [hq] at hp; cases hp
        | ok x => rw [hq] at hp; cases hp; exact h.keepP M p x hm hq
    · rintro (m | M) p m' hm hp
      · replace hp : (ops.setState m p).map Sum.inl = .ok m' := hp
        cases hq : ops.setState m p with
        | error e => rw [hq] at hp; cases hp
        | ok x => rw [hq] at hp; cases hp; trivial
      · replace hp : (ModelSer.setState (opsAt ops w r n) M p).map Sum.inr = .ok m' := hp
        cases hq : ModelSer.setState (opsAt ops w r n) M p with
        | error e => rw [hq] at hp; cases hp
        | ok x => rw [hq] at hp; cases hp; exact h.keepS M p x hm hq

theorem call_keys (fresh : Str → Nat → Nat → Str) (sig : Sig σ P S K X) (n : Nat) (x : Obj σ A n) (hx : KeysAt n x) :
    (callAt fresh sig n).call (restoredAt id n x) = (callAt fresh sig n : Sig (Obj σ A n) _ _ _ _).call x := by
  induction n with
  | zero => rfl
  | succ n ih =>
    cases x with
    | inl m => rfl
    | inr M =>
      have h := modelCall_view (callAt fresh sig n) fresh M hx.1 fun m hm => ih m (hx.2 m hm)
      funext p d t s k
      show (Nested.sumSig sig (callSig fresh (callAt fresh sig n) : Sig (Mdl (Obj σ A n) A) _ _ _ _)).call (.inr (restored (restoredAt id n) M)) p d t s k =
        (Nested.sumSig sig (callSig fresh (callAt fresh sig n))).call (.inr M) p d t s k
      unfold Nested.sumSig callSig
      cases p <;> cases s <;> simp only [h]

theorem paramsAt_keys (ops : Ops σ D) (n : Nat) (x : Obj σ A n) (hx : KeysAt n x) : paramsAt ops n (restoredAt id n x) = paramsAt ops n x := by
  induction n with
  | zero => rfl
  | succ n ih =>
    cases x with
    | inl m => rfl
    | inr M =>
      show Sum.inr (map (paramsAt ops n) (restored (restoredAt id n) M).modules.norm) = Sum.inr (map (paramsAt ops n) M.modules.norm)
      rw [norm_view hx.1, Tree.map_map]
      exact congrArg Sum.inr (map_congr fun m hm => ih m (hx.2 m (mem_flat_norm.1 hm)))

theorem stateOf_keys {ops : Ops σ D} {get : σ → Except PyErr S} {no : S} {c : σ → σ} {M : Mdl σ A} (hk : KeysOk M.modules) (hr : ∀ m ∈ M.modules.flat, ops.ready (c m) = ops.ready m)
    (hg : ∀ m ∈ M.modules.flat, get (c m) = get m) : stateOf ops get no (restored c M) = stateOf ops get no M := by
  unfold stateOf
  rw [ready_view hk hr, norm_view hk]
  show (match M.kind with | .seq => _ | .nonseq _ _ _ => _) = _
  cases M.kind with
  | seq =>
    simp only [mapM_after]
    exact mapM_congr _ _ _ fun m h => by rw [hg m (mem_flat_norm.1 h)]
  | nonseq o k s =>
    simp only [mapM_after]
    split
    · exact mapM_congr _ _ _ fun m h => by rw [hg m (mem_flat_norm.1 h), hr m (mem_flat_norm.1 h)]
    · rfl

theorem stateAt_keys (ops : Ops σ D) (w r : Str) (n : Nat) (x : Obj σ A n) (hx : KeysAt n x) : stateAt ops w r n (restoredAt id n x) = stateAt ops w r n x := by
  induction n with
  | zero => rfl
  | succ n ih =>
    cases x with
    | inl m => rfl
    | inr M => exact congrArg (Except.map Sum.inr) (stateOf_keys hx.1 (fun m hm => (faithful_at ops (fun _ => true) w r n).ready m (hx.2 m hm)) fun m hm => ih m (hx.2 m hm))

theorem call_view (ops : Ops σ D) (w r : Str) (fresh : Str → Nat → Nat → Str) (sig : Sig σ PyVal PyVal Nat X) (env : Env X) (n : Nat) (M : Mdl (Obj σ A n) A) (hk : KeysOk M.modules)
    (hm : ∀ m ∈ M.modules.flat, KeysAt n m) (data : Tree X) (dtype : Str) (rng : RngArg) :
    call ops w r fresh sig env n (restored (restoredAt id n) M) data dtype rng = call ops w r fresh sig env n M data dtype rng := by
  have hr : ∀ m ∈ M.modules.flat, (opsAt ops w r n).ready (restoredAt id n m) = (opsAt ops w r n).ready m := fun m h => (faithful_at ops (fun _ => true) w r n).ready m (hm m h)
  have h1 := ready_view hk hr
  have h2 : (restored (restoredAt id n) M).inShape = M.inShape := rfl
  have h3 : theKey env (restored (restoredAt id n) M).rng rng = theKey env M.rng rng := by
    show theKey env (typedKey M.rng) rng = _
    unfold theKey
    rw [keyData_typed]
  have h4 : map (paramsAt ops n) (restored (restoredAt id n) M).modules.norm = map (paramsAt ops n) M.modules.norm := by
    rw [norm_view hk, Tree.map_map]
    exact map_congr fun m h => paramsAt_keys ops n m (hm m (mem_flat_norm.1 h))
  have h5 : stateOf (opsAt ops w r n) (stateAt ops w r n) (noState n) (restored (restoredAt id n) M) = stateOf (opsAt ops w r n) (stateAt ops w r n) (noState n) M :=
    stateOf_keys hk hr fun m h => stateAt_keys ops w r n m (hm m h)
  have h6 := modelCall_view (callAt fresh sig n) fresh M hk fun m h => call_keys fresh sig n m (hm m h)
  unfold call
  rw [h1, h2, h3, h4, h5, h6]

theorem flagsOf_view {ops : Ops σ D} {tr : σ → Bool} {c : σ → σ} {M : Mdl σ A} (hk : KeysOk M.modules) (hp : ∀ m ∈ M.modules.flat, ops.getParams (c m) = ops.getParams m) (ht : ∀ m ∈ M.modules.flat, tr (c m) = tr m) :
    flagsOf ops tr (restored c M) = flagsOf ops tr M := by
  unfold flagsOf
  rw [getParams_view hk hp, norm_view hk, map_map]
  congr 1
  exact map_congr fun m h => by rw [hp m (mem_flat_norm.1 h), ht m (mem_flat_norm.1 h)]

theorem filled_truthy {t : Tree (OptState.St A)} (h : Filled t) : OptState.truthy (some t) = true := by
  cases t with
  | leaf a => cases h
  | none => cases h
  | list ts => cases ts with
    | nil => exact absurd rfl h
    | cons a l => rfl
  | tuple ts => cases ts with
    | nil => exact absurd rfl h
    | cons a l => rfl
  | dict ts => cases ts with
    | nil => exact absurd rfl h
    | cons a l => rfl

theorem opt_view {c : σ → σ} {M : Mdl σ A} (h : ∀ t, M.opt = some t → Filled t) : (restored c M).opt.map Tree.norm = M.opt.map Tree.norm := by
  show (if OptState.truthy M.opt then M.opt.map Tree.norm else Option.none).map Tree.norm = _
  cases ho : M.opt with
  | none => rfl
  | some t =>
    rw [if_pos (filled_truthy (h t ho))]
    simp [norm_idem]

theorem trainArgs_view (ops : Ops σ D) (tr : σ → Bool) (w r : Str) (fresh : Str → Nat → Nat → Str) (sig : Sig σ PyVal PyVal Nat X) (n : Nat) (resume : Bool) (M : Mdl (Obj σ A n) A) (h : Proper n M) :
    trainArgs ops tr w r fresh sig n resume (restored (restoredAt id n) M) = trainArgs ops tr w r fresh sig n resume M := by
  have f := faithful_at (A := A) ops tr w r n
  have e1 := flagsOf_view (ops := opsAt ops w r n) (tr := trainableAt tr n) h.keys (fun m hm => f.params m (h.deep m hm)) fun m hm => f.trains m (h.deep m hm)
  have e2 := getState_view (ops := opsAt ops w r n) h.keys (fun m hm => f.ready m (h.deep m hm)) fun m hm => f.state m (h.deep m hm)
  have e3 : keyData (restored (restoredAt id n) M).rng = keyData M.rng := keyData_typed M.rng
  have e4 := getParams_view (ops := opsAt ops w r n) h.keys fun m hm => f.params m (h.deep m hm)
  have e5 := modelCall_view (callAt fresh sig n) fresh M h.keys fun m hm => call_keys fresh sig n m (h.deep m hm)
  have e6 := opt_view (c := restoredAt id n) h.opt
  unfold trainArgs
  rw [e1, e2, e3, e4, e5, e6]

theorem newKey_view (k : Key) (x : Nat) : typedKey (newKey (typedKey k) x) = typedKey (newKey k x) := by cases k <;> rfl

theorem store_view (ops : Ops σ D) {tr : σ → Bool} {c : σ → σ} {G : σ → Prop} (f : Faithful ops tr c G) (M : Mdl σ A) (hk : KeysOk M.modules) (hg : ∀ m ∈ M.modules.flat, G m) (t : Trained A) :
    (store ops (restored c M) t).map (restored c) = (store ops M t).map (restored c) := by
  have fm := faithful_model (A := A) ops [] [] f
  unfold store
  rcases Except.map_eq (fm.setP M t.params ⟨hk, hg⟩) with ⟨e, h1, h2⟩ | ⟨a, b, h1, h2, h3⟩
  · rw [show ModelSer.setParams ops (restored c M) t.params = _ from h1, show ModelSer.setParams ops M t.params = _ from h2]
  · rw [show ModelSer.setParams ops (restored c M) t.params = _ from h1, show ModelSer.setParams ops M t.params = _ from h2]
    have gb := fm.keepP M _ _ ⟨hk, hg⟩ h2
    have ga := fm.keepP (restored c M) _ _ (fm.good M ⟨hk, hg⟩) h1
    have hs : (ModelSer.setState ops a t.state).map (restored c) = (ModelSer.setState ops b t.state).map (restored c) := by
      have h4 := fm.setS a t.state ga
      have h5 := fm.setS b t.state gb
      rw [h3] at h4
      exact h4.symm.trans h5
    rcases Except.map_eq hs with ⟨e, h6, h7⟩ | ⟨a', b', h6, h7, h8⟩
    · simp only [h6, h7]
    · simp only [h6, h7]
      refine congrArg Except.ok ?_
      have k1 : a'.kind = b'.kind := (congrArg Mdl.kind h8 : (restored c a').kind = (restored c b').kind)
      have k2 : map c a'.modules.norm = map c b'.modules.norm := congrArg Mdl.modules h8
      have k3 : a'.name = b'.name := (congrArg Mdl.name h8 : (restored c a').name = (restored c b').name)
      have k4 : a'.inShape = b'.inShape := (congrArg Mdl.inShape h8 : (restored c a').inShape = (restored c b').inShape)
      have k5 : a'.outShape = b'.outShape := (congrArg Mdl.outShape h8 : (restored c a').outShape = (restored c b').outShape)
      show Mdl.mk a'.kind (map c a'.modules.norm) (typedKey (newKey (typedKey M.rng) t.rng)) a'.name a'.inShape a'.outShape _ =
        Mdl.mk b'.kind (map c b'.modules.norm) (typedKey (newKey M.rng t.rng)) b'.name b'.inShape b'.outShape _
      rw [k1, k2, k3, k4, k5, newKey_view]

theorem train_view (ops : Ops σ D) (tr : σ → Bool) (w r : Str) (fresh : Str → Nat → Nat → Str) (sig : Sig σ PyVal PyVal Nat X) (fits : Tree Int → Tree X → Bool) (n : Nat) (j : Job X A n) (M : Mdl (Obj σ A n) A)
    (h : Proper n M) :
    (train ops tr w r fresh sig fits n j (restored (restoredAt id n) M)).map (restored (restoredAt id n)) = (train ops tr w r fresh sig fits n j M).map (restored (restoredAt id n)) := by
  unfold train
  rw [trainArgs_view ops tr w r fresh sig n j.resume M h, show (restored (restoredAt id n) M).inShape = M.inShape from rfl]
  split
  · rfl
  · cases trainArgs ops tr w r fresh sig n j.resume M with
    | error e => rfl
    | ok a =>
      simp only
      cases j.run a with
      | error e => rfl
      | ok t => exact store_view _ (faithful_at ops tr w r n) M h.keys h.deep t

theorem filled_struct {α β : Type} {t : Tree α} {u : Tree β} (h : map (fun _ => ()) t = map (fun _ => ()) u) (hu : Filled u) : Filled t := by
  cases u with
  | leaf a => cases hu
  | none => cases hu
  | list us => cases t with
    | list ts => cases us with
      | nil => exact absurd rfl hu
      | cons x l => cases ts with
        | nil => cases h
        | cons y l' => exact List.cons_ne_nil _ _
    | _ => cases h
  | tuple us => cases t with
    | tuple ts => cases us with
      | nil => exact absurd rfl hu
      | cons x l => cases ts with
        | nil => cases h
        | cons y l' => exact List.cons_ne_nil _ _
    | _ => cases h
  | dict us => cases t with
    | dict ts => cases us with
      | nil => exact absurd rfl hu
      | cons x l => cases ts with
        | nil => cases h
        | cons y l' => exact List.cons_ne_nil _ _
    | _ => cases h

theorem filled_norm {α : Type} {t : Tree α} : Filled t.norm ↔ Filled t := by
  cases t with
  | leaf a => exact Iff.rfl
  | none => exact Iff.rfl
  | list ts => cases ts <;> simp [Tree.norm, normL, Filled]
  | tuple ts => cases ts <;> simp [Tree.norm, normL, Filled]
  | dict ts =>
    have h := (sortKvs_perm (normD ts)).length_eq
    rw [normD_eq, List.length_map] at h
    show sortKvs (normD ts) ≠ [] ↔ ts ≠ []
    rw [normD_eq]
    cases hs : sortKvs (ts.map fun p => (p.1, Tree.norm p.2)) <;> cases ts <;> simp_all

theorem filled_bind {α β : Type} {t : Tree α} (f : α → Tree β) (h : Filled t) : Filled (Tree.bind f t) := by
  cases t with
  | leaf a => cases h
  | none => cases h
  | list ts => cases ts with
    | nil => exact absurd rfl h
    | cons a l => exact List.cons_ne_nil _ _
  | tuple ts => cases ts with
    | nil => exact absurd rfl h
    | cons a l => exact List.cons_ne_nil _ _
  | dict ts => cases ts with
    | nil => exact absurd rfl h
    | cons a l => exact List.cons_ne_nil _ _

theorem flagsOf_filled {ops : Ops σ D} {tr : σ → Bool} {M : Mdl σ A} (hk : KeysOk M.modules) (hm : Filled M.modules) {fl : Tree Bool} (h : flagsOf ops tr M = .ok fl) : Filled fl := by
  unfold flagsOf ModelTrain.broadcast ModelSer.getParams at h
  rw [Tree.norm_map, norm_norm hk, zipPre_bind _ _ _ (keysOk_norm' hk)] at h
  cases h
  show Filled (Tree.bind _ (map _ M.modules.norm))
  rw [Tree.bind_map]
  exact filled_bind _ (filled_norm.2 hm)

theorem train_proper (ops : Ops σ D) (tr : σ → Bool) (w r : Str) (fresh : Str → Nat → Nat → Str) (sig : Sig σ PyVal PyVal Nat X) (fits : Tree Int → Tree X → Bool) (n : Nat) (j : Job X A n) (hj : Lawful j)
    {M M' : Mdl (Obj σ A n) A} (h : Proper n M) (ht : train ops tr w r fresh sig fits n j M = .ok M') : Proper n M' := by
  have fm := faithful_at (A := A) ops tr w r n
  unfold train at ht
  split at ht
  · cases ht
  · split at ht
    · cases ht
    · next a ha =>
      split at ht
      · cases ht
      · next t hr =>
        have hf : Filled a.flags := by
          unfold trainArgs at ha
          split at ha
          · cases ha
          · next fl hfl =>
            split at ha
            · cases ha
            · split at ha
              · cases ha
              · cases ha
                exact flagsOf_filled h.keys h.modules hfl
        unfold store at ht
        split at ht
        · cases ht
        · next M₁ h1 =>
          split at ht
          · cases ht
          · next M₂ h2 =>
            cases ht
            have p1 : KeysOk M₁.modules ∧ (∀ m ∈ M₁.modules.flat, KeysAt n m) ∧ Filled M₁.modules := by
              unfold ModelSer.setParams at h1
              split at h1
              · cases h1
              · next u hu =>
                cases h1
                obtain ⟨k, -, g, s⟩ := setAll_keep fm.keepP h.keys h.deep hu
                exact ⟨k, g, filled_struct s (filled_norm.2 h.modules)⟩
            have p2 : KeysOk M₂.modules ∧ (∀ m ∈ M₂.modules.flat, KeysAt n m) ∧ Filled M₂.modules := by
              unfold ModelSer.setState at h2
              split at h2
              · cases h2; exact p1
              · split at h2
                · cases h2
                · next u hu =>
                  cases h2
                  obtain ⟨k, -, g, s⟩ := setAll_keep fm.keepS p1.1 p1.2.1 hu
                  exact ⟨k, g, filled_struct s (filled_norm.2 p1.2.2)⟩
            refine ⟨p2.1, p2.2.1, p2.2.2, fun u hu => ?_⟩
            cases hu
            exact filled_norm.1 (filled_struct (hj a t hr) (filled_norm.2 hf))

theorem keysAt_view (n : Nat) (x : Obj σ A n) (h : KeysAt n x) : KeysAt n (restoredAt id n x) := by
  induction n with
  | zero => trivial
  | succ n ih =>
    cases x with
    | inl m => trivial
    | inr M =>
      refine ⟨(keysOk_map _ _).2 (keysOk_norm' h.1), fun m hm => ?_⟩
      obtain ⟨a, ha, rfl⟩ := flat_map_mem hm
      exact ih a (h.2 a (mem_flat_norm.1 ha))

theorem proper_view {n : Nat} {M : Mdl (Obj σ A n) A} (h : Proper n M) : Proper n (restored (restoredAt id n) M) := by
  refine ⟨(keysOk_map _ _).2 (keysOk_norm' h.keys), fun m hm => ?_, ?_, fun t ht => ?_⟩
  · obtain ⟨a, ha, rfl⟩ := flat_map_mem hm
    exact keysAt_view n a (h.deep a (mem_flat_norm.1 ha))
  · exact filled_struct (by show map _ (map _ M.modules.norm) = map (fun _ => ()) M.modules.norm; rw [map_map]) (filled_norm.2 h.modules)
  · change (if OptState.truthy M.opt then M.opt.map Tree.norm else Option.none) = some t at ht
    split at ht
    · cases ho : M.opt with
      | none => rw [ho] at ht; cases ht
      | some u =>
        rw [ho] at ht
        cases ht
        exact filled_norm.2 (h.opt u ho)
    · cases ht

end Loaded
end Verif
