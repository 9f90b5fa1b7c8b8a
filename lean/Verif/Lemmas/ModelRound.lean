import Verif.Lemmas.ModelHyper
import Verif.Lemmas.MatmulCore
import Verif.Props.OptState

/-! # A restored model -/

namespace Verif
namespace ModelSpec
open Tree Ser ModelSer
open ForwardSpec (KeysOk)

variable {σ D A : Type} {same : Prop}

/-- Setting a value of every restored module which it already has changes nothing. -/
theorem onModules_restored {f : σ → PyVal → Except PyErr σ} {canon : σ → σ} {v : σ → PyVal} {t : Tree σ} (hk : KeysOk t)
    (h : ∀ m ∈ t.flat, f (canon m) (v m) = .ok (canon m)) : jaxMap (onModule f) (map canon t.norm) [Tree.bind v t.norm] = .ok (map canon t.norm) := by
  rw [jaxMap_bind canon v (keysOk_norm' hk) (norm_norm hk), ← mapM_pure]
  apply mapM_congr
  intro m hm
  rw [onModule, h m (mem_flat_norm.1 hm)]

theorem recast_none {α β : Type} {t : Tree α} (h : (recast t : Tree β) = .none) (he : t.flat.isEmpty = true) : t = .none := by
  cases t with
  | leaf a => simp [flat] at he
  | none => rfl
  | list ts => cases h
  | tuple ts => cases h
  | dict ts => cases h

theorem recast_eq {α : Type} (f : α → Tree α) {t : Tree α} (he : t.flat.isEmpty = true) : Tree.bind f t = t := by
  have h1 : Tree.bind f t = Tree.bind .leaf t := bind_congr fun a ha => by
    rw [List.isEmpty_iff] at he
    rw [he] at ha; cases ha
  rw [h1, bind_leaf (fun a => a)]
  exact map_id t

mutual
theorem recast_recast {α β γ : Type} : ∀ t : Tree α, (recast (recast t : Tree β) : Tree γ) = recast t
  | .leaf _ => rfl
  | .none => rfl
  | .list ts => congrArg Tree.list (recast_recastL ts)
  | .tuple ts => congrArg Tree.tuple (recast_recastL ts)
  | .dict ts => congrArg Tree.dict (recast_recastD ts)
theorem recast_recastL {α β γ : Type} : ∀ ts : List (Tree α), bindL (fun _ => (.none : Tree γ)) (bindL (fun _ => (.none : Tree β)) ts) = bindL (fun _ => .none) ts
  | [] => rfl
  | t :: ts => congrArg₂ List.cons (recast_recast t) (recast_recastL ts)
theorem recast_recastD {α β γ : Type} : ∀ ts : List (Str × Tree α), bindD (fun _ => (.none : Tree γ)) (bindD (fun _ => (.none : Tree β)) ts) = bindD (fun _ => .none) ts
  | [] => rfl
  | (k, t) :: ts => congrArg₂ List.cons (congrArg (Prod.mk k) (recast_recast t)) (recast_recastD ts)
end

/-- The tree of modules after the hyperparameters were set. -/
theorem hyper_modules {canon : σ → σ} {M : Mdl σ A} (ops : Ops σ D) (hk : KeysOk M.modules) : ∃ X : Tree σ,
    (if M.modules.flat.isEmpty then keptModules (map canon M.modules.norm) (recast M.modules) else map canon M.modules.norm) = X ∧
    (∀ (F : σ → List PyVal → Except PyErr (Tree σ)) us, jaxMap F X us = jaxMap F (map canon M.modules.norm) us) ∧
    (ModelSer.getParams ops M = .none → X = map canon M.modules.norm) := by
  refine ⟨_, rfl, ?_⟩
  by_cases he : M.modules.flat.isEmpty
  · rw [if_pos he]
    by_cases hn : (recast M.modules : PyVal) = .none
    · rw [hn]
      exact ⟨fun _ _ => rfl, fun _ => rfl⟩
    · have h1 : keptModules (map canon M.modules.norm) (recast M.modules) = M.modules := by
        have h2 : (recast (recast M.modules : PyVal) : Tree σ) = M.modules := by rw [recast_recast]; exact recast_eq _ he
        revert hn h2
        generalize (recast M.modules : PyVal) = r
        intro hn h2
        cases r with
        | none => exact absurd rfl hn
        | _ => exact h2
      rw [h1]
      have he' : M.modules.norm.flat.isEmpty = true := by
        rw [List.isEmpty_iff, List.eq_nil_iff_forall_not_mem] at he ⊢
        exact fun a ha => he a (mem_flat_norm.1 ha)
      have h3 : map canon M.modules.norm = M.modules.norm := by
        rw [← bind_leaf]
        exact recast_eq _ he'
      rw [h3]
      refine ⟨fun F us => (jaxMap_normal hk us).symm, fun hp => ?_⟩
      exfalso
      apply hn
      revert hp he'
      unfold ModelSer.getParams
      cases M.modules with
      | leaf a => intro he' _; simp [Tree.norm, flat] at he'
      | none => intros; rfl
      | list ts => intro _ h; cases h
      | tuple ts => intro _ h; cases h
      | dict ts => intro _ h; cases h
  · rw [if_neg he]
    exact ⟨fun _ _ => rfl, fun _ => rfl⟩

/-- What `get_state` of a writable model returns. -/
theorem state_tree {ops : Ops σ D} {canon : σ → σ} {M : Mdl σ A} (hw : Writable ops M) (hm : ∀ m ∈ M.modules.flat, Restorable same ops canon m) :
    ∃ v : σ → PyVal, ModelSer.getState ops M = .ok (Tree.bind v M.modules.norm) ∧ (∀ m ∈ M.modules.flat, ops.setState (canon m) (v m) = .ok (canon m)) ∧
      ∀ M' : Mdl σ A, M'.kind = M.kind → M'.modules = map canon M.modules.norm → ModelSer.ready ops M' = ModelSer.ready ops M → ModelSer.getState ops M' = .ok (Tree.bind v M.modules.norm) := by
  have hN : (map canon M.modules.norm).norm = map canon M.modules.norm := by rw [Tree.norm_map, norm_norm hw.keys]
  by_cases hs : M.kind = .seq
  · let v : σ → PyVal := fun m => match ops.getState m with | .ok v => v | .error _ => .none
    have hv : ∀ m ∈ M.modules.flat, ops.getState m = .ok (v m) ∧ ops.getState (canon m) = .ok (v m) ∧ ops.setState (canon m) (v m) = .ok (canon m) := by
      intro m h
      obtain ⟨w, h1, h2, h3⟩ := (hm m h).state
      have : v m = w := by simp only [v, h1]
      rw [this]
      exact ⟨h1, h2, h3⟩
    refine ⟨v, ?_, fun m h => (hv m h).2.2, fun M' hk hM _ => ?_⟩
    · rw [ModelSer.getState, hs, ← mapM_bind]
      exact mapM_congr _ _ _ fun m h => (hv m (mem_flat_norm.1 h)).1
    · rw [ModelSer.getState, hk, hs, hM, hN, mapM_comp, ← mapM_bind]
      exact mapM_congr _ _ _ fun m h => (hv m (mem_flat_norm.1 h)).2.1
  · have hr := hw.ready.resolve_left hs
    let v : σ → PyVal := fun m => match stateOrNone ops m with | .ok v => v | .error _ => .none
    have hv : ∀ m ∈ M.modules.flat, stateOrNone ops m = .ok (v m) ∧ stateOrNone ops (canon m) = .ok (v m) ∧ ops.setState (canon m) (v m) = .ok (canon m) := by
      intro m h
      unfold stateOrNone
      by_cases hrm : ops.ready m
      · obtain ⟨w, h1, h2, h3⟩ := (hm m h).state
        have : v m = w := by simp only [v, stateOrNone, hrm, h1, if_true]
        rw [this, (hm m h).ready, hrm]
        exact ⟨h1, h2, h3⟩
      · have hrm' : ops.ready m = false := by simpa using hrm
        have : v m = .none := by simp [v, stateOrNone, hrm']
        rw [this, (hm m h).ready, hrm']
        exact ⟨rfl, rfl, (hm m h).unready hrm'⟩
    refine ⟨v, ?_, fun m h => (hv m h).2.2, fun M' hk hM hr' => ?_⟩
    · unfold ModelSer.getState
      cases hkk : M.kind with
      | seq => exact absurd hkk hs
      | nonseq o c s =>
        simp only [hr, if_true]
        rw [← mapM_bind]
        exact mapM_congr _ _ _ fun m h => (hv m (mem_flat_norm.1 h)).1
    · unfold ModelSer.getState
      cases hkk : M.kind with
      | seq => exact absurd hkk hs
      | nonseq o c s =>
        simp only [hk, hkk, hr', hr, if_true]
        rw [hM, hN, mapM_comp, ← mapM_bind]
        exact mapM_congr _ _ _ fun m h => (hv m (mem_flat_norm.1 h)).2.1

/-- A restored model is ready exactly if the model was. -/
theorem ready_restored {ops : Ops σ D} {canon : σ → σ} {M : Mdl σ A} (hk : KeysOk M.modules) (hm : ∀ m ∈ M.modules.flat, Restorable same ops canon m) :
    ModelSer.ready ops (restored canon M) = ModelSer.ready ops M := by
  have hl : jaxLeaves (map canon M.modules.norm) = (jaxLeaves M.modules).map canon := by
    rw [Matmul.jaxLeaves_map]
    unfold jaxLeaves
    rw [norm_norm hk]
  have hlm : ∀ m ∈ jaxLeaves M.modules, ops.ready (canon m) = ops.ready m := fun m h => (hm m (mem_flat_norm.1 h)).ready
  unfold ModelSer.ready restored
  simp only [hl]
  cases M.kind with
  | seq =>
    simp only [List.isEmpty_map, List.all_map]
    congr 3
    rw [Bool.eq_iff_iff, List.all_eq_true, List.all_eq_true]
    refine forall₂_congr fun m h => ?_
    rw [Function.comp_apply, hlm m h]
  | nonseq o c s =>
    cases o with
    | none => rfl
    | some l =>
      simp only
      congr 3
      funext p
      unfold pathReady
      split
      · rfl
      · rw [get_map, get_norm hk]
        cases hg : Tree.get M.modules (splitOn s p) with
        | error e => rfl
        | ok t =>
          cases t with
          | leaf m =>
            simp only [Except.map, Tree.norm, map]
            exact (hm m (get_leaf_mem hg (by simp [flat]))).ready
          | _ => rfl

theorem ownDeserialize_eq {ops : Ops σ D} {canon : σ → σ} {M : Mdl σ A} {w r : Str} {strict : Bool} (hv0 : strict = true → w = r) (hw : Writable ops M) (hm : ∀ m ∈ M.modules.flat, Restorable same ops canon m)
    {v : σ → PyVal} (hv : ∀ m ∈ M.modules.flat, ops.setState (canon m) (v m) = .ok (canon m)) {k : ModelSer.Kind} (hk : SameKind k M.kind) (key : Key) (n : Option Str) (o : Option (Tree (OptState.St A)))
    (nm : Str) (tr : Option Bool) (ver : Str) :
    ownDeserialize ops r strict { kind := k, modules := map canon M.modules.norm, rng := key, name := n, inShape := .none, outShape := .none, opt := o }
      { name := nm, hyper := writtenHyper M, params := ModelSer.getParams ops M, state := Tree.bind v M.modules.norm, trainable := tr, package := w, version := ver } =
    .ok { kind := M.kind, modules := map canon M.modules.norm, rng := key, name := n, inShape := M.inShape, outShape := M.outShape, opt := o } := by
  unfold ownDeserialize
  rw [if_neg (by rintro ⟨h1, h2⟩; exact h1 (hv0 h2).symm)]
  simp only
  rw [setHyper_written _ _ hk]
  obtain ⟨X, hX, hj, hp⟩ := hyper_modules (canon := canon) ops hw.keys
  simp only [hX]
  have hpar : unlessNone (setParams ops) (⟨M.kind, X, key, n, M.inShape, M.outShape, o⟩ : Mdl σ A) (ModelSer.getParams ops M) =
      .ok ⟨M.kind, map canon M.modules.norm, key, n, M.inShape, M.outShape, o⟩ := by
    by_cases hnone : ModelSer.getParams ops M = .none
    · rw [hnone, hp hnone]; rfl
    · have h1 : unlessNone (setParams ops) (⟨M.kind, X, key, n, M.inShape, M.outShape, o⟩ : Mdl σ A) (ModelSer.getParams ops M) =
          setParams ops (⟨M.kind, X, key, n, M.inShape, M.outShape, o⟩ : Mdl σ A) (ModelSer.getParams ops M) := by
        cases hq : ModelSer.getParams ops M <;> first | exact absurd hq hnone | rfl
      rw [h1, setParams]
      simp only [hj]
      rw [ModelSer.getParams, onModules_restored hw.keys fun m h => (hm m h).again]
  rw [hpar]
  simp only
  have hst := onModules_restored (f := ops.setState) hw.keys hv
  cases hq : Tree.bind v M.modules.norm with
  | none => rfl
  | _ =>
    rw [hq] at hst
    simp only [unlessNone, ModelSer.setState, hst]

theorem opt_restored {ops : Ops σ D} {M : Mdl σ A} (hw : Writable ops M) :
    OptState.unpack (map (fun _ => ()) (ModelSer.getParams ops M)) (OptState.pack M.opt) = .ok (if OptState.truthy M.opt then M.opt.map Tree.norm else Option.none) := by
  cases ho : M.opt with
  | none => rfl
  | some t =>
    cases ht : OptState.truthy (some t) with
    | false => simp [OptState.pack, ht, OptState.unpack]
    | true =>
      have h := hw.opt t ho ht
      rw [Props.C41_model _ t ?_ ht]
      · rfl
      · rw [sameStruct_iff] at h ⊢
        rw [Tree.norm_map, map_map]
        exact h

theorem keyData_eq {r : Key} (h : r ≠ .other) : ∃ k, keyData r = .ok k ∧ wrapKey k = typedKey r := by
  cases r with
  | typed k => exact ⟨k, rfl, rfl⟩
  | raw k => exact ⟨k, rfl, rfl⟩
  | other => exact absurd rfl h

/-- What `serialize` writes for the modules paired with their data. -/
def dataOf (ops : Ops σ D) (w : Str) (M : Mdl σ A) (z : Tree (σ × D)) (key : Nat) (state : PyVal) : MData D A where
  name := M.name
  typenames := map (fun x => (ops.cls x.1).1) z
  modnames := map (fun x => (ops.cls x.1).2) z
  parts := map Prod.snd z
  struct := map (fun _ => ()) M.modules.norm
  key := key
  opt := OptState.pack M.opt
  optStruct := map (fun _ => ()) (ModelSer.getParams ops M)
  package := w
  own := { name := [], hyper := writtenHyper M, params := ModelSer.getParams ops M, state := state, trainable := Option.none, package := w, version := "0.0.0".toList }

theorem serialize_ok (ops : Ops σ D) (w : Str) {M : Mdl σ A} (hk : KeysOk M.modules) {key : Nat} (hkey : keyData M.rng = .ok key) {state : PyVal} (hst : ModelSer.getState ops M = .ok state)
    (hser : ∀ m ∈ M.modules.flat, ∃ d, ops.ser m = .ok d) : ∃ z : Tree (σ × D), ModelSer.serialize ops w M = .ok (dataOf ops w M z key state) ∧ map Prod.fst z = M.modules.norm ∧
      (∀ x ∈ z.flat, ops.ser x.1 = .ok x.2) ∧ KeysOk z ∧ z.norm = z := by
  obtain ⟨parts, hparts⟩ := mapM_total (serLeaf ops) M.modules.norm fun m h => by
    obtain ⟨d, hd⟩ := hser m (mem_flat_norm.1 h)
    exact ⟨_, by rw [serLeaf, hd]⟩
  obtain ⟨z, hz1, hz2, hz3⟩ := mapM_graph (f := serLeaf ops) (fun a w h => by
    unfold serLeaf at h
    cases hs : ops.ser a with
    | error e => rw [hs] at h; cases h
    | ok d => rw [hs] at h; cases h; exact ⟨d, rfl⟩) _ hparts
  refine ⟨z, ?_, hz1, fun x hx => ?_, (keysOk_map Prod.fst z).1 (by rw [hz1]; exact keysOk_norm' hk), ?_⟩
  · unfold ModelSer.serialize dataOf
    rw [hparts, hkey, hst, ← hz2, ← hz1, map_map, map_map]
  · have := hz3 x hx
    unfold serLeaf at this
    cases hs : ops.ser x.1 with
    | error e => rw [hs] at this; cases this
    | ok d => rw [hs] at this; cases this; rfl
  · apply norm_of_sorted
    rw [← sorted_map Prod.fst, hz1]
    exact sorted_norm _ hk

/-- The modules that `deserialize` makes of names and data. -/
theorem read_modules {ops : Ops σ D} {canon : σ → σ} {strict : Bool} {z : Tree (σ × D)} (hk : KeysOk z) (hn : z.norm = z)
    (hb : ∀ x ∈ z.flat, ∃ m0, ops.create (ops.cls x.1) = .ok m0 ∧ ops.deser strict m0 x.2 = .ok (canon x.1)) :
    ∃ X, jaxMap (newLeaf ops) (map (fun x => (ops.cls x.1).1) z) [map (fun x => (ops.cls x.1).2) z] = .ok X ∧
      jaxMap (deserLeaf ops strict) X [map Prod.snd z] = .ok (map (fun x => canon x.1) z) := by
  let m0Of : σ × D → σ := fun x => match ops.create (ops.cls x.1) with | .ok y => y | .error _ => x.1
  refine ⟨map m0Of z, ?_, ?_⟩
  · rw [← bind_leaf (fun x : σ × D => (ops.cls x.1).2), jaxMap_bind _ _ hk hn]
    refine mapM_leaf _ _ _ fun x hx => ?_
    obtain ⟨m0, h0, -⟩ := hb x hx
    simp only [newLeaf, m0Of, h0]
  · rw [← bind_leaf Prod.snd, jaxMap_bind _ _ hk hn]
    refine mapM_leaf _ _ _ fun x hx => ?_
    obtain ⟨m0, h0, h1⟩ := hb x hx
    simp only [deserLeaf, m0Of, h0, h1]

end ModelSpec

end Verif
