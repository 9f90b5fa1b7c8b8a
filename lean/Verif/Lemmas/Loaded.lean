import Verif.Model.Loaded
import Verif.Spec.ModelFile
import Verif.Lemmas.ModelFile
import Verif.Lemmas.NonSeqShape
import Verif.Lemmas.MatmulCore
import Verif.Lemmas.TreeBack

/-! # Lemmas about calls of loaded models -/

namespace Verif
namespace Loaded
open Tree Ser ModelSer ModelSpec Forward Props Conn
open Nested (ValAt)
open ForwardSpec (KeysOk)

variable {σ D A P S K X M : Type}

theorem getPath_norm (p : List Str) : ∀ {t : Tree M}, KeysOk t →
    getPath (fun _ => false) true t.norm p = (getPath (fun _ => false) true t p).map fun x => (x.1.norm, x.2) := by
  induction p with
  | nil => intro t _; rfl
  | cons k ks ih =>
    intro t hk
    rw [getPath.eq_def, getPath.eq_def]
    simp only
    by_cases h : k = [] ∧ ks = []
    · simp [h, Except.map]
    · simp only [h, if_false, Bool.false_eq_true]
      cases t with
      | leaf b => rfl
      | none => rfl
      | list ts =>
        simp only [Tree.norm, normL_eq, List.getElem?_map]
        split
        · rfl
        · cases hc : ts[toInt k]? with
          | none => rfl
          | some c => exact ih (keysOkL_mem hk (List.mem_of_getElem? hc))
      | tuple ts =>
        simp only [Tree.norm, normL_eq, List.getElem?_map]
        split
        · rfl
        · cases hc : ts[toInt k]? with
          | none => rfl
          | some c => exact ih (keysOkL_mem hk (List.mem_of_getElem? hc))
      | dict kvs =>
        simp only [Tree.norm, lookup_norm hk.1]
        cases hc : kvs.lookup k with
        | none => rfl
        | some c => exact ih (keysOkD_mem hk.2 (lookup_mem hc))

theorem remainder_norm {t : Tree M} (hk : KeysOk t) (cfg : Cfg) : remainder cfg t.norm = remainder cfg t := by
  funext s
  unfold remainder
  rw [getPath_norm _ hk]
  cases getPath (fun _ => false) true t (splitOn cfg.sep s) with
  | error e => rfl
  | ok x => rfl

theorem remainder_view {t : Tree M} (hk : KeysOk t) (c : M → M) (cfg : Cfg) : remainder cfg (map c t.norm) = remainder cfg t := by
  rw [remainder_map, remainder_norm hk]

theorem inputDeps_view {t : Tree M} (hk : KeysOk t) (c : M → M) (sep : Char) (fresh : Str → Nat → Nat → Str) (conn : List (Str × List Str)) :
    inputDeps sep fresh (map c t.norm) conn = inputDeps sep fresh t conn := by
  unfold inputDeps execOrder outerConnections place concretizeConnections
  rw [partition_congr (remainder_view hk c _)]

theorem leafAt_view {t : Tree M} (hk : KeysOk t) (c : M → M) (sep : Char) (s : Str) : leafAt sep (map c t.norm) s = (leafAt sep t s).map c := by
  unfold leafAt
  rw [get_map, get_norm hk]
  cases Tree.get t (splitOn sep s) with
  | error e => rfl
  | ok x => cases x <;> rfl

theorem mapE_map {α β γ : Type} {f : α → Except PyErr β} {g : α → Except PyErr γ} {c : β → γ} (h : ∀ a, g a = (f a).map c) (l : List α) : mapE g l = (mapE f l).map (List.map c) := by
  induction l with
  | nil => rfl
  | cons a l ih =>
    rw [mapE, mapE, h, ih]
    cases f a with
    | error e => rfl
    | ok b => cases mapE f l <;> rfl

theorem mapE_leafAt_mem {t : Tree M} {sep : Char} {l : List Str} {ms : List M} (h : mapE (leafAt sep t) l = .ok ms) : ∀ m ∈ ms, m ∈ t.flat := by
  induction l generalizing ms with
  | nil => cases h; intro m hm; cases hm
  | cons a l ih =>
    rw [mapE] at h
    cases hl : leafAt sep t a with
    | error e => rw [hl] at h; cases h
    | ok b =>
      rw [hl] at h
      cases hr : mapE (leafAt sep t) l with
      | error e => rw [hr] at h; cases h
      | ok bs =>
        rw [hr] at h
        cases h
        intro m hm
        rcases List.mem_cons.1 hm with rfl | hm
        · unfold leafAt at hl
          cases hg : Tree.get t (splitOn sep a) with
          | error e => rw [hg] at hl; cases hl
          | ok x =>
            rw [hg] at hl
            cases x with
            | leaf b => cases hl; exact get_leaf_mem hg (by simp [flat])
            | _ => cases hl
        · exact ih hr m hm

theorem nsLoop_view {st : Type} (sep : Char) {f : M → Str → Tree X → st → Except PyErr (Tree X × st)} {c : M → M} (ps : List Str) (ms : List (Option M)) (ds : List (Tree Str))
    (h : ∀ m, some m ∈ ms → f (c m) = f m) (outs : Tree X) (s : st) :
    nsLoop sep f (ps.zip ((ms.map (Option.map c)).zip ds)) outs s = nsLoop sep f (ps.zip (ms.zip ds)) outs s := by
  induction ps generalizing ms ds outs s with
  | nil => rfl
  | cons p ps ih =>
    cases ms with
    | nil => rfl
    | cons m ms =>
      cases ds with
      | nil => rfl
      | cons d ds =>
        have ih' := fun o s => ih ms ds (fun m hm => h m (List.mem_cons_of_mem _ hm)) o s
        simp only [List.map_cons, List.zip_cons_cons, nsLoop, ih']
        cases m with
        | none => rfl
        | some m =>
          simp only [Option.map_some, h m (by simp)]

theorem callStep_view {sig : Sig M P S K X} {m m' : M} (h : sig.call m' = sig.call m) (sep : Char) (params : Tree P) (training : Bool) (rng : K) :
    callStep sig sep params training rng m' = callStep sig sep params training rng m := by
  funext path inp state
  unfold callStep
  rw [h]

theorem nsStored_view (sig : Sig M P S K X) (sep : Char) (fresh : Str → Nat → Nat → Str) {t : Tree M} (hk : KeysOk t) {c : M → M} (hc : ∀ m ∈ t.flat, sig.call (c m) = sig.call m)
    (conn : List (Str × List Str)) (order : List Str) : nsStored sig sep fresh (map c t.norm) conn order = nsStored sig sep fresh t conn order := by
  funext params data training state rng
  unfold nsStored
  rw [mapE_map (leafAt_view hk c sep), inputDeps_view hk]
  cases hm : mapE (leafAt sep t) (order.filter (!reserved ·)) with
  | error e => rfl
  | ok ms =>
    simp only [Except.map]
    cases inputDeps sep fresh t conn with
    | error e => rfl
    | ok d =>
      obtain ⟨deps, outDeps⟩ := d
      simp only
      cases nsInit sep order data with
      | error e => rfl
      | ok outs =>
        simp only
        have h1 : (Option.none :: (ms.map c).map some) = (Option.none :: ms.map some).map (Option.map c) := by
          simp only [List.map_cons, List.map_map, Option.map_none, List.cons.injEq, true_and]
          rfl
        rw [h1, nsLoop_view]
        intro m hm'
        refine callStep_view (hc m (mapE_leafAt_mem hm m ?_)) _ _ _ _
        simpa using hm'

theorem seqLoop_view {sig : Sig M P S K X} {c : M → M} (training : Bool) (ms : List M) (ps : List P) (ss : List S) (ks : List K) (h : ∀ m ∈ ms, sig.call (c m) = sig.call m) (x : Tree X) (acc : List S) :
    seqLoop sig training (stages (ms.map c) ps ss ks) x acc = seqLoop sig training (stages ms ps ss ks) x acc := by
  induction ms generalizing ps ss ks x acc with
  | nil => rfl
  | cons m ms ih =>
    cases ps with
    | nil => rfl
    | cons p ps => cases ss with
      | nil => rfl
      | cons s ss => cases ks with
        | nil => rfl
        | cons k ks =>
          simp only [List.map_cons, stages, seqLoop, h m (by simp)]
          have := fun x acc => ih ps ss ks (fun m hm => h m (List.mem_cons_of_mem _ hm)) x acc
          simp only [this]

mutual
theorem unflat_map {α β : Type} (c : α → α) : ∀ (t : Tree α) (xs : List β), unflat (map c t) xs = unflat t xs
  | .leaf _, [] => rfl
  | .leaf _, _ :: _ => rfl
  | .none, _ => rfl
  | .list ts, xs => by simp only [map, unflat, unflatL_map c ts xs]
  | .tuple ts, xs => by simp only [map, unflat, unflatL_map c ts xs]
  | .dict kvs, xs => by simp only [map, unflat, unflatD_map c kvs xs]
theorem unflatL_map {α β : Type} (c : α → α) : ∀ (ts : List (Tree α)) (xs : List β), unflatL (mapL c ts) xs = unflatL ts xs
  | [], _ => rfl
  | t :: ts, xs => by simp only [mapL, unflatL, unflat_map c t xs, unflatL_map c ts]
theorem unflatD_map {α β : Type} (c : α → α) : ∀ (ts : List (Str × Tree α)) (xs : List β), unflatD (mapD c ts) xs = unflatD ts xs
  | [], _ => rfl
  | (k, t) :: ts, xs => by simp only [mapD, unflatD, unflat_map c t xs, unflatD_map c ts]
end

theorem seqCall_view (sig : Sig M P S K X) {t : Tree M} (hk : KeysOk t) {c : M → M} (hc : ∀ m ∈ t.flat, sig.call (c m) = sig.call m) : seqCall sig (map c t.norm) = seqCall sig t := by
  have hn : (map c t.norm).norm = map c t.norm := by rw [Tree.norm_map, norm_norm hk]
  have hs : ∀ {β : Type} (u : Tree β), sameStruct (map c t.norm).norm u = sameStruct t.norm u := by
    intro β u
    rw [Bool.eq_iff_iff, sameStruct_iff, sameStruct_iff, hn, Tree.map_map]
  have hl : jaxLeaves (map c t.norm) = t.jaxLeaves.map c := by
    rw [jaxLeaves, jaxLeaves, Tree.norm_map, Props.flat_map, norm_norm hk]
  have hu : ∀ ss : List S, unflatten (map c t.norm) ss = unflatten t ss := by
    intro ss
    unfold unflatten
    rw [hn, unflat_map]
  funext params data training state rng
  unfold seqCall
  simp only [hs, hl, List.length_map, hu]
  rw [seqLoop_view]
  intro m hm
  exact hc m (mem_flat_norm.1 hm)

/-! ### Sorting twice -/

theorem insKv_weak {γ : Type} (k : Str) (v : γ) (l : List (Str × γ)) (h : l.Pairwise fun a b => ¬ b.1 < a.1) : (insKv k v l).Pairwise fun a b => ¬ b.1 < a.1 := by
  induction l with
  | nil => simp [insKv]
  | cons p r ih =>
    obtain ⟨k', v'⟩ := p
    have h' := List.pairwise_cons.1 h
    simp only [insKv]
    split
    · next hlt =>
      refine List.pairwise_cons.2 ⟨fun b hb => ?_, ih h'.2⟩
      rcases List.mem_cons.1 ((insKv_perm k v r).subset hb) with rfl | hb
      · exact fun hh => List.lt_irrefl _ (List.lt_trans hlt hh)
      · exact h'.1 b hb
    · next hlt =>
      refine List.pairwise_cons.2 ⟨fun b hb => ?_, h⟩
      rcases List.mem_cons.1 hb with rfl | hb
      · exact hlt
      · rcases List.le_iff_lt_or_eq.1 (List.not_lt.1 hlt) with hh | hh
        · exact fun hb' => h'.1 b hb (List.lt_trans hb' hh)
        · rw [hh]; exact h'.1 b hb

theorem sortKvs_weak {γ : Type} (l : List (Str × γ)) : (sortKvs l).Pairwise fun a b => ¬ b.1 < a.1 := by
  induction l with
  | nil => simp [sortKvs]
  | cons p r ih => exact insKv_weak p.1 p.2 _ ih

theorem sortKvs_of_weak {γ : Type} (l : List (Str × γ)) (h : l.Pairwise fun a b => ¬ b.1 < a.1) : sortKvs l = l := by
  induction l with
  | nil => rfl
  | cons p l ih =>
    rw [List.pairwise_cons] at h
    have : sortKvs (p :: l) = insKv p.1 p.2 (sortKvs l) := rfl
    rw [this, ih h.2]
    cases l with
    | nil => rfl
    | cons q l =>
      obtain ⟨k', v'⟩ := q
      simp only [insKv]
      rw [if_neg (h.1 (k', v') List.mem_cons_self)]

theorem normD_sort {α : Type} (kvs : List (Str × Tree α)) : normD (sortKvs kvs) = sortKvs (normD kvs) := by
  rw [normD_eq, normD_eq, sortKvs_map]

mutual
theorem norm_idem {α : Type} : ∀ t : Tree α, t.norm.norm = t.norm
  | .leaf _ => rfl
  | .none => rfl
  | .list ts => by simp only [Tree.norm, normL_idem ts]
  | .tuple ts => by simp only [Tree.norm, normL_idem ts]
  | .dict kvs => by rw [Tree.norm, Tree.norm, normD_sort, normD_idem kvs, sortKvs_of_weak _ (sortKvs_weak _)]
theorem normL_idem {α : Type} : ∀ ts : List (Tree α), normL (normL ts) = normL ts
  | [] => rfl
  | t :: ts => by simp only [normL, norm_idem t, normL_idem ts]
theorem normD_idem {α : Type} : ∀ ts : List (Str × Tree α), normD (normD ts) = normD ts
  | [] => rfl
  | (k, t) :: ts => by simp only [normD, norm_idem t, normD_idem ts]
end

/-- The restored model has the callable of the original. -/
theorem modelCall_view (sig : Sig σ P S K X) (fresh : Str → Nat → Nat → Str) (M : Mdl σ A) (hk : KeysOk M.modules) {c : σ → σ} (hc : ∀ m ∈ M.modules.flat, sig.call (c m) = sig.call m) :
    modelCall sig fresh (restored c M) = modelCall sig fresh M := by
  have hkind : (restored c M).kind = M.kind := rfl
  have hmod : (restored c M).modules = map c M.modules.norm := rfl
  funext params data training state rng
  unfold modelCall
  rw [hkind, hmod]
  cases M.kind with
  | seq => simp only [seqCall_view sig hk hc]
  | nonseq order conns sep =>
    cases order with
    | none => rfl
    | some order =>
      simp only
      cases connList conns with
      | error e => rfl
      | ok conn => simp only [nsStored_view sig sep fresh hk hc]

end Loaded
end Verif
