import Verif.Lemmas.ModelRound

/-! # Properties of saving and loading models -/

namespace Verif
namespace Props
open Tree Ser ModelSer ModelSpec
open ForwardSpec (KeysOk)

variable {σ D A : Type} {same : Prop}

/-- **C39** If every module of a model comes back, then so does the model: it can be written, an object of its class can be made without arguments, and reading the data gives a model with the
same modules at the same places, name, class attributes, shapes, parameters, state, random key and optimiser state, ready exactly if it was before. -/
theorem C39_model (ops : Ops σ D) (w r : Str) (canon : σ → σ) (M : Mdl σ A) (hw : Writable ops M) (hm : ∀ m ∈ M.modules.flat, Restorable (w = r) ops canon m) :
    Restorable (w = r) (modelOps ops w r) (restored canon) M := by
  have hN : (map canon M.modules.norm).norm = map canon M.modules.norm := by rw [Tree.norm_map, norm_norm hw.keys]
  have hkN := keysOk_norm' hw.keys
  have hnN := norm_norm hw.keys
  have hmN : ∀ m ∈ M.modules.norm.flat, Restorable (w = r) ops canon m := fun m h => hm m (mem_flat_norm.1 h)
  obtain ⟨v, hst, hset, hst'⟩ := state_tree hw hm
  have hready := ready_restored (A := A) hw.keys hm
  have hagain : ModelSer.setState ops (restored canon M) (Tree.bind v M.modules.norm) = .ok (restored canon M) := by
    have hs := onModules_restored (f := ops.setState) hw.keys hset
    cases hq : Tree.bind v M.modules.norm with
    | none => rfl
    | _ =>
      rw [hq] at hs
      simp only [ModelSer.setState, restored, hs]
  refine ⟨?_, rfl, hready, ?_, ?_, ⟨_, hst, hst' _ rfl rfl hready, hagain⟩, fun _ => rfl⟩
  · obtain ⟨k, hk, hkw⟩ := keyData_eq hw.rng
    obtain ⟨M0, hM0, hkind⟩ : ∃ M0 : Mdl σ A, createModel (kindCls M.kind) = .ok M0 ∧ SameKind M0.kind M.kind := by
      cases M.kind with
      | seq => exact ⟨_, rfl, trivial⟩
      | nonseq o c s => exact ⟨_, rfl, trivial⟩
    obtain ⟨z, hz, hz1, hz2, hz3, hz4⟩ := serialize_ok ops w hw.keys hk hst fun m h => by
      obtain ⟨d, m0, hd, -⟩ := (hm m h).restores
      exact ⟨d, hd⟩
    refine ⟨_, M0, hz, hM0, fun strict hstrict => ?_⟩
    have hzm : ∀ x ∈ z.flat, x.1 ∈ M.modules.norm.flat := by
      intro x hx
      rw [← hz1, Props.flat_map]
      exact List.mem_map_of_mem hx
    obtain ⟨X, hX1, hX2⟩ := read_modules (ops := ops) (canon := canon) (strict := strict) hz3 hz4 fun x hx => by
      obtain ⟨d, m0, hd, h0, h1⟩ := (hmN x.1 (hzm x hx)).restores
      rw [hz2 x hx] at hd
      cases hd
      exact ⟨m0, h0, h1 strict hstrict⟩
    have hcanon : map (fun x : σ × D => canon x.1) z = map canon M.modules.norm := by rw [← hz1, map_map]
    have hstruct : sameStruct (map canon M.modules.norm).norm (map (fun _ => ()) M.modules.norm).norm = true := by
      rw [sameStruct_iff, Tree.norm_map, Tree.norm_map, map_map, map_map]
    show ModelSer.deserialize ops r strict M0 _ = _
    unfold ModelSer.deserialize dataOf
    rw [if_neg (by rintro ⟨h1, h2⟩; exact h1 (hstrict h2).symm)]
    simp only
    rw [hX1]
    simp only
    rw [hX2, hcanon]
    simp only [hstruct, Bool.true_eq_false, if_false]
    rw [opt_restored hw]
    simp only
    rw [ownDeserialize_eq hstrict hw hm hset hkind, hkw]
    rfl
  · show ModelSer.getParams ops (restored canon M) = ModelSer.getParams ops M
    unfold ModelSer.getParams restored
    simp only
    rw [hN, Tree.bind_map]
    exact bind_congr fun m h => (hmN m h).params
  · show ModelSer.setParams ops (restored canon M) (ModelSer.getParams ops M) = _
    unfold ModelSer.setParams ModelSer.getParams
    rw [show (restored canon M).modules = map canon M.modules.norm from rfl, onModules_restored hw.keys fun m h => (hm m h).again]
    rfl

theorem restorable_inl {τ E : Type} {a : Ops σ D} {b : Ops τ E} {ca : σ → σ} {cb : τ → τ} {m : σ} (h : Restorable same a ca m) (hb : ∀ x, b.create (a.cls m) ≠ .ok x) :
    Restorable same (sumOps a b) (Sum.map ca cb) (.inl m) := by
  obtain ⟨⟨d, m0, h1, h2, h3⟩, hc, hr, hp, ha, ⟨v, hv1, hv2, hv3⟩, hu⟩ := h
  refine ⟨⟨.inl d, .inl m0, ?_, ?_, fun s hs => ?_⟩, hc, hr, hp, ?_, ⟨v, hv1, hv2, ?_⟩, fun hn => ?_⟩
  · simp [sumOps, h1, Except.map]
  · show (match b.create (a.cls m) with | .ok x => Except.ok (Sum.inr x) | .error _ => match a.create (a.cls m) with | .ok x => .ok (.inl x) | .error e => .error e) = _
    rw [h2]
    cases hx : b.create (a.cls m) with
    | ok x => exact absurd hx (hb x)
    | error e => rfl
  · simp [sumOps, h3 s hs, Except.map]
  · show (a.setParams (ca m) (a.getParams m)).map Sum.inl = _
    rw [ha]; rfl
  · show (a.setState (ca m) v).map Sum.inl = _
    rw [hv3]; rfl
  · show (a.setState (ca m) .none).map Sum.inl = _
    rw [hu hn]; rfl

theorem restorable_inr {τ E : Type} {a : Ops σ D} {b : Ops τ E} {ca : σ → σ} {cb : τ → τ} {m : τ} (h : Restorable same b cb m) :
    Restorable same (sumOps a b) (Sum.map ca cb) (.inr m) := by
  obtain ⟨⟨d, m0, h1, h2, h3⟩, hc, hr, hp, ha, ⟨v, hv1, hv2, hv3⟩, hu⟩ := h
  refine ⟨⟨.inr d, .inr m0, ?_, ?_, fun s hs => ?_⟩, hc, hr, hp, ?_, ⟨v, hv1, hv2, ?_⟩, fun hn => ?_⟩
  · simp [sumOps, h1, Except.map]
  · show (match b.create (b.cls m) with | .ok x => Except.ok (Sum.inr x) | .error _ => match a.create (b.cls m) with | .ok x => .ok (.inl x) | .error e => .error e) = _
    rw [h2]
  · simp [sumOps, h3 s hs, Except.map]
  · show (b.setParams (cb m) (b.getParams m)).map Sum.inr = _
    rw [ha]; rfl
  · show (b.setState (cb m) v).map Sum.inr = _
    rw [hv3]; rfl
  · show (b.setState (cb m) .none).map Sum.inr = _
    rw [hu hn]; rfl

/-- **C39** Models inside models: whatever the depth, if all base modules come back (their classes not having the names of the two model classes) and all models inside can be written, then the
object comes back with all that is inside. -/
theorem C39_nested (ops : Ops σ D) (w r : Str) (canon : σ → σ) (hc : ∀ m k, ops.cls m ≠ kindCls k) (n : Nat) (x : Obj σ A n) (hx : AllWritable ops w r canon n x) :
    Restorable (w = r) (opsAt ops w r n) (restoredAt canon n) x := by
  induction n with
  | zero => exact hx
  | succ n ih =>
    cases x with
    | inl m =>
      refine restorable_inl hx fun y hy => ?_
      have hy' : (createModel (ops.cls m) : Except PyErr (Mdl (Obj σ A n) A)) = .ok y := hy
      unfold createModel at hy'
      rw [if_neg (hc m _), if_neg (hc m _)] at hy'
      cases hy'
    | inr M => exact restorable_inr (C39_model _ _ _ _ _ hx.1 fun m hm => ih m (hx.2 m hm))

end Props
end Verif
