import Verif.Lemmas.ModelFile

/-! # The hyperparameters of a saved model -/

namespace Verif
namespace ModelSpec
open Tree Ser ModelSer
open ForwardSpec (KeysOk)

section
variable {σ D A : Type}

theorem serializable_ints (t : Tree Int) : serializable (map Atom.int t) = true := by
  unfold serializable
  simp only [List.any_cons, Bool.or_eq_true, List.all_eq_true]
  left
  intro a ha
  obtain ⟨p, hp⟩ := mem_flat_at.1 ha
  obtain ⟨i, -, rfl⟩ := at_map.1 hp
  rfl

theorem serializable_strs (t : Tree Str) : serializable (map Atom.str t) = true := by
  unfold serializable
  simp only [List.any_cons, Bool.or_eq_true, List.all_eq_true]
  right; right; right; left
  intro a ha
  obtain ⟨p, hp⟩ := mem_flat_at.1 ha
  obtain ⟨i, -, rfl⟩ := at_map.1 hp
  rfl

theorem serializable_order (o : Option (List Str)) : serializable (orderVal o) = true := by
  cases o with
  | none => rfl
  | some l =>
    have : orderVal (some l) = map Atom.str (.list (l.map .leaf)) := by
      simp only [orderVal, map, mapL_eq, List.map_map]
      rfl
    rw [this]
    exact serializable_strs _

theorem kindHyper_all (k : ModelSer.Kind) (M : Mdl σ A) : ((kindHyper k ++ [(HKey.inputShape, map Atom.int M.inShape), (HKey.outputShape, map Atom.int M.outShape)]).filter fun kv => serializable kv.2) =
    kindHyper k ++ [(HKey.inputShape, map Atom.int M.inShape), (HKey.outputShape, map Atom.int M.outShape)] := by
  rw [List.filter_eq_self]
  intro kv hkv
  cases k with
  | seq =>
    simp only [kindHyper, List.nil_append, List.mem_cons, List.not_mem_nil, or_false] at hkv
    rcases hkv with rfl | rfl <;> exact serializable_ints _
  | nonseq o c s =>
    simp only [kindHyper, List.cons_append, List.nil_append, List.mem_cons, List.not_mem_nil, or_false] at hkv
    rcases hkv with rfl | rfl | rfl | rfl | rfl
    · exact serializable_order o
    · exact serializable_strs c
    · rfl
    · exact serializable_ints _
    · exact serializable_ints _

theorem atomInt_map (t : Tree Int) : map atomInt (map Atom.int t) = t := by
  rw [map_map]
  exact map_id t

theorem atomStr_map (t : Tree Str) : map atomStr (map Atom.str t) = t := by
  rw [map_map]
  exact map_id t

theorem valOrder_orderVal (o : Option (List Str)) : valOrder (orderVal o) = o := by
  cases o with
  | none => rfl
  | some l =>
    simp only [orderVal, valOrder, List.map_map, Option.some.injEq]
    exact List.map_id l

/-- The tree of modules after the hyperparameter of that name was set. -/
def keptModules (old : Tree σ) : PyVal → Tree σ
  | .none => old
  | t => recast t

/-- The kind of an object of the same class. -/
def SameKind : ModelSer.Kind → ModelSer.Kind → Prop
  | .seq, .seq => True
  | .nonseq _ _ _, .nonseq _ _ _ => True
  | _, _ => False

/-- The hyperparameters restore shapes and class attributes. -/
theorem setHyper_written (M M0 : Mdl σ A) (hk : SameKind M0.kind M.kind) :
    setHyper M0 (writtenHyper M) = .ok { M0 with
      kind := M.kind
      modules := if M.modules.flat.isEmpty then keptModules M0.modules (recast M.modules) else M0.modules
      inShape := M.inShape
      outShape := M.outShape } := by
  unfold writtenHyper
  rw [kindHyper_all]
  obtain ⟨k0, m0, r0, n0, i0, o0, p0⟩ := M0
  obtain ⟨k, m, r, n, i, o, p⟩ := M
  simp only at hk ⊢
  by_cases he : m.flat.isEmpty
  · cases k with
    | seq =>
      cases k0 with
      | nonseq _ _ _ => cases hk
      | seq =>
        simp only [he, if_true, kindHyper, List.nil_append]
        simp only [setHyper, List.lookup_cons, List.cons_append, List.nil_append, beq_self_eq_true]
        simp only [show (HKey.outputShape == HKey.inputShape) = false from rfl, show (HKey.modules == HKey.inputShape) = false from rfl,
          show (HKey.modules == HKey.outputShape) = false from rfl, atomInt_map, setKind]
        congr
        cases recast (β := Atom) m <;> rfl
    | nonseq or co se =>
      cases k0 with
      | seq => cases hk
      | nonseq or0 co0 se0 =>
        simp only [he, if_true, kindHyper]
        simp only [setHyper, List.lookup_cons, List.cons_append, List.nil_append, beq_self_eq_true]
        simp only [show (HKey.outputShape == HKey.inputShape) = false from rfl, show (HKey.modules == HKey.inputShape) = false from rfl,
          show (HKey.modules == HKey.outputShape) = false from rfl, show (HKey.inputShape == HKey.executionOrder) = false from rfl, show (HKey.inputShape == HKey.connections) = false from rfl,
          show (HKey.inputShape == HKey.separator) = false from rfl, show (HKey.outputShape == HKey.executionOrder) = false from rfl, show (HKey.outputShape == HKey.connections) = false from rfl,
          show (HKey.outputShape == HKey.separator) = false from rfl, show (HKey.modules == HKey.executionOrder) = false from rfl, show (HKey.modules == HKey.connections) = false from rfl,
          show (HKey.modules == HKey.separator) = false from rfl, atomInt_map]
        congr
        · simp only [setKind, List.lookup_cons, beq_self_eq_true, show (HKey.connections == HKey.executionOrder) = false from rfl, show (HKey.separator == HKey.executionOrder) = false from rfl,
            show (HKey.separator == HKey.connections) = false from rfl, Option.map_some, Option.getD_some, valOrder_orderVal, atomStr_map, valSep]
        · cases recast (β := Atom) m <;> rfl
  · cases k with
    | seq =>
      cases k0 with
      | nonseq _ _ _ => cases hk
      | seq =>
        simp only [if_neg he, kindHyper, List.nil_append, List.append_nil]
        simp only [setHyper, List.lookup_cons, List.lookup_nil, beq_self_eq_true]
        simp only [show (HKey.outputShape == HKey.inputShape) = false from rfl, show (HKey.modules == HKey.inputShape) = false from rfl,
          show (HKey.modules == HKey.outputShape) = false from rfl, atomInt_map, setKind]
    | nonseq or co se =>
      cases k0 with
      | seq => cases hk
      | nonseq or0 co0 se0 =>
        simp only [if_neg he, kindHyper, List.append_nil]
        simp only [setHyper, List.lookup_cons, List.lookup_nil, List.cons_append, List.nil_append, beq_self_eq_true]
        simp only [show (HKey.outputShape == HKey.inputShape) = false from rfl, show (HKey.modules == HKey.inputShape) = false from rfl,
          show (HKey.modules == HKey.outputShape) = false from rfl, show (HKey.inputShape == HKey.executionOrder) = false from rfl, show (HKey.inputShape == HKey.connections) = false from rfl,
          show (HKey.inputShape == HKey.separator) = false from rfl, show (HKey.outputShape == HKey.executionOrder) = false from rfl, show (HKey.outputShape == HKey.connections) = false from rfl,
          show (HKey.outputShape == HKey.separator) = false from rfl, show (HKey.modules == HKey.executionOrder) = false from rfl, show (HKey.modules == HKey.connections) = false from rfl,
          show (HKey.modules == HKey.separator) = false from rfl, atomInt_map]
        congr
        simp only [setKind, List.lookup_cons, beq_self_eq_true, show (HKey.connections == HKey.executionOrder) = false from rfl, show (HKey.separator == HKey.executionOrder) = false from rfl,
            show (HKey.separator == HKey.connections) = false from rfl, Option.map_some, Option.getD_some, valOrder_orderVal, atomStr_map, valSep]

end
end ModelSpec
end Verif
