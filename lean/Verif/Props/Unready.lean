import Verif.Props.Edit
import Verif.Spec.Unready

/-!
# C97: the reason in the message of a model that is not ready
-/

namespace Verif.Props
open Verif Verif.Edit Verif.EditSpec

variable {M S : Type}

/-- Whatever the model: the reason is true of it. In particular a list of modules in the message is the complete list of the
modules that are not ready. -/
theorem C97_true (sig : Sig M S) (w : World M S) (xs : List Nat) (hx : Holds w.mdl.modules xs) :
    Says (fun i => sig.ready (w.heap i) = true) xs w.mdl.inShape w.mdl.outShape (unreadyReason sig w) := by
  have hp := jaxLeaves_holds hx
  unfold unreadyReason
  split
  · rename_i h
    rw [hp.length_eq] at h
    exact List.length_eq_zero_iff.1 h
  · split
    · rename_i _ h
      refine ⟨List.length_pos_iff.1 h, fun i => ?_⟩
      simp [unreadyModules, hp.mem_iff]
    · split
      · rename_i h; exact Option.isNone_iff_eq_none.1 h
      · split
        · rename_i h; exact Option.isNone_iff_eq_none.1 h
        · trivial

example : unreadyReason editSig ⟨fun i => if i = 1 then some 3 else none, init (.list [.leaf 0, .leaf 1, .leaf 2])⟩ =
    .unready [0, 2] := by decide +kernel

/-- A module is listed as often as the model has it. -/
theorem C97_listed (sig : Sig M S) (w : World M S) (xs l : List Nat) (hx : Holds w.mdl.modules xs)
    (h : unreadyReason sig w = .unready l) (i : Nat) (hi : sig.ready (w.heap i) = false) : l.count i = xs.count i := by
  have hl : l = unreadyModules sig w := by
    unfold unreadyReason at h
    split at h
    · cases h
    · split at h
      · exact (Reason.unready.inj h).symm
      · split at h
        · cases h
        · split at h <;> cases h
  subst hl
  rw [← (jaxLeaves_holds hx).count_eq, unreadyModules, List.count_filter]
  simp [hi]

example : unreadyReason editSig ⟨fun _ => none, init (.tuple [.leaf 4, .leaf 4])⟩ = .unready [4, 4] := by decide +kernel

/-- A sequential model that is not ready always says why: the message is "Unknown reason." in no state. -/
theorem C97_sequential (sig : Sig M S) (w : World M S) :
    (isReady sig .sequential w = true ↔ unreadyReason sig w = .unknown) ∧ refusal sig .sequential w ≠ some .unknown := by
  have h1 : isReady sig .sequential w = true ↔ unreadyReason sig w = .unknown := by
    have hf : (unreadyModules sig w).length = 0 ↔ (w.mdl.modules.jaxLeaves.all fun i => sig.ready (w.heap i)) = true := by
      rw [List.length_eq_zero_iff, unreadyModules, List.filter_eq_nil_iff, List.all_eq_true]
      simp
    simp only [isReady, Bool.and_eq_true, decide_eq_true_eq, ← hf, unreadyReason]
    by_cases a : w.mdl.modules.jaxLeaves.length = 0
    · simp [a]
    · by_cases b : (unreadyModules sig w).length = 0
      · cases hi : w.mdl.inShape <;> cases ho : w.mdl.outShape <;> simp [a, b] <;> omega
      · have : 0 < (unreadyModules sig w).length := by omega
        simp [a, b, this]
  refine ⟨h1, fun hg => ?_⟩
  unfold refusal at hg
  split at hg
  · rename_i hr
    rw [h1.2 (Option.some.inj hg)] at hr; cases hr
  · cases hg

/-- A call raises a `RuntimeError` exactly if there is a reason. -/
theorem C97_call (sig : Sig M S) (kind : Kind) (w : World M S) (s : S) :
    (call sig kind w s).2 = .error .runtimeError ↔ ∃ r, refusal sig kind w = some r := by
  cases hr : isReady sig kind w with
  | false => simp [(C25_call_guards sig kind w s).1 hr, refusal, hr]
  | true =>
    simp only [refusal, hr]
    refine ⟨fun hc => ?_, fun ⟨r, h⟩ => by simp at h⟩
    unfold call at hc
    simp only [hr] at hc
    cases hi : w.mdl.inShape with
    | none => simp [hi] at hc
    | some s0 =>
      cases he : sig.shapeEq s0 s with
      | false => simp [hi, he] at hc
      | true => cases hcl : w.mdl.callable <;> simp [hi, he, hcl] at hc

example : unreadyReason editSig1 (run editSig1 .sequential ⟨fun _ => none, init (.list [.leaf 0])⟩ [.compile 3]) = .unknown ∧
    unreadyReason editSig1 (run editSig1 .sequential ⟨fun _ => some 3, init (.list [.leaf 0])⟩ []) = .noInputShape ∧
    unreadyReason editSig1 (run editSig1 .sequential ⟨fun _ => some 3, init (.list [.leaf 0])⟩ [.compile 4]) = .noOutputShape := by
  decide +kernel

/-- What holds in every history of a graph model: an order is set as soon as an input shape is, and it consists of modules of
the model. -/
theorem unready_inv (sig : Sig M S) (hs : ∀ t ids, sig.schedule t = .ok ids → ∀ i ∈ ids, i ∈ t.jaxLeaves) (w : World M S)
    (h0 : w.mdl.order = none → w.mdl.inShape = none)
    (h1 : ∀ ids, w.mdl.order = some ids → ∀ i ∈ ids, i ∈ w.mdl.modules.jaxLeaves) (ops : List (Op S)) :
    ((run sig .nonSequential w ops).mdl.order = none → (run sig .nonSequential w ops).mdl.inShape = none) ∧
    ∀ ids, (run sig .nonSequential w ops).mdl.order = some ids →
      ∀ i ∈ ids, i ∈ (run sig .nonSequential w ops).mdl.modules.jaxLeaves := by
  induction ops generalizing w with
  | nil => exact ⟨h0, h1⟩
  | cons o ops ih =>
    have hr : run sig .nonSequential w (o :: ops) = run sig .nonSequential (step sig .nonSequential w o) ops := rfl
    rw [hr]
    cases o with
    | edit o =>
      apply ih
      · intro _
        simp only [step, edit]
        split <;> rfl
      · intro ids h
        simp only [step, edit] at h
        split at h <;> simp [reset] at h
    | reset => exact ih _ (fun _ => rfl) (fun ids h => by simp [step, reset] at h)
    | compile s =>
      simp only [step, compile, nsCompile]
      split
      · cases w.mdl.inShape with
        | none => exact ih w h0 h1
        | some s0 =>
          simp only
          split <;> exact ih w h0 h1
      · cases hsc : sig.schedule w.mdl.modules with
        | error e => exact ih w h0 h1
        | ok ids =>
          have k : ∀ ids', (some ids : Option (List Nat)) = some ids' → ∀ i ∈ ids', i ∈ w.mdl.modules.jaxLeaves := by
            intro ids' h; cases h; exact hs _ _ hsc
          simp only
          cases sig.progression w.heap ids s with
          | error e => exact ih _ (fun h => by simp at h) k
          | ok p =>
            obtain ⟨ins, out⟩ := p
            simp only
            split
            · exact ih _ (fun h => by simp at h) k
            · exact ih _ (fun h => by simp at h) k
    | call s =>
      simp only [step, call]
      split
      · exact ih w h0 h1
      · split
        · exact ih w h0 h1
        · split
          · exact ih w h0 h1
          · split
            · exact ih w h0 h1
            · exact ih _ h0 h1

/-- In every history of a new graph model the message is "Unknown reason." only if the model is ready, that is never. The
modules that `compile` schedules are modules of the model. -/
theorem C97_graph_partial (sig : Sig M S) (hs : ∀ t ids, sig.schedule t = .ok ids → ∀ i ∈ ids, i ∈ t.jaxLeaves)
    (h : Nat → M) (t : Tree Nat) (ops : List (Op S)) (r : Reason)
    (hg : refusal sig .nonSequential (run sig .nonSequential ⟨h, init t⟩ ops) = some r) : r ≠ .unknown := by
  obtain ⟨i0, i1⟩ := unready_inv sig hs ⟨h, init t⟩ (fun _ => rfl) (fun ids h => by simp [init, reset] at h) ops
  revert i0 i1 hg
  generalize run sig .nonSequential ⟨h, init t⟩ ops = w
  intro hg i0 i1
  unfold refusal at hg
  split at hg
  · rename_i hr
    rw [Option.some.injEq] at hg
    subst hg
    intro hu
    rw [Bool.not_eq_true'] at hr
    have hall := (C97_sequential sig w).1.2 hu
    simp only [isReady, Bool.and_eq_true, List.all_eq_true] at hall
    obtain ⟨⟨⟨_, a⟩, b⟩, c⟩ := hall
    cases ho : w.mdl.order with
    | none => rw [i0 ho] at b; cases b
    | some ids =>
      have : isReady sig .nonSequential w = true := by
        simp only [isReady, ho, b, c, Bool.and_true, List.all_eq_true]
        exact fun i hi => a i (i1 ids ho i hi)
      rw [this] at hr; cases hr
  · cases hg

/-- A module class for the refutation: as in the other examples, but only the first module is scheduled. -/
def unreadySig : Sig (Option Nat) Nat := { editSig with schedule := fun t => .ok (t.jaxLeaves.take 1) }

example : ∀ t ids, unreadySig.schedule t = .ok ids → ∀ i ∈ ids, i ∈ t.jaxLeaves := by
  intro t ids h i hi
  cases h
  exact List.mem_of_mem_take hi
example : refusal unreadySig .nonSequential ⟨fun _ => none, init (.dict [("a".toList, .leaf 0)])⟩ = some (.unready [0]) := by
  decide +kernel

/-- For graph models the message can name modules that have nothing to do with it: here the only module that is listed is not
used, the model becomes ready without it, and it is still not ready then. Likewise a graph model without modules, which says
that it has no modules, becomes ready without any. -/
theorem C97_graph_cause_refuted :
    ∃ (h : Nat → Option Nat) (t : Tree Nat),
      refusal unreadySig .nonSequential ⟨h, init t⟩ = some (.unready [1]) ∧
      refusal unreadySig .nonSequential (run unreadySig .nonSequential ⟨h, init t⟩ [.compile 3]) = none ∧
      unreadySig.ready ((run unreadySig .nonSequential ⟨h, init t⟩ [.compile 3]).heap 1) = false ∧
      refusal unreadySig .nonSequential ⟨h, init (.dict [])⟩ = some .noModules ∧
      refusal unreadySig .nonSequential (run unreadySig .nonSequential ⟨h, init (.dict [])⟩ [.compile 3]) = none :=
  ⟨fun i => if i = 0 then some 3 else none, .dict [("a".toList, .leaf 0), ("b".toList, .leaf 1)], by decide +kernel⟩

end Verif.Props
