import Verif.Lemmas.GraphMain

/-!
# Properties of connection-graph resolution (C01-C04)

`resolve` models `resolve_connections`. The hypothesis `IsDict g` says that the connections form a Python dictionary.
The hypothesis that nothing feeds `start` is guaranteed by the callers, which reject the model input as a target
(graph_util.py:378-534); `C01_needs_unfed_input` shows that it cannot be dropped.
-/

namespace Verif.Props

open Verif.Graph Verif.GraphSpec

variable {α : Type} [DecidableEq α]

/-- A diamond with a side branch that leads nowhere: `0` is the input, `9` the output, `7` is useless. -/
def demo : Graph Nat := [(0, [1, 2]), (1, [3, 7]), (2, [3]), (3, [9]), (7, [])]

theorem demo_dict : IsDict demo := by decide
theorem demo_start : ∀ u, ¬ Edge demo u 0 := by
  rintro u ⟨vs, h1, h2⟩
  simp only [demo, List.mem_cons, Prod.mk.injEq, List.not_mem_nil, or_false] at h1
  rcases h1 with ⟨_, rfl⟩ | ⟨_, rfl⟩ | ⟨_, rfl⟩ | ⟨_, rfl⟩ | ⟨_, rfl⟩ <;> simp at h2

/-- **C01** An accepted connection graph yields a sound schedule. -/
theorem C01_sound_schedule (g : Graph α) (start fin : α) (hdict : IsDict g)
    (hunfed : ∀ u, ¬ Edge g u start) (order visited : List α)
    (h : resolve g start fin = .ok (order, visited)) : SoundSchedule g start fin order :=
  (resolve_ok hdict hunfed h).1

example : IsDict demo ∧ (∀ u, ¬ Edge demo u 0) ∧ resolve demo 0 9 = .ok ([0, 1, 2, 3, 9], [9, 3, 2, 0, 1]) :=
  ⟨demo_dict, demo_start, by decide⟩

/-- **C01, necessity of the hypothesis**: with a connection *into* the start node the function can return an order that
lists a node twice and misses a useful one. -/
theorem C01_needs_unfed_input :
    resolve (α := Nat) [(0, [1, 9, 2]), (1, [0]), (2, [9]), (3, [2]), (4, [2])] 0 9
      = .ok ([0, 1, 0, 9], [9, 2, 4, 3, 0, 1]) := by decide

/-- **C02** No route from input to output: resolving raises an error (and ends). -/
theorem C02_disconnected_rejected (g : Graph α) (start fin : α) (hdict : IsDict g)
    (hunfed : ∀ u, ¬ Edge g u start) (h : ¬ Reach g start fin) :
    ∃ e, e ≠ Err.timeout ∧ resolve g start fin = .error e := by
  cases hr : resolve g start fin with
  | error e => exact ⟨e, fun he => resolve_terminates g start fin (he ▸ hr), rfl⟩
  | ok p => exact absurd (wellFormed_of_ok hdict hunfed (order := p.1) (rev := p.2) hr).connected h

example : ∃ e, resolve (α := Nat) [(0, [1]), (2, [9])] 0 9 = .error e := ⟨.wrongLength, by decide⟩

/-- **C02** A useful module on a directed cycle: resolving raises an error (and ends). -/
theorem C02_cycle_rejected (g : Graph α) (start fin v : α) (hdict : IsDict g)
    (hunfed : ∀ u, ¬ Edge g u start) (huse : Useful g start fin v) (hcyc : OnCycle g v) :
    ∃ e, e ≠ Err.timeout ∧ resolve g start fin = .error e := by
  cases hr : resolve g start fin with
  | error e => exact ⟨e, fun he => resolve_terminates g start fin (he ▸ hr), rfl⟩
  | ok p => exact absurd hcyc ((wellFormed_of_ok hdict hunfed (order := p.1) (rev := p.2) hr).acyclic v huse)

example : let g : Graph Nat := [(0, [1]), (1, [2, 9]), (2, [1])]
    IsDict g ∧ Useful g 0 9 1 ∧ OnCycle g 1 ∧ resolve g 0 9 = .error .wrongLength := by
  refine ⟨by decide, ⟨?_, ?_⟩, ?_, by decide⟩
  · exact .single ⟨[1], by simp, by simp⟩
  · exact .single ⟨[2, 9], by simp, by simp⟩
  · exact .tail (.single (b := 2) ⟨[2, 9], by simp, by simp⟩) ⟨[1], by simp, by simp⟩

/-- **C02** Resolution always ends, whatever the graph. -/
theorem C02_terminates (g : Graph α) (start fin : α) : resolve g start fin ≠ .error Err.timeout :=
  resolve_terminates g start fin

/-- **C03** Connections are accepted exactly when they are well formed, ... -/
theorem C03_accepted_iff (g : Graph α) (start fin : α) (hdict : IsDict g) (hunfed : ∀ u, ¬ Edge g u start) :
    (∃ order visited, resolve g start fin = .ok (order, visited)) ↔ WellFormed g start fin :=
  ⟨fun ⟨_, _, h⟩ => wellFormed_of_ok hdict hunfed h, ok_of_wellFormed hdict hunfed⟩

/-- **C03** ... and then exactly the useful modules are scheduled. -/
theorem C03_scheduled_iff_useful (g : Graph α) (start fin : α) (hdict : IsDict g)
    (hunfed : ∀ u, ¬ Edge g u start) (order visited : List α)
    (h : resolve g start fin = .ok (order, visited)) (v : α) : v ∈ order ↔ Useful g start fin v :=
  (resolve_ok hdict hunfed h).2.1 v

/-- **C03** A producer that is itself never fed from the input makes the model be rejected. -/
theorem C03_dangling_producer_rejected (g : Graph α) (start fin u v : α) (hdict : IsDict g)
    (hunfed : ∀ u, ¬ Edge g u start) (huse : Useful g start fin v) (hedge : Edge g u v)
    (hdangling : ¬ Reach g start u) : ∃ e, resolve g start fin = .error e := by
  cases hr : resolve g start fin with
  | error e => exact ⟨e, rfl⟩
  | ok p =>
    exact absurd ((wellFormed_of_ok hdict hunfed (order := p.1) (rev := p.2) hr).producersFed v huse u hedge) hdangling

example : resolve (α := Nat) [(0, [1]), (1, [9]), (5, [1])] 0 9 = .error .wrongLength := by decide
example : WellFormed demo 0 9 :=
  (C03_accepted_iff demo 0 9 demo_dict demo_start).1 ⟨[0, 1, 2, 3, 9], [9, 3, 2, 0, 1], by decide⟩

/-- **C04** Acceptance and the set of scheduled modules depend only on the set of edges, not on the order in which the
dictionary and its target lists were written (nor on repeated targets). -/
theorem C04_order_independent (g₁ g₂ : Graph α) (start fin : α) (h₁ : IsDict g₁) (h₂ : IsDict g₂)
    (hunfed : ∀ u, ¬ Edge g₁ u start) (same : ∀ u v, Edge g₁ u v ↔ Edge g₂ u v) :
    ((∃ o v, resolve g₁ start fin = .ok (o, v)) ↔ (∃ o v, resolve g₂ start fin = .ok (o, v))) ∧
    (∀ o₁ v₁ o₂ v₂, resolve g₁ start fin = .ok (o₁, v₁) → resolve g₂ start fin = .ok (o₂, v₂) → o₁.Perm o₂) := by
  have hE : Edge g₁ = Edge g₂ := by funext u v; exact propext (same u v)
  have hunfed₂ : ∀ u, ¬ Edge g₂ u start := hE ▸ hunfed
  have hR : Reach g₁ = Reach g₂ := by unfold Reach; rw [hE]
  have hU : Useful g₁ = Useful g₂ := by unfold Useful; rw [hR]
  have hC : OnCycle g₁ = OnCycle g₂ := by unfold OnCycle; rw [hE]
  refine ⟨?_, ?_⟩
  · rw [C03_accepted_iff g₁ start fin h₁ hunfed, C03_accepted_iff g₂ start fin h₂ hunfed₂]
    constructor
    · rintro ⟨a, b, c⟩; exact ⟨hR ▸ a, by rw [← hU, ← hC]; exact b, by rw [← hU, ← hE, ← hR]; exact c⟩
    · rintro ⟨a, b, c⟩; exact ⟨hR ▸ a, by rw [hU, hC]; exact b, by rw [hU, hE, hR]; exact c⟩
  · intro o₁ v₁ o₂ v₂ r₁ r₂
    rw [List.perm_ext_iff_of_nodup (resolve_ok h₁ hunfed r₁).1.nodup (resolve_ok h₂ hunfed₂ r₂).1.nodup]
    intro a
    rw [(resolve_ok h₁ hunfed r₁).2.1, (resolve_ok h₂ hunfed₂ r₂).2.1, hU]

/-- The same diamond written in another order, with a repeated target. -/
example : let g₂ : Graph Nat := [(7, []), (3, [9, 9]), (2, [3]), (1, [7, 3]), (0, [2, 1])]
    IsDict g₂ ∧ resolve g₂ 0 9 = .ok ([0, 2, 1, 3, 9], [9, 3, 1, 0, 2]) := by
  intro g₂; exact ⟨by decide, by decide⟩

end Verif.Props
