import Mathlib.Logic.Relation

/-!
# Specification vocabulary for connection graphs

Independent of the algorithm: a connection dictionary is only looked at through the relation "there is an edge".
-/

namespace Verif.GraphSpec

open Relation

variable {α : Type}

/-- The user wrote a connection from `u` to `v`: some entry of the dictionary has key `u` and lists `v`. -/
def Edge (g : List (α × List α)) (u v : α) : Prop := ∃ vs, (u, vs) ∈ g ∧ v ∈ vs

/-- A Python dictionary has no repeated keys. -/
def IsDict (g : List (α × List α)) : Prop := (g.map Prod.fst).Nodup

instance [DecidableEq α] (g : List (α × List α)) : Decidable (IsDict g) :=
  inferInstanceAs (Decidable (g.map Prod.fst).Nodup)

/-- There is a directed route (possibly empty) from `u` to `v`. -/
def Reach (g : List (α × List α)) (u v : α) : Prop := ReflTransGen (Edge g) u v

/-- `v` lies on some route from the model input to the model output. -/
def Useful (g : List (α × List α)) (start fin v : α) : Prop := Reach g start v ∧ Reach g v fin

/-- `v` lies on a directed cycle. -/
def OnCycle (g : List (α × List α)) (v : α) : Prop := TransGen (Edge g) v v

/-- `u` occurs in `order` strictly before some occurrence of `v`, at each occurrence of `v`. -/
def Before (order : List α) (u v : α) : Prop :=
  ∀ pre post, order = pre ++ v :: post → u ∈ pre

/-- `order` is a sound schedule: starts at `start`, ends at `fin`, no repetition, and each scheduled node comes after
all the nodes that feed it. -/
structure SoundSchedule (g : List (α × List α)) (start fin : α) (order : List α) : Prop where
  first : order.head? = some start
  last : order.getLast? = some fin
  nodup : order.Nodup
  producersFirst : ∀ u v, v ∈ order → Edge g u v → Before order u v

/-- The graphs that deserve to be accepted. -/
structure WellFormed (g : List (α × List α)) (start fin : α) : Prop where
  connected : Reach g start fin
  acyclic : ∀ v, Useful g start fin v → ¬ OnCycle g v
  producersFed : ∀ v, Useful g start fin v → ∀ u, Edge g u v → Reach g start u

end Verif.GraphSpec
