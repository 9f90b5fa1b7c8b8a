import Verif.Model.Graph
import Verif.Spec.Graph
import Mathlib.Data.List.Nodup
import Mathlib.Algebra.Order.BigOperators.Group.List
import Mathlib.Algebra.Order.Ring.Nat
import Mathlib.Data.List.Perm.Subperm
import Mathlib.Data.Fintype.EquivFin
import Mathlib.Order.WellFounded
import Mathlib.Order.Preorder.Finite
import Mathlib.Data.Fintype.Order

namespace Verif.Graph

open Relation GraphSpec

variable {α : Type} [DecidableEq α]

/-! ## edges, neighbours -/

theorem mem_edges {g : Graph α} {u v : α} : (u, v) ∈ edges g ↔ Edge g u v := by
  unfold edges Edge
  simp only [List.mem_flatMap, List.mem_map, Prod.mk.injEq, Prod.exists]
  constructor
  · rintro ⟨a, b, h, c, hc, rfl, rfl⟩; exact ⟨b, h, hc⟩
  · rintro ⟨vs, h, hv⟩; exact ⟨u, vs, h, v, hv, rfl, rfl⟩

theorem nbrs_nil (u : α) : nbrs ([] : Graph α) u = [] := rfl

theorem nbrs_cons (p : α × List α) (g : Graph α) (u : α) :
    nbrs (p :: g) u = if u = p.1 then p.2 else nbrs g u := by
  unfold nbrs
  rw [List.lookup_cons]
  by_cases h : u = p.1
  · simp [h]
  · have : (u == p.1) = false := by simpa using h
    simp [this, h]

theorem edges_cons (p : α × List α) (g : Graph α) :
    edges (p :: g) = p.2.map (fun v => (p.1, v)) ++ edges g := rfl

theorem nbrs_subset {g : Graph α} {u v : α} (h : v ∈ nbrs g u) : Edge g u v := by
  induction g with
  | nil => simp [nbrs_nil] at h
  | cons p g ih =>
    rw [nbrs_cons] at h
    split at h
    · next e => exact ⟨p.2, by simp [e], h⟩
    · obtain ⟨vs, h1, h2⟩ := ih h
      exact ⟨vs, List.mem_cons_of_mem _ h1, h2⟩

theorem mem_nbrs {g : Graph α} (hd : IsDict g) {u v : α} : v ∈ nbrs g u ↔ Edge g u v := by
  refine ⟨nbrs_subset, ?_⟩
  rintro ⟨vs, h1, h2⟩
  induction g with
  | nil => simp at h1
  | cons p g ih =>
    rw [nbrs_cons]
    unfold IsDict at hd
    simp only [List.map_cons, List.nodup_cons] at hd
    rcases List.mem_cons.1 h1 with h | h
    · simp [← h, h2]
    · have : u ≠ p.1 := by
        rintro rfl
        exact hd.1 (List.mem_map.2 ⟨(p.1, vs), h, rfl⟩)
      simp only [this, if_false]
      exact ih hd.2 h

/-! ## in-degree and reverse graph -/

theorem inDegree_fold (es : List (α × α)) (d : α → Int) (v : α) :
    es.foldl (fun d e => upd d e.2 (d e.2 + 1)) d v = d v + ((es.map Prod.snd).count v : Int) := by
  induction es generalizing d with
  | nil => simp
  | cons e es ih =>
    simp only [List.foldl_cons, List.map_cons]
    rw [ih, List.count_cons]
    unfold upd
    by_cases h : v = e.2
    · subst h; simp; omega
    · have : ¬ e.2 = v := fun h' => h h'.symm
      simp [h, this]

theorem inDegree_eq (g : Graph α) (v : α) :
    inDegree g v = (((edges g).map Prod.snd).count v : Int) := by
  unfold inDegree; rw [inDegree_fold]; simp

theorem reverse_fold (es : List (α × α)) (r : α → List α) (v : α) :
    es.foldl (fun r e => upd r e.2 (r e.2 ++ [e.1])) r v
      = r v ++ (es.filter (fun e => e.2 = v)).map Prod.fst := by
  induction es generalizing r with
  | nil => simp
  | cons e es ih =>
    simp only [List.foldl_cons]
    rw [ih, List.filter_cons]
    unfold upd
    by_cases h : v = e.2
    · subst h; simp
    · have : ¬ e.2 = v := fun h' => h h'.symm
      simp [h, this]

theorem reverseGraph_eq (g : Graph α) (v : α) :
    reverseGraph g v = ((edges g).filter (fun e => e.2 = v)).map Prod.fst := by
  unfold reverseGraph; rw [reverse_fold]; simp

theorem mem_reverseGraph {g : Graph α} {u v : α} : u ∈ reverseGraph g v ↔ Edge g u v := by
  rw [reverseGraph_eq, ← mem_edges]
  simp

/-! ## depth-first search -/

theorem mem_pushAll {visited stack ws : List α} {x : α} :
    x ∈ pushAll visited stack ws ↔ x ∈ stack ∨ (x ∈ ws ∧ x ∉ visited) := by
  induction ws generalizing stack with
  | nil => simp [pushAll]
  | cons w ws ih =>
    simp only [pushAll, ih]
    split
    · next h =>
      constructor
      · rintro (h1 | h1)
        · exact .inl h1
        · exact .inr ⟨List.mem_cons_of_mem _ h1.1, h1.2⟩
      · rintro (h1 | ⟨h1, h2⟩)
        · exact .inl h1
        · rcases List.mem_cons.1 h1 with rfl | h1
          · exact absurd h h2
          · exact .inr ⟨h1, h2⟩
    · next h =>
      simp only [List.mem_cons]
      constructor
      · rintro ((rfl | h1) | h1)
        · exact .inr ⟨.inl rfl, h⟩
        · exact .inl h1
        · exact .inr ⟨.inr h1.1, h1.2⟩
      · rintro (h1 | ⟨rfl | h1, h2⟩)
        · exact .inl (.inr h1)
        · exact .inl (.inl rfl)
        · exact .inr ⟨h1, h2⟩

theorem length_pushAll (visited stack ws : List α) :
    (pushAll visited stack ws).length ≤ stack.length + ws.length := by
  induction ws generalizing stack with
  | nil => simp [pushAll]
  | cons w ws ih =>
    simp only [pushAll]
    refine (ih _).trans ?_
    split <;> simp <;> omega

omit [DecidableEq α] in
theorem length_filter_split (ps : List (α × α)) (p q r : α × α → Bool)
    (h : ∀ x, p x = true → (q x = true ∨ r x = true)) (hd : ∀ x, ¬ (q x = true ∧ r x = true))
    (hq : ∀ x, q x = true → p x = true) (hr : ∀ x, r x = true → p x = true) :
    (ps.filter p).length = (ps.filter q).length + (ps.filter r).length := by
  induction ps with
  | nil => simp
  | cons a ps ih =>
    simp only [List.filter_cons]
    have h1 := h a; have h2 := hd a; have h3 := hq a; have h4 := hr a
    cases hp : p a <;> cases hq' : q a <;> cases hr' : r a <;> simp_all <;> omega

/-- The search never runs out of fuel. -/
theorem dfs_isSome (adj : α → List α) (ps : List (α × α))
    (hadj : ∀ u, (adj u).length ≤ (ps.filter (fun e => decide (e.1 = u))).length) :
    ∀ (f : Nat) (visited stack : List α),
      stack.length + (ps.filter (fun e => decide (e.1 ∉ visited))).length < f →
      ∃ r, dfs adj f visited stack = some r := by
  intro f
  induction f with
  | zero => intro _ _ h; omega
  | succ f ih =>
    intro visited stack h
    cases stack with
    | nil => exact ⟨_, rfl⟩
    | cons node stack =>
      simp only [dfs]
      split
      · next hv =>
        apply ih
        simp only [List.length_cons] at h
        omega
      · next hv =>
        apply ih
        have h1 := length_pushAll (visited ++ [node]) stack (adj node)
        have h2 := hadj node
        have h3 := length_filter_split ps (fun e => decide (e.1 ∉ visited))
          (fun e => decide (e.1 ∉ visited ++ [node])) (fun e => decide (e.1 = node))
          (by intro x; by_cases hx : x.1 = node <;> simp [hx])
          (by intro x; simp) (by intro x; simp; tauto) (by intro x; simp; rintro rfl; exact hv)
        simp only [List.length_cons] at h
        omega

/-- Loop invariant of the search. -/
structure DfsInv (adj : α → List α) (start : α) (visited stack : List α) : Prop where
  nodup : visited.Nodup
  sound : ∀ x, x ∈ visited ∨ x ∈ stack → ReflTransGen (fun u v => v ∈ adj u) start x
  start_mem : start ∈ visited ∨ start ∈ stack
  closed : ∀ u ∈ visited, ∀ w ∈ adj u, w ∈ visited ∨ w ∈ stack

theorem dfs_inv (adj : α → List α) (start : α) :
    ∀ (f : Nat) (visited stack r : List α), DfsInv adj start visited stack →
      dfs adj f visited stack = some r → DfsInv adj start r [] := by
  intro f
  induction f with
  | zero => intro _ _ _ _ h; simp [dfs] at h
  | succ f ih =>
    intro visited stack r hi h
    cases stack with
    | nil => simp only [dfs, Option.some.injEq] at h; subst h; exact hi
    | cons node stack =>
      simp only [dfs] at h
      split at h
      · next hv =>
        refine ih _ _ _ ?_ h
        refine ⟨hi.nodup, ?_, ?_, ?_⟩
        · rintro x (hx | hx)
          · exact hi.sound x (.inl hx)
          · exact hi.sound x (.inr (List.mem_cons_of_mem _ hx))
        · rcases hi.start_mem with h1 | h1
          · exact .inl h1
          · rcases List.mem_cons.1 h1 with rfl | h1
            · exact .inl hv
            · exact .inr h1
        · intro u hu w hw
          rcases hi.closed u hu w hw with h1 | h1
          · exact .inl h1
          · rcases List.mem_cons.1 h1 with rfl | h1
            · exact .inl hv
            · exact .inr h1
      · next hv =>
        refine ih _ _ _ ?_ h
        have hnode := hi.sound node (.inr (List.mem_cons_self ..))
        refine ⟨?_, ?_, ?_, ?_⟩
        · rw [List.nodup_append]
          refine ⟨hi.nodup, by simp, ?_⟩
          intro a ha b hb
          simp only [List.mem_singleton] at hb
          subst hb; rintro rfl; exact hv ha
        · intro x hx
          rw [List.mem_append, List.mem_singleton, mem_pushAll] at hx
          rcases hx with (hx | rfl) | hx | hx
          · exact hi.sound x (.inl hx)
          · exact hnode
          · exact hi.sound x (.inr (List.mem_cons_of_mem _ hx))
          · exact hnode.tail hx.1
        · rw [List.mem_append, List.mem_singleton, mem_pushAll]
          rcases hi.start_mem with h1 | h1
          · exact .inl (.inl h1)
          · rcases List.mem_cons.1 h1 with h1 | h1
            · exact .inl (.inr h1)
            · exact .inr (.inl h1)
        · intro u hu w hw
          rw [List.mem_append, List.mem_singleton, mem_pushAll, List.mem_append, List.mem_singleton]
          rw [List.mem_append, List.mem_singleton] at hu
          rcases hu with hu | rfl
          · rcases hi.closed u hu w hw with h1 | h1
            · exact .inl (.inl h1)
            · rcases List.mem_cons.1 h1 with h1 | h1
              · exact .inl (.inr h1)
              · exact .inr (.inl h1)
          · by_cases hwv : w ∈ visited ∨ w = u
            · exact .inl hwv
            · exact .inr (.inr ⟨hw, hwv⟩)

theorem dfs_spec (adj : α → List α) (start : α) (f : Nat) (r : List α)
    (h : dfs adj f [] [start] = some r) :
    r.Nodup ∧ ∀ x, x ∈ r ↔ ReflTransGen (fun u v => v ∈ adj u) start x := by
  have hi := dfs_inv adj start f [] [start] r
    ⟨List.nodup_nil, by intro x; simp only [List.mem_singleton, List.not_mem_nil, false_or]; rintro rfl; exact .refl,
      by simp, by simp⟩ h
  refine ⟨hi.nodup, fun x => ⟨fun hx => hi.sound x (.inl hx), ?_⟩⟩
  intro hx
  induction hx with
  | refl => simpa using hi.start_mem
  | tail _ hbc ih => simpa using hi.closed _ ih _ hbc

theorem length_nbrs_le (g : Graph α) (u : α) :
    (nbrs g u).length ≤ ((edges g).filter (fun e => decide (e.1 = u))).length := by
  induction g with
  | nil => simp [nbrs_nil]
  | cons p g ih =>
    rw [nbrs_cons, edges_cons, List.filter_append, List.length_append]
    split
    · next h =>
      have : (List.filter (fun e : α × α => decide (e.1 = u)) (p.2.map (fun v => (p.1, v)))).length = p.2.length := by
        rw [List.filter_eq_self.2]
        · simp
        · simp [h]
      omega
    · omega

theorem length_reverse_le (g : Graph α) (u : α) :
    (reverseGraph g u).length ≤ (((edges g).map Prod.swap).filter (fun e => decide (e.1 = u))).length := by
  rw [reverseGraph_eq, List.filter_map, List.length_map, List.length_map]
  exact le_of_eq rfl

theorem dfs_fwd (g : Graph α) (hd : IsDict g) (start : α) :
    ∃ r, dfs (nbrs g) (fuel g) [] [start] = some r ∧ r.Nodup ∧ ∀ x, x ∈ r ↔ Reach g start x := by
  obtain ⟨r, hr⟩ := dfs_isSome (nbrs g) (edges g) (length_nbrs_le g) (fuel g) [] [start]
    (by simp [fuel]; omega)
  refine ⟨r, hr, ?_⟩
  have := dfs_spec _ _ _ _ hr
  refine ⟨this.1, fun x => (this.2 x).trans ?_⟩
  have he : (fun u v => v ∈ nbrs g u) = Edge g := by
    funext u v; exact propext (mem_nbrs hd)
  rw [he]; rfl

theorem dfs_bwd (g : Graph α) (fin : α) :
    ∃ r, dfs (reverseGraph g) (fuel g) [] [fin] = some r ∧ r.Nodup ∧ ∀ x, x ∈ r ↔ Reach g x fin := by
  obtain ⟨r, hr⟩ := dfs_isSome (reverseGraph g) ((edges g).map Prod.swap) (length_reverse_le g) (fuel g) [] [fin]
    (by simp [fuel]; omega)
  refine ⟨r, hr, ?_⟩
  have := dfs_spec _ _ _ _ hr
  refine ⟨this.1, fun x => (this.2 x).trans ?_⟩
  have he : (fun u v => v ∈ reverseGraph g u) = Function.swap (Edge g) := by
    funext u v; exact propext mem_reverseGraph
  rw [he, reflTransGen_swap]; rfl

/-! ## counting processed edges -/

omit [DecidableEq α] in
theorem sum_indicator_le [DecidableEq α] (l : List α) (hn : l.Nodup) (k : α) (c : Nat) :
    (l.map (fun u => if u = k then c else 0)).sum ≤ c := by
  induction l with
  | nil => simp
  | cons a l ih =>
    simp only [List.nodup_cons] at hn
    simp only [List.map_cons, List.sum_cons]
    by_cases h : a = k
    · subst h
      have : (l.map (fun u => if u = a then c else 0)).sum = 0 := by
        apply List.sum_eq_zero
        intro x hx
        obtain ⟨u, hu, rfl⟩ := List.mem_map.1 hx
        have : u ≠ a := fun h => hn.1 (h ▸ hu)
        simp [this]
      rw [this]; simp
    · simpa [h] using ih hn.2

theorem count_flatMap' (l : List α) (f : α → List α) (v : α) :
    (l.flatMap f).count v = (l.map (fun u => (f u).count v)).sum := by
  induction l with
  | nil => simp
  | cons a l ih => simp [List.flatMap_cons, List.count_append, ih]

/-- In-edges of `v` whose source is in a duplicate-free list: never more than all in-edges. -/
theorem count_processed_le (g : Graph α) (l : List α) (hn : l.Nodup) (v : α) :
    (l.flatMap (nbrs g)).count v ≤ ((edges g).map Prod.snd).count v := by
  induction g with
  | nil => simp [count_flatMap', nbrs_nil]
  | cons p g ih =>
    rw [edges_cons, List.map_append, List.count_append, count_flatMap']
    rw [count_flatMap'] at ih
    have h1 : (l.map (fun u => (nbrs (p :: g) u).count v)).sum
        ≤ (l.map (fun u => (if u = p.1 then p.2.count v else 0) + (nbrs g u).count v)).sum := by
      apply List.sum_le_sum
      intro u _
      rw [nbrs_cons]
      split <;> simp
    have h2 : (l.map (fun u => (if u = p.1 then p.2.count v else 0) + (nbrs g u).count v)).sum
        = (l.map (fun u => if u = p.1 then p.2.count v else 0)).sum
          + (l.map (fun u => (nbrs g u).count v)).sum := by
      rw [← List.sum_map_add]
    have h3 := sum_indicator_le l hn p.1 (p.2.count v)
    have h4 : ((p.2.map (fun v => (p.1, v))).map Prod.snd).count v = p.2.count v := by
      rw [List.map_map]; simp [Function.comp_def]
    omega

/-- If every producer of `v` is in the list, all in-edges of `v` have been processed. -/
theorem count_processed_eq (g : Graph α) (hd : IsDict g) (l : List α) (v : α)
    (hall : ∀ u, Edge g u v → u ∈ l) :
    ((edges g).map Prod.snd).count v ≤ (l.flatMap (nbrs g)).count v := by
  induction g with
  | nil => simp [edges]
  | cons p g ih =>
    have hd' := hd
    unfold IsDict at hd'
    simp only [List.map_cons, List.nodup_cons] at hd'
    rw [edges_cons, List.map_append, List.count_append, count_flatMap']
    have ih' := ih hd'.2 (fun u hu => hall u (by obtain ⟨vs, h1, h2⟩ := hu; exact ⟨vs, List.mem_cons_of_mem _ h1, h2⟩))
    rw [count_flatMap'] at ih'
    have hk : nbrs g p.1 = [] := by
      rw [List.eq_nil_iff_forall_not_mem]
      intro x hx
      obtain ⟨vs, h1, _⟩ := nbrs_subset hx
      exact hd'.1 (List.mem_map.2 ⟨_, h1, rfl⟩)
    have h4 : ((p.2.map (fun v => (p.1, v))).map Prod.snd).count v = p.2.count v := by
      rw [List.map_map]; simp [Function.comp_def]
    rw [h4]
    have h1 : (l.map (fun u => (nbrs (p :: g) u).count v)).sum
        = (l.map (fun u => (if u = p.1 then p.2.count v else 0) + (nbrs g u).count v)).sum := by
      congr 1
      apply List.map_congr_left
      intro u _
      rw [nbrs_cons]
      split
      · next h => subst h; simp [hk]
      · simp
    have h2 : (l.map (fun u => (if u = p.1 then p.2.count v else 0) + (nbrs g u).count v)).sum
        = (l.map (fun u => if u = p.1 then p.2.count v else 0)).sum
          + (l.map (fun u => (nbrs g u).count v)).sum := by
      rw [← List.sum_map_add]
    have h3 : p.2.count v ≤ (l.map (fun u => if u = p.1 then p.2.count v else 0)).sum := by
      by_cases hv : v ∈ p.2
      · have hp : p.1 ∈ l := hall p.1 ⟨p.2, by simp, hv⟩
        have := List.single_le_sum (l := l.map (fun u => if u = p.1 then p.2.count v else 0)) (by simp)
          (p.2.count v) (List.mem_map.2 ⟨p.1, hp, by simp⟩)
        exact this
      · rw [List.count_eq_zero_of_not_mem hv]; omega
    omega

/-! ## Kahn's loop -/

/-- Invariant of the queue loop. `seen` are the nodes already scheduled, including the one being processed; `done` the
targets of their edges processed so far. -/
structure KahnInv (g : Graph α) (R : List α) (start : α) (seen queue done : List α) (deg : α → Int) : Prop where
  nodup : (seen ++ queue).Nodup
  mem_R : ∀ x ∈ seen ++ queue, x = start ∨ x ∈ R
  start_mem : start ∈ seen ++ queue
  deg_eq : ∀ v ∈ R, deg v = ((((edges g).map Prod.snd).count v : Nat) : Int) - (done.count v : Int)
  enq : ∀ v ∈ R, v ≠ start →
    (v ∈ seen ++ queue ↔ done.count v = ((edges g).map Prod.snd).count v)
  before : ∀ pre v post, seen ++ queue = pre ++ v :: post → v ≠ start → ∀ u, Edge g u v → u ∈ pre ∧ u ∈ seen

theorem relax_inv (g : Graph α) (hdict : IsDict g) (R : List α) (start : α)
    (hstart : ∀ u, ¬ Edge g u start)
    (pre : List α) (node : α) :
    ∀ (ws queue : List α) (deg : α → Int) (done : List α),
      (done ++ ws = (pre ++ [node]).flatMap (nbrs g)) →
      KahnInv g R start (pre ++ [node]) queue done deg →
      KahnInv g R start (pre ++ [node]) (relax R ws queue deg).1
        ((pre ++ [node]).flatMap (nbrs g)) (relax R ws queue deg).2 := by
  intro ws
  induction ws with
  | nil =>
    intro queue deg done hd hi
    simp only [relax]
    rw [List.append_nil] at hd
    rw [← hd]; exact hi
  | cons w ws ih =>
    intro queue deg done hd hi
    have hd' : (done ++ [w]) ++ ws = (pre ++ [node]).flatMap (nbrs g) := by
      rw [List.append_assoc]; exact hd
    -- w is a target of an edge
    have hwmem : w ∈ (pre ++ [node]).flatMap (nbrs g) := by rw [← hd]; simp
    have hwe : ∃ u, Edge g u w := by
      obtain ⟨u, _, hu⟩ := List.mem_flatMap.1 hwmem
      exact ⟨u, nbrs_subset hu⟩
    have hws : w ≠ start := by
      rintro rfl; obtain ⟨u, hu⟩ := hwe; exact hstart u hu
    have hseen : (pre ++ [node]).Nodup := (List.nodup_append.1 hi.nodup).1
    have hle : ∀ v, (done ++ [w]).count v ≤ ((edges g).map Prod.snd).count v := by
      intro v
      have h1 := count_processed_le g (pre ++ [node]) hseen v
      rw [← hd', List.count_append] at h1
      omega
    simp only [relax]
    by_cases hwR : w ∈ R
    · rw [if_neg (by simpa using hwR)]
      refine ih _ _ (done ++ [w]) hd' ?_
      have hcw : (done ++ [w]).count w = done.count w + 1 := by simp [List.count_append]
      have hcne : ∀ v, v ≠ w → (done ++ [w]).count v = done.count v := by
        intro v hv
        rw [List.count_append, List.count_singleton]
        have : ¬ w = v := fun h => hv h.symm
        simp [this]
      have hdw := hi.deg_eq w hwR
      have hlew := hle w
      have hnotmem : w ∉ (pre ++ [node]) ++ queue := by
        rw [hi.enq w hwR hws]; omega
      have hupd : upd deg w (deg w - 1) w = deg w - 1 := by simp [upd]
      rw [hupd]
      by_cases hz : deg w - 1 = 0
      · rw [if_pos hz]
        have hall : (done ++ [w]).count w = ((edges g).map Prod.snd).count w := by omega
        refine ⟨?_, ?_, ?_, ?_, ?_, ?_⟩
        · rw [← List.append_assoc, List.nodup_append]
          refine ⟨hi.nodup, by simp, ?_⟩
          intro a ha b hb
          simp only [List.mem_singleton] at hb
          subst hb; rintro rfl; exact hnotmem ha
        · intro x hx
          rw [← List.append_assoc, List.mem_append, List.mem_singleton] at hx
          rcases hx with hx | rfl
          · exact hi.mem_R x hx
          · exact .inr hwR
        · rw [← List.append_assoc]; exact List.mem_append_left _ hi.start_mem
        · intro v hv
          by_cases hvw : v = w
          · subst hvw; rw [hupd, hcw, hdw]; push_cast; omega
          · simp only [upd, hvw, if_false]; rw [hcne v hvw]; exact hi.deg_eq v hv
        · intro v hv hvs
          rw [← List.append_assoc, List.mem_append, List.mem_singleton]
          by_cases hvw : v = w
          · subst hvw; exact iff_of_true (.inr rfl) hall
          · rw [hcne v hvw, ← hi.enq v hv hvs]; simp [hvw]
        · intro p v q hpq hvs u hu
          rw [← List.append_assoc] at hpq
          rcases List.eq_nil_or_concat q with rfl | ⟨q', z, rfl⟩
          · -- v is the new element
            have := List.append_inj' (s₁ := (pre ++ [node]) ++ queue) (t₁ := [w]) (s₂ := p) (t₂ := [v]) hpq rfl
            obtain ⟨h1, h2⟩ := this
            have h2 : w = v := by simpa using h2
            subst h2
            -- all producers are seen
            have hus : u ∈ pre ++ [node] := by
              by_contra hus
              have hn' : (u :: (pre ++ [node])).Nodup := List.nodup_cons.2 ⟨hus, hseen⟩
              have h3 := count_processed_le g (u :: (pre ++ [node])) hn' w
              rw [List.flatMap_cons, List.count_append, ← hd', List.count_append] at h3
              have h4 : 0 < (nbrs g u).count w := by
                exact List.count_pos_iff.2 ((mem_nbrs hdict).2 hu)
              omega
            exact ⟨h1 ▸ List.mem_append_left _ hus, hus⟩
          · rw [List.concat_eq_append, ← List.cons_append, ← List.append_assoc] at hpq
            have := (List.append_inj' (s₁ := (pre ++ [node]) ++ queue) (t₁ := [w]) (t₂ := [z]) hpq rfl).1
            exact hi.before p v q' this hvs u hu
      · rw [if_neg hz]
        have hnall : (done ++ [w]).count w ≠ ((edges g).map Prod.snd).count w := by omega
        refine ⟨hi.nodup, hi.mem_R, hi.start_mem, ?_, ?_, hi.before⟩
        · intro v hv
          by_cases hvw : v = w
          · subst hvw; rw [hupd, hcw, hdw]; push_cast; omega
          · simp only [upd, hvw, if_false]; rw [hcne v hvw]; exact hi.deg_eq v hv
        · intro v hv hvs
          by_cases hvw : v = w
          · subst hvw; exact iff_of_false hnotmem hnall
          · rw [hcne v hvw, ← hi.enq v hv hvs]
    · rw [if_pos (by simpa using hwR)]
      refine ih _ _ (done ++ [w]) hd' ?_
      have hcne : ∀ v ∈ R, (done ++ [w]).count v = done.count v := by
        intro v hv
        have hv' : v ≠ w := fun h => hwR (h ▸ hv)
        rw [List.count_append, List.count_singleton]
        have : ¬ w = v := fun h => hv' h.symm
        simp [this]
      refine ⟨hi.nodup, hi.mem_R, hi.start_mem, ?_, ?_, hi.before⟩
      · intro v hv; rw [hcne v hv]; exact hi.deg_eq v hv
      · intro v hv hvs; rw [hcne v hv]; exact hi.enq v hv hvs

theorem kahn_inv (g : Graph α) (hdict : IsDict g) (R : List α) (start : α) (hstart : ∀ u, ¬ Edge g u start) :
    ∀ (f : Nat) (order queue : List α) (deg : α → Int) (r : List α),
      KahnInv g R start order queue (order.flatMap (nbrs g)) deg →
      kahn g R f order queue deg = some r →
      ∃ deg', KahnInv g R start r [] (r.flatMap (nbrs g)) deg' := by
  intro f
  induction f with
  | zero => intro _ _ _ _ _ h; simp [kahn] at h
  | succ f ih =>
    intro order queue deg r hi h
    cases queue with
    | nil => simp only [kahn, Option.some.injEq] at h; subst h; exact ⟨deg, hi⟩
    | cons node queue =>
      simp only [kahn] at h
      refine ih _ _ _ _ ?_ h
      refine relax_inv g hdict R start hstart order node (nbrs g node) queue deg (order.flatMap (nbrs g))
        (by simp [List.flatMap_append]) ?_
      have e : order ++ node :: queue = (order ++ [node]) ++ queue := by simp
      refine ⟨e ▸ hi.nodup, e ▸ hi.mem_R, e ▸ hi.start_mem, hi.deg_eq, e ▸ hi.enq, ?_⟩
      intro p v q hpq hvs u hu
      have := hi.before p v q (e.trans hpq) hvs u hu
      exact ⟨this.1, List.mem_append_left _ this.2⟩

/-- number of nodes (among a list of candidates) whose in-degree is still positive -/
def pending (ts : List α) (deg : α → Int) : Nat := (ts.filter (fun v => decide (0 < deg v))).length

theorem pending_le {ts : List α} {deg deg' : α → Int} (h : ∀ v, deg' v ≤ deg v) :
    pending ts deg' ≤ pending ts deg := by
  unfold pending
  apply List.Sublist.length_le
  apply List.monotone_filter_right
  intro a ha
  simp only [decide_eq_true_eq] at ha ⊢
  exact lt_of_lt_of_le ha (h a)

theorem pending_lt {ts : List α} {deg deg' : α → Int} (h : ∀ v, deg' v ≤ deg v) {w : α} (hw : w ∈ ts)
    (h0 : 0 < deg w) (h1 : deg' w ≤ 0) : pending ts deg' < pending ts deg := by
  unfold pending
  induction ts with
  | nil => simp at hw
  | cons a ts ih =>
    have hle : pending ts deg' ≤ pending ts deg := pending_le h
    unfold pending at hle
    simp only [List.filter_cons]
    by_cases haw : a = w
    · subst haw
      have h2 : ¬ 0 < deg' a := by omega
      simp [h0, h2]; omega
    · have hw' : w ∈ ts := by
        rcases List.mem_cons.1 hw with rfl | h
        · exact absurd rfl haw
        · exact h
      have := ih hw'
      have ha := h a
      by_cases h3 : 0 < deg' a
      · have h4 : 0 < deg a := by omega
        simp [h3, h4]; omega
      · by_cases h4 : 0 < deg a
        · simp [h3, h4]; omega
        · simp [h3, h4]; omega

theorem relax_measure (R ts : List α) :
    ∀ (ws queue : List α) (deg : α → Int), (∀ w ∈ ws, w ∈ ts) →
      (relax R ws queue deg).1.length + pending ts (relax R ws queue deg).2 ≤ queue.length + pending ts deg := by
  intro ws
  induction ws with
  | nil => intro _ _ _; exact le_refl _
  | cons w ws ih =>
    intro queue deg hsub
    have hws : ∀ x ∈ ws, x ∈ ts := fun x hx => hsub x (List.mem_cons_of_mem _ hx)
    simp only [relax]
    split
    · exact ih _ _ hws
    · refine (ih _ _ hws).trans ?_
      have hupd : upd deg w (deg w - 1) w = deg w - 1 := by simp [upd]
      have hle : ∀ v, upd deg w (deg w - 1) v ≤ deg v := by
        intro v; unfold upd; split
        · next h => subst h; omega
        · exact le_refl _
      rw [hupd]
      split
      · next hz =>
        have := pending_lt hle (hsub w (List.mem_cons_self ..)) (by omega) (by rw [hupd]; omega)
        rw [List.length_append, List.length_singleton]
        omega
      · have := pending_le (ts := ts) hle
        omega

theorem kahn_isSome (g : Graph α) (R : List α) :
    ∀ (f : Nat) (order queue : List α) (deg : α → Int),
      queue.length + pending ((edges g).map Prod.snd) deg < f → ∃ r, kahn g R f order queue deg = some r := by
  intro f
  induction f with
  | zero => intro _ _ _ h; omega
  | succ f ih =>
    intro order queue deg h
    cases queue with
    | nil => exact ⟨_, rfl⟩
    | cons node queue =>
      simp only [kahn]
      apply ih
      have := relax_measure R ((edges g).map Prod.snd) (nbrs g node) queue deg (by
        intro w hw
        exact List.mem_map.2 ⟨(node, w), mem_edges.2 (nbrs_subset hw), rfl⟩)
      rw [List.length_cons] at h
      omega

/-! ## the whole function -/

theorem useful_iff {g : Graph α} {start fin : α} {a b : List α}
    (ha : ∀ x, x ∈ a ↔ Reach g start x) (hb : ∀ x, x ∈ b ↔ Reach g x fin) (x : α) :
    x ∈ a.filter (· ∈ b) ↔ Useful g start fin x := by
  simp [Useful, ha, hb]

/-- Everything we know about a run of `resolve`, before validation. -/
theorem resolve_run (g : Graph α) (hd : IsDict g) (start fin : α) (hstart : ∀ u, ¬ Edge g u start) :
    ∃ R rev order : List α, ∃ deg : α → Int,
      R.Nodup ∧ (∀ x, x ∈ R ↔ Useful g start fin x) ∧ rev.Nodup ∧ (∀ x, x ∈ rev ↔ Reach g x fin) ∧
      KahnInv g R start order [] (order.flatMap (nbrs g)) deg ∧ order.head? = some start ∧
      resolve g start fin = (match validate order R start fin with
        | .error e => .error e
        | .ok () => .ok (order, rev)) := by
  obtain ⟨a, ha, han, ham⟩ := dfs_fwd g hd start
  obtain ⟨b, hb, hbn, hbm⟩ := dfs_bwd g fin
  obtain ⟨order, ho⟩ := kahn_isSome g (a.filter (· ∈ b)) (fuel g) [] [start] (inDegree g) (by
    have : pending ((edges g).map Prod.snd) (inDegree g) ≤ (edges g).length := by
      unfold pending
      refine (List.length_filter_le _ _).trans ?_
      simp
    simp [fuel]; omega)
  have hinit : KahnInv g (a.filter (· ∈ b)) start [] [start] (([] : List α).flatMap (nbrs g)) (inDegree g) := by
    refine ⟨by simp, by simp, by simp, ?_, ?_, ?_⟩
    · intro v _; simp [inDegree_eq]
    · intro v hv hvs
      have hne : v ∉ ([] : List α) ++ [start] := by simpa using hvs
      refine iff_of_false hne ?_
      have hr : Reach g start v := by
        have := (useful_iff ham hbm v).1 hv
        exact this.1
      rcases ReflTransGen.cases_tail hr with h | ⟨u, _, hu⟩
      · exact absurd h hvs
      · have : v ∈ (edges g).map Prod.snd := List.mem_map.2 ⟨(u, v), mem_edges.2 hu, rfl⟩
        have := List.count_pos_iff.2 this
        simp only [List.flatMap_nil, List.count_nil]
        omega
    · intro p v q hpq hvs
      rw [List.nil_append] at hpq
      cases p with
      | nil => simp at hpq; exact absurd hpq.1.symm hvs
      | cons x xs => simp at hpq
  obtain ⟨deg', hi⟩ := kahn_inv g hd _ start hstart _ _ _ _ _ hinit ho
  refine ⟨_, b, order, deg', han.filter _, useful_iff ham hbm, hbn, hbm, hi, ?_, ?_⟩
  · -- the first element is `start`
    have hs := hi.start_mem
    rw [List.append_nil] at hs
    obtain ⟨pre, post, hpp⟩ := List.append_of_mem hs
    cases pre with
    | nil => rw [hpp]; rfl
    | cons y ys =>
      have hy : y ≠ start := by
        rintro rfl
        have hn := hi.nodup
        rw [List.append_nil, hpp] at hn
        simp at hn
      -- y is scheduled first, so it has no producers; but it is reachable
      have hyR : y ∈ a.filter (· ∈ b) := by
        rcases hi.mem_R y (by rw [List.append_nil, hpp]; simp) with h | h
        · exact absurd h hy
        · exact h
      have hr := ((useful_iff ham hbm y).1 hyR).1
      rcases ReflTransGen.cases_tail hr with h | ⟨u, _, hu⟩
      · exact absurd h hy
      · have := hi.before [] y (ys ++ start :: post) (by rw [List.append_nil, hpp]; rfl) hy u hu
        simp at this
  · unfold resolve
    rw [ha, hb]
    simp only [ho]
    rfl

end Verif.Graph
