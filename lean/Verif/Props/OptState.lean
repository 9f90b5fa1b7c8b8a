import Verif.Model.OptState
import Verif.Model.Rng
import Verif.Lemmas.Sequential
import Verif.Lemmas.TreeZip
import Verif.Lemmas.SeqCompose
import Mathlib.Logic.Function.Iterate
import Mathlib.Data.List.Induction

/-! # Properties of the optimiser state (C41) and of `set_rng` (C68) -/

namespace Verif.Props
open Verif.Tree Verif.OptState

variable {A P : Type}

/-- **C41** Unpacking a packed optimiser state restores it, with or without moments. -/
theorem C41_state (s : OptState.St A) : OptState.deserialize (OptState.serialize s) = .ok s := by
  obtain ⟨p, m, v, e⟩ := s
  cases m <;> cases v <;> rfl

/-- **C41** A packed state without one of its fields is refused. -/
theorem C41_missing (d : List (Str × Field A)) (k : String) (hk : k ∈ ["params", "m", "v", "epoch"]) (h : d.lookup k.toList = Option.none) :
    ∃ e, OptState.deserialize d = .error e := by
  have hk' : OptState.get d k = .error .keyError := by unfold OptState.get; rw [h]
  unfold OptState.deserialize
  simp only [bind, Except.bind]
  simp only [List.mem_cons, List.not_mem_nil, or_false] at hk
  rcases hk with rfl | rfl | rfl | rfl <;> simp only [hk'] <;> (repeat' split) <;> simp

theorem mapM_states (l : List (OptState.St A)) : (l.map OptState.serialize).mapM OptState.deserialize = .ok l := by
  induction l with
  | nil => rfl
  | cons s l ih =>
    rw [List.map_cons, List.mapM_cons, C41_state, ih]
    rfl

mutual
theorem unflat_flat {α β : Type} : ∀ (t : Tree α) (u : Tree β) (ys : List β), sameStruct t u = true →
    unflat t (flat u ++ ys) = some (u, ys)
  | .leaf _, u, ys, h => by cases u <;> simp [sameStruct] at h; rfl
  | .none, u, ys, h => by cases u <;> simp [sameStruct] at h; rfl
  | .list ts, u, ys, h => by
    cases u <;> simp [sameStruct] at h
    rename_i us
    simp [flat, unflat, unflatL_flat ts us ys h]
  | .tuple ts, u, ys, h => by
    cases u <;> simp [sameStruct] at h
    rename_i us
    simp [flat, unflat, unflatL_flat ts us ys h]
  | .dict ts, u, ys, h => by
    cases u <;> simp [sameStruct] at h
    rename_i us
    simp [flat, unflat, unflatD_flat ts us ys h]
theorem unflatL_flat {α β : Type} : ∀ (ts : List (Tree α)) (us : List (Tree β)) (ys : List β), sameStructL ts us = true →
    unflatL ts (flatL us ++ ys) = some (us, ys)
  | [], us, ys, h => by cases us <;> simp [sameStructL] at h; rfl
  | t :: ts, us, ys, h => by
    cases us <;> simp [sameStructL] at h
    rename_i u us
    simp [flatL, unflatL, List.append_assoc, unflat_flat t u _ h.1, unflatL_flat ts us ys h.2]
theorem unflatD_flat {α β : Type} : ∀ (ts : List (Str × Tree α)) (us : List (Str × Tree β)) (ys : List β), sameStructD ts us = true →
    unflatD ts (flatD us ++ ys) = some (us, ys)
  | [], us, ys, h => by cases us <;> simp [sameStructD] at h; rfl
  | (k, t) :: ts, us, ys, h => by
    cases us with
    | nil => simp [sameStructD] at h
    | cons q us =>
      obtain ⟨k', u⟩ := q
      simp [sameStructD] at h
      obtain ⟨rfl, h1, h2⟩ := h
      simp [flatD, unflatD, List.append_assoc, unflat_flat t u _ h1, unflatD_flat ts us ys h2]
end

/-- **C41** A saved model's optimiser state, one state per parameter array in a tree with the structure of the parameters, is restored
state by state at the same places (dictionaries come back with sorted keys). -/
theorem C41_model (params : Tree P) (t : Tree (OptState.St A)) (hs : sameStruct params.norm t.norm = true)
    (ht : OptState.truthy (some t) = true) : OptState.unpack params (OptState.pack (some t)) = .ok (some t.norm) := by
  unfold OptState.pack OptState.unpack
  simp only [ht, if_true, mapM_states]
  have : unflatten params (jaxLeaves t) = .ok t.norm := by
    unfold unflatten jaxLeaves
    have := unflat_flat params.norm t.norm [] hs
    rw [List.append_nil] at this
    rw [this]
  rw [this]

/-- **C41** A model that was never trained has no optimiser state after loading either. -/
theorem C41_untrained (params : Tree P) : OptState.unpack params (OptState.pack (Option.none : Option (Tree (OptState.St A)))) = .ok Option.none := rfl

/-- Two parameter arrays, one of them in a dictionary, one without moments. -/
example : ∃ (params : Tree Nat) (t : Tree (OptState.St Nat)), sameStruct params.norm t.norm = true ∧
    OptState.truthy (some t) = true ∧ t.jaxLeaves.length = 2 :=
  ⟨.list [.leaf 0, .dict [("w".toList, .leaf 1)]],
    .list [.leaf ⟨1, Option.some 2, Option.some 3, 7⟩, .dict [("w".toList, .leaf ⟨4, Option.none, Option.none, 0⟩)]], rfl, rfl, rfl⟩

variable {K G : Type}

/-- The key that an argument asks for: the one made from an integer seed, or the key itself. -/
def asksFor (mk : Int → K) : Rng.Arg K → Option K
  | .int n => some (mk n)
  | .npInt n => some (mk n)
  | .bool c => some (mk (if c then 1 else 0))
  | .key k => some k
  | .none => Option.none

/-- `None` asks for a random key. -/
def isNone : Rng.Arg K → Bool
  | .none => true
  | _ => false

/-- **C68 (partial)** After any history of calls of `set_rng`, the stored key is the one the last call asked for: setting the same seed
gives the same key whatever happened before, and a given key is stored as it is. Only `None` touches Python's random generator, once per
call. Missing: integers that are not Python integers, see `C68_numpy_seed_refuted`. -/
theorem C68_history_partial (mk : Int → K) (randint : G → Int × G) (as : List (Rng.Arg K)) (s : Rng.St K G) :
    (∀ a b, as.getLast? = some a → (∀ n, a ≠ .npInt n) → asksFor mk a = some b →
      Rng.getRng (as.foldl (fun s a => Rng.setRng mk randint a s) s) = .key b) ∧
    (as.foldl (fun s a => Rng.setRng mk randint a s) s).gen = (fun g => (randint g).2)^[(as.filter isNone).length] s.gen := by
  induction as using List.reverseRecOn with
  | nil => exact ⟨fun a b h => by simp at h, rfl⟩
  | append_singleton as a ih =>
    simp only [List.foldl_append, List.foldl_cons, List.foldl_nil, List.filter_append, List.length_append] at ih ⊢
    refine ⟨fun a' b h hnp hb => ?_, ?_⟩
    · rw [List.getLast?_append] at h
      simp only [List.getLast?_singleton, Option.some_or, Option.some.injEq] at h
      subst h
      cases a <;> simp only [asksFor, Option.some.injEq, reduceCtorEq] at hb <;> simp only [Rng.setRng, Rng.getRng] <;> try rw [hb]
      exact absurd rfl (hnp _)
    · cases a with
      | none =>
        have : ([Rng.Arg.none].filter (isNone (K := K))).length = 1 := rfl
        rw [this, Function.iterate_succ_apply', ← ih.2]
        rfl
      | _ => simpa [Rng.setRng, isNone] using ih.2

/-- **C68, refuted for other integers.** A NumPy integer seed is stored as it is: it never becomes a key. -/
theorem C68_numpy_seed_refuted (mk : Int → K) (randint : G → Int × G) (n : Int) (s : Rng.St K G) (k : K) :
    Rng.getRng (Rng.setRng mk randint (.npInt n) s) ≠ .key k := by
  intro h
  cases h

/-- A history that draws a random key first and sets a seed afterwards. -/
example : Rng.getRng ([Rng.Arg.none, .key 5, .int 3].foldl (fun s a => Rng.setRng (fun n => n * n) (fun g => (g, g + 1)) a s)
    ⟨.key 0, (0 : Int)⟩) = .key 9 := rfl

end Verif.Props
