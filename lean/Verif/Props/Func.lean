import Verif.Spec.Func
import Verif.Lemmas.Params
import Verif.Lemmas.TreeDec

/-!
# C78: function modules
-/

namespace Verif.Props

open Func FuncSpec

variable {V S : Type}

mutual
theorem dummy_ok [Zero V] : ∀ {s : Tree (List Nat)}, Plain s → dummy (V := V) s = .ok (Tree.map (fun s => zeros (1 :: s)) s)
  | .leaf s, _ => by rw [dummy, Tree.map]
  | .none, h => absurd h (by simp [Plain])
  | .list ts, h => by
    rw [Plain] at h
    rw [dummy, dummyL_ok h, Tree.map]
  | .tuple [], h => absurd rfl (by rw [Plain] at h; exact h.1)
  | .tuple (t :: ts), h => by
    rw [Plain] at h
    rw [dummy, dummyL_ok h.2, Tree.map]
  | .dict kvs, h => by
    rw [Plain] at h
    rw [dummy, dummyD_ok h, Tree.map]
theorem dummyL_ok [Zero V] : ∀ {ts : List (Tree (List Nat))}, PlainL ts → dummyL (V := V) ts = .ok (Tree.mapL (fun s => zeros (1 :: s)) ts)
  | [], _ => by rw [dummyL, Tree.mapL]
  | t :: ts, h => by
    rw [PlainL] at h
    rw [dummyL, dummy_ok h.1, Tree.mapL]
    dsimp only
    rw [dummyL_ok h.2]
theorem dummyD_ok [Zero V] : ∀ {ts : List (Str × Tree (List Nat))}, PlainD ts → dummyD (V := V) ts = .ok (Tree.mapD (fun s => zeros (1 :: s)) ts)
  | [], _ => by rw [dummyD, Tree.mapD]
  | (k, t) :: ts, h => by
    rw [PlainD] at h
    rw [dummyD, dummy_ok h.1, Tree.mapD]
    dsimp only
    rw [dummyD_ok h.2]
end

theorem plainD_iff {α : Type} : ∀ {kvs : List (Str × Tree α)}, PlainD kvs ↔ ∀ p ∈ kvs, Plain p.2
  | [] => by simp [PlainD]
  | (k, t) :: ts => by simp [PlainD, plainD_iff (kvs := ts)]

mutual
theorem plain_norm {α : Type} : ∀ {t : Tree α}, Plain t → Plain t.norm
  | .leaf _, _ => by rw [Tree.norm, Plain]; trivial
  | .none, h => by rw [Plain] at h; exact h.elim
  | .list ts, h => by rw [Plain] at h; rw [Tree.norm, Plain]; exact plainL_norm h
  | .tuple ts, h => by
    rw [Plain] at h
    rw [Tree.norm, Plain]
    refine ⟨?_, plainL_norm h.2⟩
    cases ts with
    | nil => exact absurd rfl h.1
    | cons t ts => rw [Tree.normL]; simp
  | .dict kvs, h => by
    rw [Plain] at h
    rw [Tree.norm, Plain, plainD_iff]
    intro p hp
    exact plainD_iff.1 (plainD_norm h) p ((Tree.sortKvs_perm _).mem_iff.1 hp)
theorem plainL_norm {α : Type} : ∀ {ts : List (Tree α)}, PlainL ts → PlainL (Tree.normL ts)
  | [], _ => by rw [Tree.normL, PlainL]; trivial
  | t :: ts, h => by rw [PlainL] at h; rw [Tree.normL, PlainL]; exact ⟨plain_norm h.1, plainL_norm h.2⟩
theorem plainD_norm {α : Type} : ∀ {ts : List (Str × Tree α)}, PlainD ts → PlainD (Tree.normD ts)
  | [], _ => by rw [Tree.normD, PlainD]; trivial
  | (k, t) :: ts, h => by rw [PlainD] at h; rw [Tree.normD, PlainD]; exact ⟨plain_norm h.1, plainD_norm h.2⟩
end

mutual
theorem plain_map {α β : Type} {f : α → β} : ∀ {t : Tree α}, Plain t → Plain (Tree.map f t)
  | .leaf _, _ => by rw [Tree.map, Plain]; trivial
  | .none, h => by rw [Plain] at h; exact h.elim
  | .list ts, h => by rw [Plain] at h; rw [Tree.map, Plain]; exact plainL_map h
  | .tuple ts, h => by
    rw [Plain] at h
    rw [Tree.map, Plain]
    refine ⟨?_, plainL_map h.2⟩
    cases ts with
    | nil => exact absurd rfl h.1
    | cons t ts => rw [Tree.mapL]; simp
  | .dict kvs, h => by rw [Plain] at h; rw [Tree.map, Plain]; exact plainD_map h
theorem plainL_map {α β : Type} {f : α → β} : ∀ {ts : List (Tree α)}, PlainL ts → PlainL (Tree.mapL f ts)
  | [], _ => by rw [Tree.mapL, PlainL]; trivial
  | t :: ts, h => by rw [PlainL] at h; rw [Tree.mapL, PlainL]; exact ⟨plain_map h.1, plainL_map h.2⟩
theorem plainD_map {α β : Type} {f : α → β} : ∀ {ts : List (Str × Tree α)}, PlainD ts → PlainD (Tree.mapD f ts)
  | [], _ => by rw [Tree.mapD, PlainD]; trivial
  | (k, t) :: ts, h => by rw [PlainD] at h; rw [Tree.mapD, PlainD]; exact ⟨plain_map h.1, plainD_map h.2⟩
end

theorem dummy_batch [Zero V] (x : Tree (NArr V)) (hk : ForwardSpec.KeysOk x) (hp : Plain x) : ∃ d : Tree (NArr V), dummy (V := V) (sampleShapes x).norm = .ok d ∧ Batched d ∧
    Tree.map (fun a => a.shape.tail) x.norm = Tree.map (fun a => a.shape.tail) d.norm := by
  have hpl : Plain (sampleShapes x).norm := plain_norm (plain_map (plain_norm hp))
  refine ⟨_, dummy_ok hpl, ?_, ?_⟩
  · intro a ha
    rw [Tree.flat_map'] at ha
    obtain ⟨s, -, rfl⟩ := List.mem_map.1 ha
    simp [zeros]
  · unfold sampleShapes
    rw [Tree.norm_map, Tree.norm_map, Tree.norm_norm hk, Tree.map_map, Tree.norm_map, Tree.norm_norm hk, Tree.map_map]
    rfl

/-- **C78.** For a function whose result shapes depend on the shapes of the samples only, the declared shape is the shape of the samples of what the module returns, for batches of any size. -/
theorem C78_shape [Zero V] {f : Tree (NArr V) → Except PyErr (Tree (NArr V))} (hf : ByShape f) {x y : Tree (NArr V)} {s s' : S} (hx : Batched x) (hk : ForwardSpec.KeysOk x) (hp : Plain x)
    (h : call f x s = .ok (y, s')) : outShape f (sampleShapes x) = .ok (sampleShapes y) ∧ Func.compile f (sampleShapes x) = .ok () := by
  have hy : f x = .ok y := by
    unfold call at h
    split at h
    · cases h
    · rename_i hy; cases h; exact hy
  obtain ⟨d, h1, h2, h3⟩ := dummy_batch x hk hp
  obtain ⟨y', h4, h5⟩ := hf x d y hx h2 h3 hy
  have : outShape f (sampleShapes x) = .ok (sampleShapes y) := by
    unfold outShape
    rw [h1]
    dsimp only
    rw [h4]
    dsimp only
    unfold sampleShapes
    rw [h5]
  exact ⟨this, by unfold Func.compile; rw [this]⟩

/-- **C78.** A module that compiled for the shapes of a batch can be called with every batch of these shapes, of any size; the state is passed on. -/
theorem C78_compiled [Zero V] {f : Tree (NArr V) → Except PyErr (Tree (NArr V))} (hf : ByShape f) {x : Tree (NArr V)} (hx : Batched x) (hk : ForwardSpec.KeysOk x) (hp : Plain x)
    (h : Func.compile f (sampleShapes x) = .ok ()) (s : S) : ∃ y, f x = .ok y ∧ call f x s = .ok (y, s) ∧ outShape f (sampleShapes x) = .ok (sampleShapes y) := by
  obtain ⟨d, h1, h2, h3⟩ := dummy_batch x hk hp
  unfold Func.compile at h
  split at h
  · cases h
  · rename_i r hr
    unfold outShape at hr
    rw [h1] at hr
    dsimp only at hr
    split at hr
    · cases hr
    · rename_i y hy
      obtain ⟨y', h4, -⟩ := hf d x y h2 hx h3.symm hy
      have hc : call f x s = .ok (y', s) := by unfold call; rw [h4]
      exact ⟨y', h4, hc, (C78_shape hf hx hk hp hc).1⟩

/-- **C78.** If `f` does not return for any batch of the shapes, compiling raises. -/
theorem C78_refused [Zero V] {f : Tree (NArr V) → Except PyErr (Tree (NArr V))} {x : Tree (NArr V)} (hk : ForwardSpec.KeysOk x) (hp : Plain x)
    (h : ∀ x' y, Batched x' → Tree.map (fun a => a.shape.tail) x'.norm = Tree.map (fun a => a.shape.tail) x.norm → f x' ≠ .ok y) :
    Func.compile f (sampleShapes x) = .error .runtimeError := by
  obtain ⟨d, h1, h2, h3⟩ := dummy_batch x hk hp
  unfold Func.compile outShape
  rw [h1]
  dsimp only
  cases hd : f d with
  | error e => rfl
  | ok y => exact absurd hd (h d y h2 h3.symm)

/-- Functions of the entries of each array are of this kind. -/
theorem C78_elementwise (g : V → V) : ByShape fun x => .ok (Tree.map (fun a => ⟨a.shape, fun i => g (a.val i)⟩) x) := by
  intro x x' y _ _ hs hy
  cases hy
  refine ⟨_, rfl, ?_⟩
  rw [Tree.norm_map, Tree.norm_map, Tree.map_map, Tree.map_map]
  exact hs.symm

/-- Functions that give one number per sample from the entries of a single array are of this kind. -/
def perSample (g : (List Nat → V) → V) : Tree (NArr V) → Except PyErr (Tree (NArr V))
  | .leaf a => match a.shape with
    | [] => .error .indexError
    | n :: _ => .ok (.leaf ⟨[n], fun i => g fun j => a.val (i ++ j)⟩)
  | _ => .error .typeError

theorem C78_per_sample (g : (List Nat → V) → V) : ByShape (perSample g) := by
  intro x x' y hx hx' hs hy
  match x, x', hx, hx', hs, hy with
  | .leaf a, .leaf b, hx, hx', hs, hy =>
    have ha := hx a (by simp [Tree.flat])
    have hb := hx' b (by simp [Tree.flat])
    obtain ⟨m, sa, ea⟩ := List.exists_cons_of_ne_nil ha
    obtain ⟨n, sb, eb⟩ := List.exists_cons_of_ne_nil hb
    simp only [perSample, ea] at hy
    cases hy
    exact ⟨.leaf ⟨[n], fun i => g fun j => b.val (i ++ j)⟩, by simp only [perSample, eb], rfl⟩
  | .leaf a, .none, _, _, hs, _ => simp [Tree.norm, Tree.map] at hs
  | .leaf a, .list _, _, _, hs, _ => simp [Tree.norm, Tree.map] at hs
  | .leaf a, .tuple _, _, _, hs, _ => simp [Tree.norm, Tree.map] at hs
  | .leaf a, .dict _, _, _, hs, _ => simp [Tree.norm, Tree.map] at hs
  | .none, _, _, _, _, hy => cases hy
  | .list _, _, _, _, _, hy => cases hy
  | .tuple _, _, _, _, _, hy => cases hy
  | .dict _, _, _, _, _, hy => cases hy

/-- Sum of two entries, for a batch of three samples. -/
example : ∃ y, perSample (fun v : List Nat → Int => v [0] + v [1]) (.leaf ⟨[3, 2], fun i => (i.map Int.ofNat).sum⟩) = .ok y ∧ sampleShapes y = .leaf [] ∧
    Batched (.leaf (⟨[3, 2], fun i => (i.map Int.ofNat).sum⟩ : NArr Int)) ∧ Plain (.leaf (⟨[3, 2], fun i => (i.map Int.ofNat).sum⟩ : NArr Int)) := by
  refine ⟨_, rfl, rfl, ?_, trivial⟩
  intro a ha
  simp [Tree.flat] at ha
  subst ha
  simp

/-- `C78_compiled` and `C78_refused`: the same function compiles for vectors and is refused for a list of arrays. -/
example : Func.compile (perSample (fun v : List Nat → Int => v [0] + v [1])) (.leaf [2]) = .ok () ∧ (∀ x' y : Tree (NArr Int), Batched x' →
    Tree.map (fun a => a.shape.tail) x'.norm = Tree.map (fun a => a.shape.tail) (Tree.list [.leaf (⟨[1], fun _ => 0⟩ : NArr Int)]).norm → perSample (fun v => v [0] + v [1]) x' ≠ .ok y) := by
  refine ⟨rfl, fun x' y _ hs hy => ?_⟩
  match x', hs, hy with
  | .leaf a, hs, _ => simp [Tree.norm, Tree.map] at hs

/-- **C78 refuted for functions of the batch size.** A function that takes the batch apart declares a shape its results do not have. -/
theorem C78_batch_refuted : ∃ (f : Tree (NArr Int) → Except PyErr (Tree (NArr Int))) (x y : Tree (NArr Int)), Batched x ∧ Plain x ∧ f x = .ok y ∧
    Func.compile f (sampleShapes x) = .ok () ∧ outShape f (sampleShapes x) ≠ .ok (sampleShapes y) := by
  refine ⟨fun x => match x with
      | .leaf a => .ok (.leaf ⟨a.shape.reverse, fun i => a.val i.reverse⟩)
      | t => .ok t, .leaf ⟨[3, 2], fun _ => 0⟩, .leaf ⟨[2, 3], fun _ => 0⟩, ?_, trivial, rfl, rfl, ?_⟩
  · intro a ha
    simp [Tree.flat] at ha
    subst ha
    simp
  · intro h
    have h' : (Except.ok (.leaf [1]) : Except PyErr (Tree (List Nat))) = .ok (.leaf [3]) := h
    simp at h'

/-- **C78 refuted for functions that refuse zeros.** The module cannot be compiled, although `f` returns for all data it is meant for. -/
theorem C78_zeros_refuted : ∃ f : Tree (NArr Int) → Except PyErr (Tree (NArr Int)), (∀ a : NArr Int, (∀ i, a.val i ≠ 0) → f (.leaf a) = .ok (.leaf a)) ∧
    ∀ s, Func.compile f (.leaf s) = .error .runtimeError := by
  classical
  refine ⟨fun x => match x with
      | .leaf a => if ∀ i, a.val i ≠ 0 then .ok (.leaf a) else .error .valueError
      | _ => .error .typeError, fun a ha => if_pos ha, fun s => ?_⟩
  unfold Func.compile outShape
  rw [Tree.norm, dummy]
  dsimp only
  rw [if_neg (by simp [zeros])]

/-- **C78 refuted for data with an empty tuple or `None`.** The dummy input has another structure than the data: an array in the place of the empty tuple, and an exception for `None`. -/
theorem C78_empty_refuted : ∃ (f : Tree (NArr Int) → Except PyErr (Tree (NArr Int))) (x y : Tree (NArr Int)), ByShape f ∧ Batched x ∧ f x = .ok y ∧
    outShape f (sampleShapes x) ≠ .ok (sampleShapes y) ∧ ∀ g : Tree (NArr Int) → Except PyErr (Tree (NArr Int)), Func.compile g (sampleShapes (.list [x, .none])) = .error .typeError := by
  refine ⟨fun x => .ok (Tree.map (fun a => ⟨a.shape, fun i => a.val i⟩) x), .tuple [], .tuple [], C78_elementwise id, ?_, rfl, ?_, fun g => rfl⟩
  · intro a ha
    simp [Tree.flat, Tree.flatL] at ha
  · intro h
    have h' : (Except.ok (.leaf []) : Except PyErr (Tree (List Nat))) = .ok (.tuple []) := h
    simp at h'

end Verif.Props
