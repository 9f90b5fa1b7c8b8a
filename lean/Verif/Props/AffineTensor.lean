import Verif.Model.AffineTensor
import Verif.Props.Elementwise
import Mathlib.Algebra.BigOperators.Fin

/-!
# C70: affine tensors
-/

namespace Verif.Props
open Reshape Tree ForwardSpec NArr NdSpec AffineTensor

variable {V : Type}

theorem sum_range_fin [AddCommMonoid V] (f : Nat) (g : Nat → V) : ((List.range f).map g).sum = ∑ j : Fin f, g j := by
  rw [← List.sum_ofFn, ← List.map_coe_finRange_eq_range, List.map_map, List.ofFn_eq_map]
  rfl

/-- **C70 (value).** For a sample `x` the output is `M₀ + Σ xⱼ Mⱼ₊₁` (without bias `Σ xⱼ Mⱼ`), entry by entry; the samples do not mix. -/
theorem C70_value [Semiring V] (bias : Bool) (Ms x y : NArr V) (b f : Nat) (hx : x.shape = [b, f]) (h : tensor bias Ms x = .ok y) :
    (∃ ts, y.shape = b :: ts ∧ Ms.shape = (if bias then f + 1 else f) :: ts) ∧
    ∀ k i, y.val (k :: i) = if bias then Ms.val (0 :: i) + ∑ j : Fin f, x.val [k, j] * Ms.val ((j.val + 1) :: i)
      else ∑ j : Fin f, x.val [k, j] * Ms.val (j.val :: i) := by
  unfold tensor at h
  rw [hx] at h
  cases hM : Ms.shape with
  | nil => rw [hM] at h; cases h
  | cons p ts =>
    rw [hM] at h
    simp only at h
    cases bias with
    | true =>
      simp only [if_true] at h ⊢
      split at h
      · rename_i hp
        cases h
        exact ⟨⟨ts, rfl, by rw [hp]⟩, fun k i => by simp only [List.tail_cons, List.headD_cons, contract, sum_range_fin]⟩
      · cases h
    | false =>
      simp only [Bool.false_eq_true, if_false] at h ⊢
      split at h
      · rename_i hp
        cases h
        exact ⟨⟨ts, rfl, by rw [hp]⟩, fun k i => by simp only [List.tail_cons, List.headD_cons, contract, sum_range_fin, Nat.add_zero]⟩
      · cases h

/-- Tensors of shape (2,) for two features and a bias. -/
def demoTensors : NArr Int := ⟨[3, 2], fun i => [[1, 2], [3, 4], [5, 6]].getD (i.getD 0 0) [] |>.getD (i.getD 1 0) 0⟩

example : ∃ y, tensor true demoTensors ⟨[1, 2], fun i => i.getD 1 0 + 10⟩ = .ok y ∧ y.val [0, 1] = 2 + 10 * 4 + 11 * 6 := ⟨_, rfl, by decide⟩

theorem singleLeaf_some {n : Nat} {s : Tree (List Nat)} {sh : List Nat} (h : singleLeaf n s = .ok (some sh)) :
    treeFlattenShape s = [some sh] ∧ sh.length = n := by
  unfold singleLeaf at h
  split at h
  · rename_i sh' e
    rw [e]
    simp only [Except.ok.injEq] at h
    split at h
    · cases h; exact ⟨rfl, ‹_›⟩
    · cases h
  · cases h
  · cases h

/-- **C70 (a compiled module does what it declares).** If `compile` succeeds for the shapes of the data, with given or fresh tensors of the tensor shape, then the call
succeeds, keeps the structure, every sample becomes its own tensor, and the shape behind the batch axis is the declared one. -/
theorem C70_call [Semiring V] (draw : List Nat → V) (bias : Bool) (ts : List Nat) (Ms : Option (NArr V)) (hMs : ∀ M, Ms = some M → ∃ p, M.shape = p :: ts)
    (data : Tree (NArr V)) (hk : KeysOk data) (hbatch : ∀ p x, At data p x → x.shape ≠ []) (M : NArr V)
    (h : compile draw bias ts Ms (map (fun x => x.shape.tail) data) = .ok M) :
    ∃ out, call bias M data = .ok out ∧ map (fun _ => ()) out = map (fun _ => ()) data.norm ∧
      AffineTensor.outputShape ts (map (fun x => x.shape.tail) data) = .ok (map (fun y => y.shape.tail) out) ∧
      ∀ p x, At data p x → ∃ y b f, At out p y ∧ x.shape = [b, f] ∧ y.shape = b :: ts ∧ tensor bias M x = .ok y := by
  unfold compile at h
  split at h
  · cases h
  · rename_i f hs
    obtain ⟨h1, -⟩ := singleLeaf_some hs
    simp only at h
    have hM : M.shape = (if bias then f + 1 else f) :: ts := by
      cases hm : Ms with
      | none => rw [hm] at h; simp only [Except.ok.injEq] at h; rw [← h]
      | some M' =>
        rw [hm] at h
        simp only at h
        generalize (if bias = true then f + 1 else f) = p' at h ⊢
        split at h
        · rename_i hh
          cases h
          obtain ⟨p, hp⟩ := hMs _ hm
          rw [hp] at hh ⊢
          rw [← hh]
          rfl
        · cases h
    have hx' : ∀ p x, At data p x → ∃ b, x.shape = [b, f] := by
      intro p x hx
      obtain ⟨b, s, hs'⟩ := List.exists_cons_of_ne_nil (hbatch p x hx)
      have hm : some s ∈ treeFlattenShape (map (fun x : NArr V => x.shape.tail) data) := by
        unfold treeFlattenShape
        apply mem_shapeLeaves
        rw [mem_flat_at]
        exact ⟨p, at_norm.2 (at_map.2 ⟨x, hx, by rw [hs']; rfl⟩)⟩
      rw [h1, List.mem_singleton] at hm
      cases hm
      exact ⟨b, hs'⟩
    obtain ⟨out, r1, r2, r3⟩ := jaxMap_one (t := data) (f := fun x => match tensor bias M x with
        | .ok y => .ok (.leaf y)
        | .error e => .error e) (R := fun _ (x y : NArr V) => ∃ b f, x.shape = [b, f] ∧ y.shape = b :: ts ∧ tensor bias M x = .ok y) (fun p x hx => by
      obtain ⟨b, hb⟩ := hx' p x hx
      have : ∃ y, tensor bias M x = .ok y ∧ y.shape = b :: ts := by
        unfold tensor
        rw [hM, hb]
        cases bias
        · simp only [Bool.false_eq_true, if_false, if_true]; exact ⟨_, rfl, rfl⟩
        · simp only [if_true]; exact ⟨_, rfl, rfl⟩
      obtain ⟨y, h1, h2⟩ := this
      exact ⟨y, by rw [h1], b, f, hb, h2, h1⟩)
    refine ⟨out, r1, r2, ?_, fun p x hx => ?_⟩
    · unfold AffineTensor.outputShape
      rw [hs]
      simp only [Except.ok.injEq]
      rw [norm_map, map_map]
      have e : map (fun _ => ts) (map (fun _ => ()) out) = map (fun _ => ts) (map (fun _ => ()) data.norm) := by rw [r2]
      rw [map_map, map_map] at e
      refine e.symm.trans ((Tree.map_congr_iff _ _ _).2 fun y hy => ?_)
      obtain ⟨p, hp⟩ := mem_flat_at.1 hy
      obtain ⟨x, hx⟩ := Scalers.at_of_struct r2 hp
      obtain ⟨y', hy', b, f', -, hsh, -⟩ := r3 p x (at_norm.1 hx)
      rw [at_unique (keysOk_of_struct r2 (keysOk_norm' hk)) hp hy', hsh]
      rfl
    · obtain ⟨y, hy, b, f, q1, q2, q3⟩ := r3 p x hx
      exact ⟨y, b, f, hy, q1, q2, q3⟩
  · cases h

/-- **C70 (what is refused).** Data with several arrays, with no array, or with an array that is not one-dimensional, and a number of features that does not fit the
given tensors, are refused when compiling. -/
theorem C70_refused (draw : List Nat → V) (bias : Bool) (ts : List Nat) (Ms : Option (NArr V)) (s : Tree (List Nat)) :
    (∃ M, compile draw bias ts Ms s = .ok M) ↔
      ∃ f, treeFlattenShape s = [some [f]] ∧ ∀ M, Ms = some M → M.shape.headD 0 = if bias then f + 1 else f := by
  constructor
  · rintro ⟨M, h⟩
    unfold compile at h
    split at h
    · cases h
    · rename_i f hs
      refine ⟨f, (singleLeaf_some hs).1, fun M' hM' => ?_⟩
      subst hM'
      simp only at h
      generalize (if bias = true then f + 1 else f) = p' at h ⊢
      split at h
      · assumption
      · cases h
    · cases h
  · rintro ⟨f, h1, h2⟩
    have hs : singleLeaf 1 s = .ok (some [f]) := by unfold singleLeaf; rw [h1]; rfl
    unfold compile
    rw [hs]
    cases Ms with
    | none => exact ⟨_, rfl⟩
    | some M => exact ⟨M, by simp only; rw [if_pos (h2 M rfl)]⟩

example : ∃ M, compile (fun _ => 0) true [2] (some demoTensors) (.list [.leaf [2]]) = .ok M := ⟨_, rfl⟩
example : compile (fun _ => (0 : Int)) false [2] Option.none (.list [.leaf [2, 2]]) = .error .valueError := rfl

end Verif.Props
