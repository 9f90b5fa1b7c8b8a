import Verif.Lemmas.Precision
import Verif.Lemmas.ModelFile
import Verif.Lemmas.TreeMap
import Verif.Lemmas.TreeDec
import Verif.Lemmas.EditReady
import Verif.Lemmas.Params
import Verif.Props.Eigen
import Mathlib.Tactic.ByContra
import Mathlib.Algebra.Ring.Int.Defs

/-! # C73 `set_precision` and C74 `safecast` -/

namespace Verif.Props
open Precision PrecisionSpec

variable {V : Type}

/-- **C73** `set_precision` succeeds exactly when the precision is one of the documented options, 64 bits only with
`jax_enable_x64`, and every module at every depth is ready. -/
theorem C73_succeeds_iff (conv : DType → DType → V → V) (x64 : Bool) (o : Option') (m : PrecMod V) :
    (setPrecision conv x64 o m).1 = none ↔ AllReady m ∧ ∃ p, parse o = some p ∧ (p = 64 → x64 = true) := by
  unfold setPrecision
  constructor
  · intro h
    split at h
    · cases h
    · cases hp : parse o with
      | none => rw [hp] at h; cases h
      | some p =>
        rw [hp] at h
        simp only at h
        split at h
        · cases h
        · rename_i hx
          refine ⟨setPrec_none conv p m h, p, rfl, ?_⟩
          rintro rfl
          cases x64
          · exact absurd rfl hx
          · rfl
  · rintro ⟨h, p, hp, hx⟩
    rw [allReady_ready m h, hp]
    simp only [Bool.not_true, Bool.false_eq_true, if_false]
    rw [if_neg, setPrec_ok conv p m h]
    intro h'
    simp only [Bool.and_eq_true, Bool.not_eq_true', beq_iff_eq] at h'
    rw [hx h'.2] at h'
    cases h'.1

/-- **C73** The documented names mean what they say: each 32-bit name selects 32 bits, each 64-bit name 64 bits, and nothing
else is accepted. -/
theorem C73_options (o : Option') :
    (parse o = some 32 ↔ o = .dtype (.float 32) ∨ o = .dtype (.complex 64) ∨ o = .int 32 ∨
      ∃ s : String, o = .str s.toList ∧ (s = "float32" ∨ s = "complex64" ∨ s = "single" ∨ s = "f32" ∨ s = "c64")) ∧
    (parse o = some 64 ↔ o = .dtype (.float 64) ∨ o = .dtype (.complex 128) ∨ o = .int 64 ∨
      ∃ s : String, o = .str s.toList ∧ (s = "float64" ∨ s = "complex128" ∨ s = "double" ∨ s = "f64" ∨ s = "c128")) ∧
    (∀ p, parse o = some p → p = 32 ∨ p = 64) := by
  refine ⟨⟨fun h => ?_, fun h => ?_⟩, ⟨fun h => ?_, fun h => ?_⟩, fun p h => parse_bits h⟩
  · unfold parse at h
    split at h
    · rename_i hm
      simp only [List.mem_cons, List.not_mem_nil, or_false] at hm
      rcases hm with h | h | h | h | h | h | h | h
      · exact Or.inl h
      · exact Or.inr (Or.inl h)
      · exact Or.inr (Or.inr (Or.inr ⟨_, h, by simp⟩))
      · exact Or.inr (Or.inr (Or.inr ⟨_, h, by simp⟩))
      · exact Or.inr (Or.inr (Or.inr ⟨_, h, by simp⟩))
      · exact Or.inr (Or.inr (Or.inr ⟨_, h, by simp⟩))
      · exact Or.inr (Or.inr (Or.inr ⟨_, h, by simp⟩))
      · exact Or.inr (Or.inr (Or.inl h))
    · split at h <;> cases h
  · rcases h with h | h | h | ⟨s, h, hs⟩
    · subst h; rfl
    · subst h; rfl
    · subst h; rfl
    · rcases hs with rfl | rfl | rfl | rfl | rfl <;> subst h <;> decide
  · unfold parse at h
    split at h
    · cases h
    · split at h
      · rename_i hm
        simp only [List.mem_cons, List.not_mem_nil, or_false] at hm
        rcases hm with h | h | h | h | h | h | h | h
        · exact Or.inl h
        · exact Or.inr (Or.inl h)
        · exact Or.inr (Or.inr (Or.inr ⟨_, h, by simp⟩))
        · exact Or.inr (Or.inr (Or.inr ⟨_, h, by simp⟩))
        · exact Or.inr (Or.inr (Or.inr ⟨_, h, by simp⟩))
        · exact Or.inr (Or.inr (Or.inr ⟨_, h, by simp⟩))
        · exact Or.inr (Or.inr (Or.inr ⟨_, h, by simp⟩))
        · exact Or.inr (Or.inr (Or.inl h))
      · cases h
  · rcases h with h | h | h | ⟨s, h, hs⟩
    · subst h; rfl
    · subst h; rfl
    · subst h; rfl
    · rcases hs with rfl | rfl | rfl | rfl | rfl <;> subst h <;> decide

/-- **C73** After a successful call nothing but the arrays has changed, and each array, parameter or state, at every depth,
has the selected precision: complex arrays stay complex, all others become real floating point arrays, and the entries are
those of the old array, converted. -/
theorem C73_casts (conv : DType → DType → V → V) (x64 : Bool) (o : Option') (m : PrecMod V) {p : Nat} (hp : parse o = some p)
    (h : (setPrecision conv x64 o m).1 = none) :
    ∃ g : Arr V → Arr V, (setPrecision conv x64 o m).2 = mapArr g m ∧
      arrays (setPrecision conv x64 o m).2 = (arrays m).map g ∧
      ∀ x, (g x).dtype = target p x.dtype ∧ (g x).vals = x.vals.map (conv x.dtype (target p x.dtype)) := by
  obtain ⟨hr, p', hp', hx⟩ := (C73_succeeds_iff conv x64 o m).1 h
  obtain rfl : p = p' := Option.some.inj (hp.symm.trans hp')
  have h2 : (setPrecision conv x64 o m).2 = mapArr (castArr conv p) m := by
    unfold setPrecision
    rw [allReady_ready m hr, hp]
    simp only [Bool.not_true, Bool.false_eq_true, if_false]
    rw [if_neg, setPrec_ok conv p m hr]
    intro h'
    simp only [Bool.and_eq_true, Bool.not_eq_true', beq_iff_eq] at h'
    rw [hx h'.2] at h'
    cases h'.1
  refine ⟨castArr conv p, h2, by rw [h2, arrays_mapArr], fun x => ⟨castArr_dtype conv (parse_bits hp) x, castArr_vals conv (parse_bits hp) x⟩⟩

/-- **C73** A rejected option, or a model that is not ready itself, leaves everything unchanged. -/
theorem C73_rejected (conv : DType → DType → V → V) (x64 : Bool) (o : Option') (m : PrecMod V)
    (h : ready m = false ∨ parse o = none ∨ (parse o = some 64 ∧ x64 = false)) :
    (setPrecision conv x64 o m).1 ≠ none ∧ (setPrecision conv x64 o m).2 = m := by
  unfold setPrecision
  by_cases hr : ready m = true
  · rw [hr]
    rcases h with h | h | ⟨h, hx⟩
    · rw [hr] at h; cases h
    · rw [h]; exact ⟨nofun, rfl⟩
    · rw [h, hx]; exact ⟨nofun, rfl⟩
  · simp only [Bool.not_eq_true] at hr
    rw [hr]; exact ⟨nofun, rfl⟩

/-- **C73** If all modules of all models inside are executed, as in sequential models, then a ready model accepts every option
that its backend supports. -/
theorem C73_sequential (conv : DType → DType → V → V) (x64 : Bool) (o : Option') (m : PrecMod V) (he : AllExecuted m) (hr : ready m = true)
    {p : Nat} (hp : parse o = some p) (hx : p = 64 → x64 = true) : (setPrecision conv x64 o m).1 = none :=
  (C73_succeeds_iff conv x64 o m).2 ⟨ready_executed m he hr, p, hp, hx⟩

/-- **C73** A second call with the same precision changes nothing. -/
theorem C73_idempotent (conv : DType → DType → V → V) (hconv : ∀ d v, conv d d v = v) (x64 : Bool) (o o' : Option') (m : PrecMod V)
    (hoo : parse o' = parse o) (h : (setPrecision conv x64 o m).1 = none) :
    setPrecision conv x64 o' (setPrecision conv x64 o m).2 = (none, (setPrecision conv x64 o m).2) := by
  obtain ⟨hr, p, hp, hx⟩ := (C73_succeeds_iff conv x64 o m).1 h
  obtain ⟨g, hg, -, hg'⟩ := C73_casts conv x64 o m hp h
  have h1 : (setPrecision conv x64 o' (mapArr g m)).1 = none :=
    (C73_succeeds_iff conv x64 o' _).2 ⟨allReady_mapArr g m hr, p, hoo.trans hp, hx⟩
  obtain ⟨k, hk, -, hk'⟩ := C73_casts conv x64 o' (mapArr g m) (hoo.trans hp) h1
  rw [hg]
  refine Prod.ext h1 ?_
  rw [hk, mapArr_map]
  refine mapArr_congr m fun x _ => ?_
  obtain ⟨d1, v1⟩ := hg' x
  obtain ⟨d2, v2⟩ := hk' (g x)
  have hd : target p (g x).dtype = (g x).dtype := by rw [d1]; cases x.dtype <;> rfl
  have : (k (g x)).vals = (g x).vals := by rw [v2, hd]; conv_rhs => rw [← List.map_id (g x).vals]
                                           exact List.map_congr_left fun v _ => hconv _ v
  cases hkg : k (g x) with
  | mk dd vv =>
    rw [hkg] at d2 this
    cases hgx : g x with
    | mk de ve =>
      rw [hgx] at d2 this hd
      simp only at d2 this hd
      rw [d2, this, hd]

/-- **C73** Going to 64 bits and back restores a model of 32-bit arrays, if conversion to 64 bits loses nothing. -/
theorem C73_round_trip (conv : DType → DType → V → V)
    (hconv : ∀ d v, HasBits 32 d → conv (target 64 d) d (conv d (target 64 d) v) = v) (o o' : Option') (m : PrecMod V)
    (hm : ∀ x ∈ arrays m, HasBits 32 x.dtype) (ho : parse o = some 64) (ho' : parse o' = some 32)
    (h : (setPrecision conv true o m).1 = none) :
    setPrecision conv true o' (setPrecision conv true o m).2 = (none, m) := by
  obtain ⟨hr, -⟩ := (C73_succeeds_iff conv true o m).1 h
  obtain ⟨g, hg, -, hg'⟩ := C73_casts conv true o m ho h
  have h1 : (setPrecision conv true o' (mapArr g m)).1 = none :=
    (C73_succeeds_iff conv true o' _).2 ⟨allReady_mapArr g m hr, 32, ho', fun _ => rfl⟩
  obtain ⟨k, hk, -, hk'⟩ := C73_casts conv true o' (mapArr g m) ho' h1
  rw [hg]
  refine Prod.ext h1 ?_
  rw [hk, mapArr_map]
  refine (mapArr_congr (g' := fun x => x) m fun x hx => ?_).trans (mapArr_id m)
  obtain ⟨d1, v1⟩ := hg' x
  obtain ⟨d2, v2⟩ := hk' (g x)
  have hb := hm x hx
  have hd : target 32 (target 64 x.dtype) = x.dtype := by rcases hb with hb | hb <;> rw [hb] <;> rfl
  rw [d1, hd] at d2
  rw [d1, hd, v1, List.map_map] at v2
  have : (k (g x)).vals = x.vals := by
    rw [v2]
    conv_rhs => rw [← List.map_id x.vals]
    exact List.map_congr_left fun v _ => hconv _ v hb
  cases hkg : k (g x) with
  | mk dd vv =>
    rw [hkg] at d2 this
    cases x
    simp only at d2 this
    rw [d2, this]

/-- Whole numbers, as they are in all types; used in examples. -/
def exactConv : DType → DType → Int → Int := fun _ _ v => v

/-- A model with a nested model, real, complex and integer arrays. -/
def precModel : PrecMod Int :=
  .model true [(true, .base true [⟨.float 32, [1, 2]⟩] [⟨.int 32, [7]⟩]), (true, .model true [(true, .base true [⟨.complex 64, [3]⟩] [])])]

example : setPrecision exactConv true (.int 64) precModel =
    (none, .model true [(true, .base true [⟨.float 64, [1, 2]⟩] [⟨.float 64, [7]⟩]), (true, .model true [(true, .base true [⟨.complex 128, [3]⟩] [])])]) := by
  rfl

example : AllReady precModel ∧ AllExecuted precModel ∧ parse (.str "double".toList) = some 64 ∧ parse (.dtype (.float 16)) = none ∧
    (setPrecision exactConv false (.int 64) precModel).1 = some .valueError := by
  refine ⟨⟨rfl, rfl, ⟨rfl, rfl, trivial⟩, trivial⟩, ⟨rfl, trivial, rfl, ⟨rfl, trivial, trivial⟩, trivial⟩, by decide, by decide, rfl⟩

example : ∀ x ∈ arrays (.model true [(true, .base true [⟨.float 32, [1, 2]⟩] [⟨.complex 64, [3]⟩])] : PrecMod Int), HasBits 32 x.dtype := by
  intro x hx
  simp only [arrays, arraysL, List.append_nil, List.cons_append, List.nil_append, List.mem_cons, List.not_mem_nil, or_false] at hx
  rcases hx with rfl | rfl
  · exact Or.inl rfl
  · exact Or.inr rfl

/-- **C73** (defect) In a graph model with a module that is not executed and not ready, `set_precision` on the ready model
raises midway: the modules before it have the new precision, those after it the old one. -/
theorem C73_unused_module_refuted : ∃ m : PrecMod Int, ready m = true ∧ (setPrecision exactConv true (.int 64) m).1 = some .runtimeError ∧
    (arrays m).map (·.dtype) = [.float 32, .float 32] ∧ (arrays (setPrecision exactConv true (.int 64) m).2).map (·.dtype) = [.float 64, .float 32] :=
  ⟨.model true [(true, .base true [⟨.float 32, [1]⟩] []), (false, .base false [] []), (true, .base true [⟨.float 32, [2]⟩] [])], rfl, rfl, rfl, rfl⟩

/-- **C73** (defect) Integer and Boolean arrays, such as counters or masks in a module's state, do not keep their type. -/
theorem C73_integers_refuted (conv : DType → DType → V → V) (x64 : Bool) (o : Option') (m : PrecMod V) (h : (setPrecision conv x64 o m).1 = none) :
    ∀ x ∈ arrays (setPrecision conv x64 o m).2, (∃ b, x.dtype = .float b) ∨ ∃ b, x.dtype = .complex b := by
  obtain ⟨-, p, hp, -⟩ := (C73_succeeds_iff conv x64 o m).1 h
  obtain ⟨g, -, hg, hg'⟩ := C73_casts conv x64 o m hp h
  intro x hx
  rw [hg] at hx
  obtain ⟨y, -, rfl⟩ := List.mem_map.1 hx
  rw [(hg' y).1]
  cases y.dtype
  · exact Or.inl ⟨_, rfl⟩
  · exact Or.inl ⟨_, rfl⟩
  · exact Or.inl ⟨_, rfl⟩
  · exact Or.inl ⟨_, rfl⟩
  · exact Or.inr ⟨_, rfl⟩

/-! ### C74 -/

/-- **C74** Casting data succeeds exactly when it does not drop imaginary parts: the requested type is complex or no leaf is;
otherwise it raises a value error. -/
theorem C74_succeeds_iff (conv : DType → DType → V → V) (x64 : Bool) (d : DType) (X : Tree (Arr V)) :
    ((∃ r, safecast conv x64 d X = .ok r) ↔ d.isComplex = true ∨ ∀ x ∈ X.flat, x.dtype.isComplex = false) ∧
    (∀ e, safecast conv x64 d X = .error e → e = .valueError) := by
  have key : ∀ x : Arr V, (x.dtype.isComplex && !d.isComplex) = false → castLeaf conv x64 d x = .ok (.leaf (x.astype conv (canonical x64 d))) := fun x hx => by
    rw [castLeaf, hx]; rfl
  refine ⟨⟨?_, fun h => ?_⟩, ?_⟩
  · rintro ⟨r, hr⟩
    by_cases hd : d.isComplex = true
    · exact Or.inl hd
    refine Or.inr fun x hx => ?_
    by_contra hc
    simp only [Bool.not_eq_false] at hc
    have : castLeaf conv x64 d x = .error .valueError := by
      simp only [Bool.not_eq_true] at hd
      rw [castLeaf, hc, hd]; rfl
    obtain ⟨e, he⟩ := Tree.mapM_fails (Tree.mem_flat_norm.2 hx) this
    rw [safecast, he] at hr
    cases hr
  · have := Tree.mapM_leaf (castLeaf conv x64 d) (fun x => x.astype conv (canonical x64 d)) X.norm fun x hx => key x <| by
      rcases h with h | h
      · rw [h]; simp
      · rw [h x (Tree.mem_flat_norm.1 hx)]; rfl
    rw [safecast, this]
    exact ⟨_, rfl⟩
  · intro e he
    rw [safecast] at he
    cases hm : Tree.mapM (castLeaf conv x64 d) X.norm with
    | ok r => rw [hm] at he; cases he
    | error e' =>
      rw [hm] at he
      cases he
      obtain ⟨x, -, hx⟩ := Tree.mapM_error_mem _ hm
      rw [castLeaf] at hx
      split at hx
      · cases hx; rfl
      · cases hx

/-- **C74** On success the data has the same structure (dictionaries in the order of their keys), each leaf has the type that
the backend uses for the requested one and holds the converted entries, and there is a warning exactly when there is data and
the backend does not support the requested type. -/
theorem C74_casts (conv : DType → DType → V → V) (x64 : Bool) (d : DType) (X : Tree (Arr V)) {Y : Tree (Arr V)} {w : Bool}
    (h : safecast conv x64 d X = .ok (Y, w)) :
    Y = Tree.map (fun x => ⟨canonical x64 d, x.vals.map (conv x.dtype (canonical x64 d))⟩) X.norm ∧
    (w = true ↔ X.flat ≠ [] ∧ canonical x64 d ≠ d) := by
  have hs := (C74_succeeds_iff conv x64 d X).1.1 ⟨_, h⟩
  have := Tree.mapM_leaf (castLeaf conv x64 d) (fun x => x.astype conv (canonical x64 d)) X.norm fun x hx => by
    rw [castLeaf, if_neg]
    rcases hs with h | h
    · rw [h]; simp
    · rw [h x (Tree.mem_flat_norm.1 hx)]; simp
  rw [safecast, this] at h
  simp only [Except.ok.injEq, Prod.mk.injEq] at h
  obtain ⟨rfl, rfl⟩ := h
  refine ⟨rfl, ?_⟩
  have hmem : ∀ y, y ∈ (Tree.map (fun x => x.astype conv (canonical x64 d)) X.norm).jaxLeaves ↔ ∃ x ∈ X.flat, x.astype conv (canonical x64 d) = y := fun y => by
    rw [(Edit.jaxLeaves_perm _).mem_iff, flat_map, List.mem_map]
    exact ⟨fun ⟨x, hx, h⟩ => ⟨x, Tree.mem_flat_norm.1 hx, h⟩, fun ⟨x, hx, h⟩ => ⟨x, Tree.mem_flat_norm.2 hx, h⟩⟩
  simp only [List.any_eq_true, bne_iff_ne]
  constructor
  · rintro ⟨y, hy, hn⟩
    obtain ⟨x, hx, rfl⟩ := (hmem y).1 hy
    exact ⟨List.ne_nil_of_mem hx, hn⟩
  · rintro ⟨hne, hn⟩
    obtain ⟨x, hx⟩ := List.exists_mem_of_ne_nil _ hne
    exact ⟨_, (hmem _).2 ⟨x, hx, rfl⟩, hn⟩

/-- **C74** What the backend supports: with `jax_enable_x64` every type; without it exactly the types without a 64-bit
number are kept. -/
theorem C74_warning_types (x64 : Bool) (d : DType) :
    canonical x64 d ≠ d ↔ x64 = false ∧ (d = .int 64 ∨ d = .uint 64 ∨ d = .float 64 ∨ d = .complex 128) := by
  unfold canonical
  cases x64
  · simp only [Bool.false_eq_true, if_false, true_and]
    split <;> simp_all
  · simp

/-- **C74 (`astype`).** It casts every array and keeps structure and order of the data. It warns exactly for the data that `safecast` refuses, and otherwise returns what `safecast` does. -/
theorem C74_astype (conv : DType → DType → V → V) (x64 : Bool) (d : DType) (X : Tree (Arr V)) :
    (Tree.map (fun _ => ()) (treeAstype conv x64 d X).1 = Tree.map (fun _ => ()) X.norm ∧
      Tree.flat (treeAstype conv x64 d X).1 = (Tree.flat X.norm).map fun x => ⟨canonical x64 d, x.vals.map (conv x.dtype (canonical x64 d))⟩) ∧
    ((treeAstype conv x64 d X).2 = true ↔ safecast conv x64 d X = .error .valueError) ∧
    ((treeAstype conv x64 d X).2 = false ↔ ∃ w, safecast conv x64 d X = .ok ((treeAstype conv x64 d X).1, w)) := by
  have hw : (treeAstype conv x64 d X).2 = true ↔ ¬ ∃ r, safecast conv x64 d X = .ok r := by
    rw [(C74_succeeds_iff conv x64 d X).1]
    simp only [treeAstype, Bool.and_eq_true, Bool.not_eq_true', List.any_eq_true, Tree.jaxLeaves]
    push Not
    constructor
    · rintro ⟨h1, x, hx, h2⟩
      exact ⟨by simp [h1], x, Tree.mem_flat_norm.1 hx, by simp [h2]⟩
    · rintro ⟨h1, x, hx, h2⟩
      exact ⟨by simpa using h1, x, Tree.mem_flat_norm.2 hx, by simpa using h2⟩
  have hok : ∀ r, safecast conv x64 d X = .ok r → r.1 = (treeAstype conv x64 d X).1 := fun r hr => (C74_casts conv x64 d X (Y := r.1) (w := r.2) hr).1
  refine ⟨⟨?_, ?_⟩, ?_, ?_⟩
  · rw [treeAstype, Tree.map_map]
  · rw [treeAstype, Tree.flat_map']; rfl
  · rw [hw]
    cases hs : safecast conv x64 d X with
    | ok r => simp
    | error e => simp [(C74_succeeds_iff conv x64 d X).2 e hs]
  · rw [← Bool.not_eq_true, hw, not_not]
    constructor
    · rintro ⟨r, hr⟩
      exact ⟨r.2, by rw [hr, ← hok r hr]⟩
    · rintro ⟨w, h⟩
      exact ⟨_, h⟩

example : treeAstype exactConv true (.float 64) (.list [.leaf ⟨.float 32, [1]⟩, .leaf ⟨.complex 64, [2]⟩]) =
    (.list [.leaf ⟨.float 64, [1]⟩, .leaf ⟨.float 64, [2]⟩], true) := by decide +kernel

example : safecast exactConv false (.float 64) (.dict [("b".toList, .leaf ⟨.float 32, [1]⟩), ("a".toList, .leaf ⟨.int 32, [2]⟩)]) =
    .ok (.dict [("a".toList, .leaf ⟨.float 32, [2]⟩), ("b".toList, .leaf ⟨.float 32, [1]⟩)], true) := by
  decide +kernel

example : safecast exactConv true (.float 64) (.list [.leaf ⟨.float 32, [1]⟩, .leaf ⟨.complex 64, [2]⟩]) = .error .valueError := by
  decide +kernel

end Verif.Props
