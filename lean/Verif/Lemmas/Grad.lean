import Verif.Spec.Grad
import Verif.Lemmas.Batch

/-! # Lemmas about gradients -/

namespace Verif
namespace Grad
open Batch BatchSpec GradSpec

variable {α γ δ S W : Type}

theorem sampleOf_length {n : Nat} {X : Leaves α} (hX : ∀ x ∈ X, x.length = n) {i : Nat} (hi : i < n) : (sampleOf X i).length = X.length := by
  induction X with
  | nil => rfl
  | cons x X ih =>
    have h1 : x[i]? = some (x[i]'(by rw [hX x (by simp)]; exact hi)) := List.getElem?_eq_getElem _
    rw [sampleOf, List.filterMap_cons, h1]
    simp only [List.length_cons]
    exact congrArg (· + 1) (ih fun y hy => hX y (List.mem_cons_of_mem _ hy))

theorem sampleOf_batch {n : Nat} {X : Leaves α} (hX : ∀ x ∈ X, x.length = n) {i : Nat} (hi : i < n) :
    ((sampleOf X i).map fun a => [a]) = X.map fun x => (x[i]?).toList := by
  induction X with
  | nil => rfl
  | cons x X ih =>
    have h1 : x[i]? = some (x[i]'(by rw [hX x (by simp)]; exact hi)) := List.getElem?_eq_getElem _
    have ih' := ih fun y hy => hX y (List.mem_cons_of_mem _ hy)
    rw [sampleOf, List.filterMap_cons, h1, List.map_cons, List.map_cons, h1]
    exact congrArg _ ih'

theorem flatten_ones {l : List (List γ)} (h : ∀ y ∈ l, y.length = 1) (i : Nat) : l.flatten[i]? = (l[i]?).bind List.head? := by
  induction l generalizing i with
  | nil => simp
  | cons y l ih =>
    obtain ⟨a, rfl⟩ := List.length_eq_one_iff.1 (h y (by simp))
    cases i with
    | zero => simp
    | succ i => simpa using ih (fun z hz => h z (List.mem_cons_of_mem _ hz)) i

theorem runs_map {f : Leaves α → S → Leaves γ × S} (hf : PerSample f) (bs : List (Leaves α)) (s : S) : Runs f bs s (bs.map fun b => (f b s).1) s := by
  induction bs with
  | nil => exact Runs.nil s
  | cons b bs ih =>
    have : Runs f bs (f b s).2 (bs.map fun b => (f b s).1) s := by rw [hf.state]; exact ih
    exact Runs.cons this

/-- The row of a sample is the output for this sample alone. -/
theorem row_single {f : Leaves α → S → Leaves γ × S} (hf : PerSample f) (hr : RowPerSample f) {n : Nat} {X : Leaves α} (hX : Uniform n X) (s : S)
    {i : Nat} (hi : i < n) : ((f X s).1.map fun y => y[i]?) = single f s (sampleOf X i) := by
  have hj : JoinOf ((singles n X).map fun b => (f b s).1) (f X s).1 := by
    refine perSample_join hf ?_ ?_ (runs_map hf _ s) (join_singles hX.2)
    · intro h
      have := congrArg List.length h
      simp [singles] at this
      omega
    · intro b hb
      obtain ⟨j, hj, rfl⟩ := List.mem_map.1 hb
      refine ⟨1, Nat.one_pos, uniform_map hX _ fun x hx => ?_⟩
      have h1 : x[j]? = some (x[j]'(by rw [hX.2 x hx]; exact List.mem_range.1 hj)) := List.getElem?_eq_getElem _
      rw [h1]; rfl
  have hb : Uniform 1 (X.map fun x => (x[i]?).toList) := uniform_map hX _ fun x hx => by
    have h1 : x[i]? = some (x[i]'(by rw [hX.2 x hx]; exact hi)) := List.getElem?_eq_getElem _
    rw [h1]; rfl
  have hi' : (singles n X)[i]? = some (X.map fun x => (x[i]?).toList) := by
    simp [singles, hi]
  have hw : (f (X.map fun x => (x[i]?).toList) s).1.length = (f X s).1.length :=
    hj.1 _ (List.mem_map.2 ⟨_, List.mem_of_getElem? hi', rfl⟩)
  rw [single, sampleOf_batch hX.2 hi]
  apply List.ext_getElem?
  intro k
  rw [List.getElem?_map, List.getElem?_map]
  by_cases hk : k < (f X s).1.length
  · rw [List.getElem?_eq_getElem hk, List.getElem?_eq_getElem (by omega)]
    simp only [Option.map_some, Option.some.injEq]
    rw [hj.2 k _ (List.getElem?_eq_getElem hk), flatten_ones]
    · simp only [List.getElem?_map, hi', Option.map_some, Option.bind_some]
      rw [List.getElem?_eq_getElem (by omega : k < (f (X.map fun x => (x[i]?).toList) s).1.length)]
      rfl
    · intro y hy
      obtain ⟨b', hb', rfl⟩ := List.mem_map.1 hy
      obtain ⟨b, hbm, rfl⟩ := List.mem_map.1 hb'
      have hlen := hj.1 _ hb'
      obtain ⟨j, hjm, rfl⟩ := List.mem_map.1 hbm
      have hu : Uniform 1 (X.map fun x => (x[j]?).toList) := uniform_map hX _ fun x hx => by
        have h1 : x[j]? = some (x[j]'(by rw [hX.2 x hx]; exact List.mem_range.1 hjm)) := List.getElem?_eq_getElem _
        rw [h1]; rfl
      rw [List.getElem?_eq_getElem (by omega)]
      exact hr 1 _ s hu _ (List.getElem_mem _)
  · rw [List.getElem?_eq_none (by omega), List.getElem?_eq_none (by omega)]
    rfl

theorem replace_uniform {n : Nat} {X : Leaves α} (hX : Uniform n X) {i : Nat} {x : List α} (hx : x.length = X.length) :
    Uniform n (replaceSample X i x) := by
  refine ⟨?_, ?_⟩
  · intro h
    have := congrArg List.length h
    simp only [replaceSample, List.length_zipWith, hx, Nat.min_self, List.length_nil] at this
    exact hX.1 (List.length_eq_zero_iff.1 this)
  · intro y hy
    obtain ⟨k, hk⟩ := List.getElem?_of_mem hy
    rw [replaceSample, List.getElem?_zipWith] at hk
    cases hXk : X[k]? with
    | none => rw [hXk] at hk; cases hk
    | some l =>
      cases hxk : x[k]? with
      | none => rw [hXk, hxk] at hk; cases hk
      | some a =>
        rw [hXk, hxk] at hk
        simp only [Option.some.injEq] at hk
        rw [← hk, List.length_set]
        exact hX.2 l (List.mem_of_getElem? hXk)

theorem sampleOf_replace {n : Nat} {X : Leaves α} (hX : ∀ x ∈ X, x.length = n) {i : Nat} (hi : i < n) {x : List α} (hx : x.length = X.length) :
    sampleOf (replaceSample X i x) i = x := by
  induction X generalizing x with
  | nil => simp only [List.length_nil, List.length_eq_zero_iff] at hx; subst hx; rfl
  | cons l X ih =>
    cases x with
    | nil => simp at hx
    | cons a x =>
      have ih' := ih (fun y hy => hX y (List.mem_cons_of_mem _ hy)) (x := x) (by simpa using hx)
      have h1 : (l.set i a)[i]? = some a := by
        rw [List.getElem?_set_self (by rw [hX l (by simp)]; exact hi)]
      rw [replaceSample, List.zipWith_cons_cons, sampleOf, List.filterMap_cons, h1]
      exact congrArg (a :: ·) ih'

theorem sampleOf_replace_ne {X : Leaves α} {i j : Nat} (hij : i ≠ j) {x : List α} (hx : x.length = X.length) :
    sampleOf (replaceSample X i x) j = sampleOf X j := by
  induction X generalizing x with
  | nil => rfl
  | cons l X ih =>
    cases x with
    | nil => simp at hx
    | cons a x =>
      have ih' := ih (x := x) (by simpa using hx)
      have h1 : (l.set i a)[j]? = l[j]? := List.getElem?_set_ne hij
      rw [replaceSample, List.zipWith_cons_cons, sampleOf, sampleOf, List.filterMap_cons, List.filterMap_cons, h1]
      cases l[j]? with
      | none => exact ih'
      | some b => exact congrArg (b :: ·) ih'

theorem headD_length {n : Nat} {X : Leaves α} (hX : Uniform n X) : (X.headD []).length = n := by
  cases X with
  | nil => exact absurd rfl hX.1
  | cons x X => exact hX.2 x (by simp)

theorem filterMap_total {f : Nat → Option δ} {n : Nat} (h : ∀ i < n, (f i).isSome) (i : Nat) :
    ((List.range n).filterMap f)[i]? = if i < n then f i else none := by
  induction n with
  | zero => simp
  | succ n ih =>
    have ih := ih fun i hi => h i (by omega)
    rw [List.range_succ, List.filterMap_append]
    have hl : ((List.range n).filterMap f).length = n := by
      have : ∀ m, (∀ i < m, (f i).isSome) → ((List.range m).filterMap f).length = m := by
        intro m
        induction m with
        | zero => intro _; rfl
        | succ m ihm =>
          intro hm
          obtain ⟨a, ha⟩ := Option.isSome_iff_exists.1 (hm m (by omega))
          rw [List.range_succ, List.filterMap_append, List.length_append, ihm fun i hi => hm i (by omega)]
          simp [ha]
      exact this n fun i hi => h i (by omega)
    obtain ⟨a, ha⟩ := Option.isSome_iff_exists.1 (h n (by omega))
    rw [List.getElem?_append, hl]
    by_cases hi : i < n
    · rw [if_pos hi, ih, if_pos hi, if_pos (by omega)]
    · rw [if_neg hi]
      by_cases he : i = n
      · subst he; simp [ha]
      · rw [if_neg (by omega), List.filterMap_cons, ha]
        rw [List.getElem?_eq_none (by simp; omega)]

theorem length_filterMap_total {f : Nat → Option δ} {n : Nat} (h : ∀ i < n, (f i).isSome) : ((List.range n).filterMap f).length = n := by
  have h1 := filterMap_total h n
  rw [if_neg (by omega)] at h1
  have h2 := List.getElem?_eq_none_iff.1 h1
  rcases Nat.lt_or_ge ((List.range n).filterMap f).length n with h3 | h3
  · have h4 := filterMap_total h ((List.range n).filterMap f).length
    rw [if_pos h3, List.getElem?_eq_none (Nat.le_refl _)] at h4
    have := h _ h3
    rw [← h4] at this
    cases this
  · omega

theorem join_sampleOf {n m : Nat} {X Y Z : Leaves α} (hY : Uniform n Y) (hZ : Uniform m Z) (h : JoinOf [Y, Z] X) :
    Uniform (n + m) X ∧ (∀ i < n, sampleOf X i = sampleOf Y i) ∧ ∀ i < m, sampleOf X (n + i) = sampleOf Z i := by
  have hl1 := h.1 Y (by simp)
  have hl2 := h.1 Z (by simp)
  have hk : ∀ (k : Nat) (x : List α), X[k]? = some x → ∃ y z : List α, Y[k]? = some y ∧ Z[k]? = some z ∧ x = y ++ z ∧ y.length = n ∧ z.length = m := by
    intro k x hx
    have hlt := (List.getElem?_eq_some_iff.1 hx).1
    have h1 : Y[k]? = some Y[k] := List.getElem?_eq_getElem (by omega)
    have h2 : Z[k]? = some Z[k] := List.getElem?_eq_getElem (by omega)
    refine ⟨_, _, h1, h2, ?_, hY.2 _ (List.getElem_mem _), hZ.2 _ (List.getElem_mem _)⟩
    rw [h.2 k x hx]
    simp [h1, h2]
  have hu : Uniform (n + m) X := by
    refine ⟨?_, ?_⟩
    · intro e; rw [e] at hl1; exact hY.1 (List.length_eq_zero_iff.1 hl1)
    · intro x hx
      obtain ⟨k, hk'⟩ := List.getElem?_of_mem hx
      obtain ⟨y, z, -, -, rfl, h1, h2⟩ := hk k x hk'
      simp [h1, h2]
  refine ⟨hu, fun i hi => ?_, fun i hi => ?_⟩
  · have e : (X.map fun x => x[i]?) = Y.map fun y => y[i]? := by
      apply List.ext_getElem?
      intro k
      rw [List.getElem?_map, List.getElem?_map]
      cases hXk : X[k]? with
      | none => rw [List.getElem?_eq_none (by have := List.getElem?_eq_none_iff.1 hXk; omega)]
      | some x =>
        obtain ⟨y, z, h1, -, rfl, h3, -⟩ := hk k x hXk
        rw [h1]
        simp only [Option.map_some]
        rw [List.getElem?_append_left (by omega)]
    have := congrArg (fun l => l.filterMap id) e
    simpa [List.filterMap_map, sampleOf] using this
  · have e : (X.map fun x => x[n + i]?) = Z.map fun y => y[i]? := by
      apply List.ext_getElem?
      intro k
      rw [List.getElem?_map, List.getElem?_map]
      cases hXk : X[k]? with
      | none => rw [List.getElem?_eq_none (by have := List.getElem?_eq_none_iff.1 hXk; omega)]; rfl
      | some x =>
        obtain ⟨y, z, -, h1, rfl, h3, -⟩ := hk k x hXk
        rw [h1]
        simp only [Option.map_some]
        rw [List.getElem?_append_right (by omega), h3, Nat.add_sub_cancel_left]
    have := congrArg (fun l => l.filterMap id) e
    simpa [List.filterMap_map, sampleOf] using this

/-- Leaves that are computed sample by sample. -/
def rows (cols : Nat) (n : Nat) (J : Nat → List δ) : Leaves δ := (List.range cols).map fun k => (List.range n).filterMap fun i => (J i)[k]?

theorem filterMap_congr' {f g : Nat → Option δ} {l : List Nat} (h : ∀ i ∈ l, f i = g i) : l.filterMap f = l.filterMap g := by
  induction l with
  | nil => rfl
  | cons a l ih =>
    rw [List.filterMap_cons, List.filterMap_cons, h a (by simp), ih fun i hi => h i (List.mem_cons_of_mem _ hi)]

theorem rows_join {cols n m : Nat} {J J1 J2 : Nat → List δ} (h : ∀ i, i < n → J i = J1 i) (h' : ∀ i, i < m → J (n + i) = J2 i) :
    JoinOf [rows cols n J1, rows cols m J2] (rows cols (n + m) J) := by
  refine ⟨by simp [rows], fun k x hx => ?_⟩
  have hk : k < cols := by
    have := (List.getElem?_eq_some_iff.1 hx).1
    simpa [rows] using this
  simp only [rows, List.getElem?_map, List.getElem?_range hk, Option.map_some, Option.some.injEq] at hx
  subst hx
  simp only [rows, List.map_cons, List.map_nil, List.getElem?_map, List.getElem?_range hk, Option.map_some, Option.getD_some,
    List.flatten_cons, List.flatten_nil, List.append_nil]
  rw [List.range_add, List.filterMap_append, List.filterMap_map]
  congr 1
  · exact filterMap_congr' fun i hi => by rw [h i (List.mem_range.1 hi)]
  · exact filterMap_congr' fun i hi => by
      simp only [Function.comp]
      rw [h' i (List.mem_range.1 hi)]

theorem gradInput_perSample {f : Leaves α → S → Leaves γ × S} (hf : PerSample f) (jac : (List α → List (Option γ)) → List α → List δ) (cols : Nat → Nat)
    {stack : Nat → (Nat → S) → S} (hs : ∀ n s, stack n (fun _ => s) = s) : PerSample (gradInput f jac cols stack) := by
  refine ⟨fun X s => ?_, ?_⟩
  · simp only [gradInput, hf.state]
    exact hs _ s
  · intro X Y Z s n m hn hm hY hZ hj
    obtain ⟨hu, h1, h2⟩ := join_sampleOf hY hZ hj
    have hl1 := hj.1 Y (by simp)
    have hl2 := hj.1 Z (by simp)
    simp only [gradInput, headD_length hu, headD_length hY, headD_length hZ, hl1, hl2]
    exact rows_join (cols := cols X.length) (J := fun i => jac (single f s) (sampleOf X i)) (fun i hi => by simp only [h1 i hi])
      (fun i hi => by simp only [h2 i hi])

theorem gradInput_static (f : Leaves α → S → Leaves γ × S) (jac : (List α → List (Option γ)) → List α → List δ) (cols : Nat → Nat)
    (stack : Nat → (Nat → S) → S) : StaticWidth (gradInput f jac cols stack) := fun X Y s s' h => by simp [gradInput, h]

theorem gradParams_perSample {f : W → Leaves α → S → Leaves γ × S} (hf : ∀ w, PerSample (f w)) (hr : ∀ w, RowPerSample (f w))
    (jac : (W → List (Option γ)) → W → List δ) (cols : Nat → Nat) (w : W) : PerSample (gradParams f jac cols w) := by
  refine ⟨fun X s => (hf w).state X s, ?_⟩
  intro X Y Z s n m hn hm hY hZ hj
  obtain ⟨hu, h1, h2⟩ := join_sampleOf hY hZ hj
  have hl1 := hj.1 Y (by simp)
  have hl2 := hj.1 Z (by simp)
  simp only [gradParams, headD_length hu, headD_length hY, headD_length hZ, hl1, hl2]
  refine rows_join (cols := cols X.length) (J := fun i => jac (fun w' => (f w' X s).1.map fun y => y[i]?) w) (fun i hi => ?_) (fun i hi => ?_)
  · congr 1
    funext w'
    rw [row_single (hf w') (hr w') hu s (by omega), row_single (hf w') (hr w') hY s hi, h1 i hi]
  · congr 1
    funext w'
    rw [row_single (hf w') (hr w') hu s (by omega), row_single (hf w') (hr w') hZ s hi, h2 i hi]

theorem gradParams_static (f : W → Leaves α → S → Leaves γ × S) (jac : (W → List (Option γ)) → W → List δ) (cols : Nat → Nat) (w : W) :
    StaticWidth (gradParams f jac cols w) := fun X Y s s' h => by simp [gradParams, h]

end Grad
end Verif
