import Verif.Lemmas.Sensitivity
import Verif.Props.Normalization

/-! # C80: the sensitivities of a prediction to parameters and inputs -/

namespace Verif
namespace Props
open Tree Sens SensSpec
open ForwardSpec (At KeysOk)
open NdSpec

variable {𝕜 : Type} [RCLike 𝕜]

/-- The number of entries of the selected parameters. -/
def selectedSize (P : Tree (NArr (Option 𝕜) × Bool)) : Nat :=
  ((jaxLeaves P).map fun p => if p.2 then (NArr.indices p.1.shape).length else 0).sum

theorem jaxMap_pair {α β γ : Type} {F : α → List (Tree β) → Except PyErr (Tree γ)} (hF : ∀ a vs, F a (vs.map norm) = F a vs) (h : α → β → γ)
    (hh : ∀ a b, F a [.leaf b] = .ok (.leaf (h a b))) {P : Tree (α × β)} (hP : KeysOk P) :
    jaxMap F (map Prod.fst P) [map Prod.snd P] = .ok (map (fun p => h p.1 p.2) P.norm) := by
  rw [← jaxMap_normal ((keysOk_map _ _).2 hP), ← Tree.jaxMap_norm hF _ _ (by simpa using (keysOk_map _ _).2 hP)]
  simp only [List.map_cons, List.map_nil]
  rw [Tree.norm_map, Tree.norm_map, ← bind_leaf Prod.snd, jaxMap_bind _ _ (keysOk_norm' hP) (norm_norm hP)]
  exact mapM_leaf _ _ _ fun x _ => hh x.1 x.2

/-- A parameter, or zeros of the same shape. -/
def masked (p : NArr (Option 𝕜)) (s : Bool) : NArr (Option 𝕜) := if s then p else NArr.uop (fun _ => some 0) p

theorem masked_shape (p : NArr (Option 𝕜)) (s : Bool) : (masked p s).shape = p.shape := by cases s <;> rfl

theorem select_run {P : Tree (NArr (Option 𝕜) × Bool)} (hP : KeysOk P) :
    jaxMap selectLeaf (map Prod.fst P) [map Prod.snd P] = .ok (map (fun p => masked p.1 p.2) P.norm) :=
  jaxMap_pair (fun a vs => by
    rcases vs with _ | ⟨v, _ | ⟨w, vs⟩⟩
    · rfl
    · cases v <;> rfl
    · cases v <;> rfl) masked (fun _ _ => rfl) hP

theorem size_run {P : Tree (NArr (Option 𝕜) × Bool)} (hP : KeysOk P) :
    jaxMap sizeLeaf (map Prod.fst P) [map Prod.snd P] = .ok (map (fun p => if p.2 then p.1.size else 0) P.norm) :=
  jaxMap_pair (F := sizeLeaf) (fun a vs => by
    rcases vs with _ | ⟨v, _ | ⟨w, vs⟩⟩
    · rfl
    · cases v <;> rfl
    · cases v <;> rfl) (fun a b => if b then a.size else 0) (fun _ _ => rfl) hP

theorem leaves_norm {α β : Type} (f : α → β) {P : Tree α} (hP : KeysOk P) : jaxLeaves (map f P.norm) = (jaxLeaves P).map f := by
  rw [Matmul.jaxLeaves_map, jaxLeaves, norm_norm hP, jaxLeaves]

theorem parameter_run {P : Tree (NArr (Option 𝕜) × Bool)} (hP : KeysOk P) (shapes : Tree (List Nat)) (grads : Tree (NArr (Option 𝕜))) :
    parameterSensitivity shapes grads (map Prod.fst P) (map Prod.snd P) =
      sensitivity shapes grads (map (fun p => masked p.1 p.2) P.norm) (selectedSize P) := by
  unfold parameterSensitivity
  rw [select_run hP]
  simp only [Bind.bind, Except.bind]
  rw [size_run hP]
  simp only
  rw [leaves_norm _ hP]
  unfold selectedSize
  congr 2
  refine List.map_congr_left fun p _ => ?_
  rw [NArr.length_indices]
  rfl

theorem squares_masked (g p : NArr (Option 𝕜)) (s : Bool) (k : Nat) (o : List Nat) :
    squares g (masked p s) k o = if s then squares g p k o else 0 := by
  cases s with
  | true => rfl
  | false => simp [squares, masked, finite, NArr.uop]

theorem equal_shapes {α : Type} {T : Tree α} (hT : KeysOk T) {Y : α → NArr ℝ} {s : List Nat} (h : ∀ d ∈ flat T, (Y d).shape = s) :
    TreeArith.equalShapes (map Y T.norm) = true := by
  unfold TreeArith.equalShapes
  rw [leaves_norm _ hT]
  have hm : ∀ x ∈ (jaxLeaves T).map Y, x.shape = s := by
    intro x hx
    obtain ⟨d, hd, rfl⟩ := List.mem_map.1 hx
    exact h d (mem_flat_norm.1 hd)
  cases hl : (jaxLeaves T).map Y with
  | nil => rfl
  | cons x xs =>
    rw [hl] at hm
    simp only [List.all_eq_true]
    intro y hy
    exact decide_eq_true (by rw [hm y (by simp [hy]), hm x (by simp)])

/-- The general form: gradients `d.2` of the outputs `d` and any scales. -/
theorem sensitivity_value {T : Tree (List Nat × Tree (NArr (Option 𝕜)))} (hT : KeysOk T) {scale : Tree (NArr (Option 𝕜))} (hs : KeysOk scale) {n : Nat}
    {s : List Nat} (hout : ∀ d ∈ flat T, d.1 = s) (hne : jaxLeaves scale ≠ []) (hf : ∀ d ∈ flat T, GradFits NArr.shape n d.1 d.2 scale) {num : Nat}
    (hnum : num ≠ 0) : ∃ r, sensitivity (map Prod.fst T) (Tree.bind Prod.snd T) scale num = .ok r ∧ map (fun _ => ()) r = map (fun _ => ()) T.norm ∧
      ∀ p d, At T p d → ∃ y, At r p y ∧ y.shape = n :: s ∧ ∀ k o, k < n → InB s o →
        y.val (k :: o) = (((jaxLeaves d.2).zip (jaxLeaves scale)).map fun y => squares y.1 y.2 k o).sum / num := by
  obtain ⟨Y, h1, h2⟩ := sensitivity_spec hT hs hne hf
  have he : TreeArith.equalShapes (map Y T.norm) = true := equal_shapes hT (s := n :: s) fun d hd => by rw [(h2 d hd).1, hout d hd]
  have hn : (map Y T.norm).norm = map Y T.norm := by rw [Tree.norm_map, norm_norm hT]
  refine ⟨map (NArr.uop (· * (1 / (num : ℝ)))) (map Y T.norm), ?_, by rw [map_map, map_map], fun p d hd => ?_⟩
  · unfold sensitivity
    rw [h1]
    simp only [Bind.bind, Except.bind]
    rw [if_neg hnum, if_pos he, hn]
  · have hd' := mem_flat_at.2 ⟨p, hd⟩
    refine ⟨NArr.uop (· * (1 / (num : ℝ))) (Y d), at_map.2 ⟨Y d, at_map.2 ⟨d, at_norm.2 hd, rfl⟩, rfl⟩, ?_, fun k o hk ho => ?_⟩
    · show (Y d).shape = _
      rw [(h2 d hd').1, hout d hd']
    · simp only [NArr.uop]
      rw [(h2 d hd').2 k o hk (by rw [hout d hd']; exact ho), mul_one_div]

/-- Two samples, one output of shape `(1,)`, two parameters of which the second has an infinite derivative. -/
noncomputable def demoGrad : NArr (Option ℝ) := ⟨[2, 1, 2], fun i => if i.getLast? = some 0 then some 2 else Option.none⟩

/-- The gradients of the only output. -/
noncomputable def demoT : Tree (List Nat × Tree (NArr (Option ℝ))) := .dict [(['y'], .leaf ([1], .list [.leaf demoGrad, .leaf ⟨[2, 1], fun _ => some 1⟩]))]

/-- A selected vector and a scalar that is not selected. -/
noncomputable def demoP : Tree (NArr (Option ℝ) × Bool) := .list [.leaf (⟨[2], fun _ => some 3⟩, true), .leaf (⟨[], fun _ => some 7⟩, false)]

theorem demo_keys : KeysOk demoT := ⟨by decide, trivial, trivial⟩

theorem demo_fits : ∀ d ∈ flat demoT, GradFits (fun p : NArr (Option ℝ) × Bool => p.1.shape) 2 d.1 d.2 demoP := by
  intro d hd
  simp only [demoT, flat, flatD, List.append_nil, List.mem_singleton] at hd
  subst hd
  refine ⟨⟨trivial, trivial, trivial⟩, rfl, ?_⟩
  simp [jaxLeaves, Tree.norm, normL, flat, flatL, demoGrad, demoP]

theorem demo_at : At demoT [.key ['y']] ([1], .list [.leaf demoGrad, .leaf ⟨[2, 1], fun _ => some 1⟩]) :=
  .dict (List.mem_singleton.2 rfl) (.leaf _)

theorem demo_size : selectedSize demoP = 2 := by
  simp [selectedSize, demoP, jaxLeaves, Tree.norm, normL, flat, flatL, NArr.length_indices]

/-- C80: for every output, sample and output entry the parameter sensitivity is the mean over the selected parameters of the square of
derivative times parameter; it has the structure of the outputs and one axis for the samples. -/
theorem C80_parameters (T : Tree (List Nat × Tree (NArr (Option 𝕜)))) (hT : KeysOk T) (P : Tree (NArr (Option 𝕜) × Bool)) (hP : KeysOk P) (n : Nat)
    (s : List Nat) (hout : ∀ d ∈ flat T, d.1 = s) (hf : ∀ d ∈ flat T, GradFits (fun p : NArr (Option 𝕜) × Bool => p.1.shape) n d.1 d.2 P)
    (hsel : selectedSize P ≠ 0) :
    ∃ r, parameterSensitivity (map Prod.fst T) (Tree.bind Prod.snd T) (map Prod.fst P) (map Prod.snd P) = .ok r ∧
      map (fun _ => ()) r = map (fun _ => ()) T.norm ∧
      ∀ p d, At T p d → ∃ y, At r p y ∧ y.shape = n :: s ∧ ∀ k o, k < n → InB s o →
        y.val (k :: o) = (((jaxLeaves d.2).zip (jaxLeaves P)).map fun y => if y.2.2 then squares y.1 y.2.1 k o else 0).sum / selectedSize P := by
  have hne : jaxLeaves P ≠ [] := by
    intro h
    apply hsel
    simp [selectedSize, h]
  have hk : KeysOk (map (fun p : NArr (Option 𝕜) × Bool => masked p.1 p.2) P.norm) := (keysOk_map _ _).2 (keysOk_norm' hP)
  have hz : ∀ d : List Nat × Tree (NArr (Option 𝕜)), (jaxLeaves d.2).zip (jaxLeaves (map (fun p : NArr (Option 𝕜) × Bool => masked p.1 p.2) P.norm)) =
      ((jaxLeaves d.2).zip (jaxLeaves P)).map fun y => (y.1, masked y.2.1 y.2.2) := by
    intro d
    rw [leaves_norm _ hP]
    conv_lhs => rw [← List.map_id (jaxLeaves d.2)]
    rw [List.zip_map]
    rfl
  obtain ⟨r, h1, h2, h3⟩ := sensitivity_value hT hk hout (by rw [leaves_norm _ hP]; simpa using hne) (n := n) (fun d hd => ⟨(hf d hd).keys, by
    rw [Tree.norm_map, norm_norm hP, map_map]
    exact (hf d hd).struct, by
    rw [hz]
    intro y hy
    obtain ⟨y', hy', rfl⟩ := List.mem_map.1 hy
    rw [masked_shape]
    exact (hf d hd).shapes y' hy'⟩) hsel
  refine ⟨r, by rw [parameter_run hP]; exact h1, h2, fun p d hd => ?_⟩
  obtain ⟨y, h4, h5, h6⟩ := h3 p d hd
  refine ⟨y, h4, h5, fun k o hk ho => ?_⟩
  rw [h6 k o hk ho, hz, List.map_map]
  congr 2
  refine List.map_congr_left fun z _ => ?_
  exact squares_masked _ _ _ _ _

example : ∃ r, parameterSensitivity (map Prod.fst demoT) (Tree.bind Prod.snd demoT) (map Prod.fst demoP) (map Prod.snd demoP) = .ok r ∧
    ∃ y, At r [.key ['y']] y ∧ y.shape = [2, 1] ∧ y.val [1, 0] = 18 := by
  obtain ⟨r, h1, -, h3⟩ := C80_parameters demoT demo_keys demoP ⟨trivial, trivial, trivial⟩ 2 [1]
    (by simp [demoT, flat, flatD]) demo_fits (by rw [demo_size]; decide)
  obtain ⟨y, h4, h5, h6⟩ := h3 [.key ['y']] _ demo_at
  refine ⟨r, h1, y, h4, h5, ?_⟩
  rw [h6 1 [0] (by decide) (NArr.mem_indices.1 (by decide)), demo_size]
  simp [jaxLeaves, Tree.norm, normL, flat, flatL, demoGrad, demoP, squares, NArr.indices, List.range_succ, finite]
  norm_num

/-- C80: sensitivities are not negative. -/
theorem C80_nonneg (T : Tree (List Nat × Tree (NArr (Option 𝕜)))) (hT : KeysOk T) (P : Tree (NArr (Option 𝕜) × Bool)) (hP : KeysOk P) (n : Nat)
    (s : List Nat) (hout : ∀ d ∈ flat T, d.1 = s) (hf : ∀ d ∈ flat T, GradFits (fun p : NArr (Option 𝕜) × Bool => p.1.shape) n d.1 d.2 P)
    (hsel : selectedSize P ≠ 0) (r : Tree (NArr ℝ))
    (hr : parameterSensitivity (map Prod.fst T) (Tree.bind Prod.snd T) (map Prod.fst P) (map Prod.snd P) = .ok r) (p : List ForwardSpec.Step)
    (y : NArr ℝ) (hy : At r p y) (k : Nat) (o : List Nat) (hk : k < n) (ho : InB s o) : 0 ≤ y.val (k :: o) := by
  obtain ⟨r', h1, h2, h3⟩ := C80_parameters T hT P hP n s hout hf hsel
  rw [hr] at h1
  cases h1
  have hkr : KeysOk r := (keysOk_map (fun _ => ()) r).1 (by rw [h2]; exact (keysOk_map _ _).2 (keysOk_norm' hT))
  have : At (map (fun _ => ()) r) p () := at_map.2 ⟨y, hy, rfl⟩
  rw [h2] at this
  obtain ⟨d, hd, -⟩ := at_map.1 this
  obtain ⟨y', h4, -, h6⟩ := h3 p d (at_norm.1 hd)
  have hyy : y = y' := at_unique hkr hy h4
  rw [hyy, h6 k o hk ho]
  refine div_nonneg (List.sum_nonneg fun v hv => ?_) (Nat.cast_nonneg _)
  obtain ⟨z, -, rfl⟩ := List.mem_map.1 hv
  split
  · refine List.sum_nonneg fun v hv => ?_
    obtain ⟨j, -, rfl⟩ := List.mem_map.1 hv
    positivity
  · exact le_refl _

example : ∃ r y, parameterSensitivity (map Prod.fst demoT) (Tree.bind Prod.snd demoT) (map Prod.fst demoP) (map Prod.snd demoP) = .ok r ∧
    At r [.key ['y']] y ∧ 0 ≤ y.val [0, 0] := by
  obtain ⟨r, h1, -, h3⟩ := C80_parameters demoT demo_keys demoP ⟨trivial, trivial, trivial⟩ 2 [1]
    (by simp [demoT, flat, flatD]) demo_fits (by rw [demo_size]; decide)
  obtain ⟨y, h4, -, -⟩ := h3 [.key ['y']] _ demo_at
  exact ⟨r, y, h1, h4, C80_nonneg demoT demo_keys demoP ⟨trivial, trivial, trivial⟩ 2 [1] (by simp [demoT, flat, flatD]) demo_fits
    (by rw [demo_size]; decide) r h1 _ y h4 0 [0] (by decide) (NArr.mem_indices.1 (by decide))⟩

/-- C80: parameters that are not selected do not matter, whatever the gradients. -/
theorem C80_unselected (shapes : Tree (List Nat)) (grads : Tree (NArr (Option 𝕜))) (Q : Tree (NArr (Option 𝕜) × NArr (Option 𝕜) × Bool)) (hQ : KeysOk Q)
    (hsame : ∀ q ∈ flat Q, q.1.shape = q.2.1.shape ∧ (q.2.2 = true → q.1 = q.2.1)) :
    parameterSensitivity shapes grads (map (fun q => q.1) Q) (map (fun q => q.2.2) Q) =
      parameterSensitivity shapes grads (map (fun q => q.2.1) Q) (map (fun q => q.2.2) Q) := by
  have h1 := parameter_run (P := map (fun q : NArr (Option 𝕜) × NArr (Option 𝕜) × Bool => (q.1, q.2.2)) Q) ((keysOk_map _ _).2 hQ) shapes grads
  have h2 := parameter_run (P := map (fun q : NArr (Option 𝕜) × NArr (Option 𝕜) × Bool => (q.2.1, q.2.2)) Q) ((keysOk_map _ _).2 hQ) shapes grads
  simp only [map_map] at h1 h2
  rw [h1, h2]
  congr 1
  · rw [Tree.norm_map, Tree.norm_map, map_map, map_map]
    refine map_congr fun q hq => ?_
    obtain ⟨e1, e2⟩ := hsame q (mem_flat_norm.1 hq)
    unfold masked
    cases hq2 : q.2.2 with
    | true => simp only [if_true]; exact e2 hq2
    | false => simp only [Bool.false_eq_true, if_false, NArr.uop, e1]
  · unfold selectedSize
    rw [Matmul.jaxLeaves_map, Matmul.jaxLeaves_map, List.map_map, List.map_map]
    congr 1
    refine List.map_congr_left fun q hq => ?_
    simp only [Function.comp, (hsame q (mem_flat_norm.1 hq)).1]

example : parameterSensitivity (map Prod.fst demoT) (Tree.bind Prod.snd demoT) (.list [.leaf ⟨[2], fun _ => some 3⟩, .leaf ⟨[], fun _ => some 7⟩]) (.list [.leaf true, .leaf false]) =
    parameterSensitivity (map Prod.fst demoT) (Tree.bind Prod.snd demoT) (.list [.leaf ⟨[2], fun _ => some 3⟩, .leaf ⟨[], fun _ => some 8⟩]) (.list [.leaf true, .leaf false]) :=
  C80_unselected _ _ (.list [.leaf (⟨[2], fun _ => some 3⟩, ⟨[2], fun _ => some 3⟩, true), .leaf (⟨[], fun _ => some 7⟩, ⟨[], fun _ => some 8⟩, false)])
    ⟨trivial, trivial, trivial⟩ (by simp [flat, flatL])

/-- C80 fails: outputs of different shapes raise a type error. -/
theorem C80_shapes_refuted (T : Tree (List Nat × Tree (NArr (Option 𝕜)))) (hT : KeysOk T) (scale : Tree (NArr (Option 𝕜))) (hs : KeysOk scale)
    (hne : jaxLeaves scale ≠ []) (n num : Nat) (hnum : num ≠ 0) (hf : ∀ d ∈ flat T, GradFits NArr.shape n d.1 d.2 scale)
    (d d' : List Nat × Tree (NArr (Option 𝕜))) (hd : d ∈ flat T) (hd' : d' ∈ flat T) (hdd : d.1 ≠ d'.1) :
    sensitivity (map Prod.fst T) (Tree.bind Prod.snd T) scale num = .error .typeError := by
  obtain ⟨Y, h1, h2⟩ := sensitivity_spec hT hs hne hf
  have he : TreeArith.equalShapes (map Y T.norm) = false := by
    rw [Bool.eq_false_iff]
    intro he
    unfold TreeArith.equalShapes at he
    rw [leaves_norm _ hT] at he
    have m1 : Y d ∈ (jaxLeaves T).map Y := List.mem_map.2 ⟨d, mem_flat_norm.2 hd, rfl⟩
    have m2 : Y d' ∈ (jaxLeaves T).map Y := List.mem_map.2 ⟨d', mem_flat_norm.2 hd', rfl⟩
    cases hl : (jaxLeaves T).map Y with
    | nil => rw [hl] at m1; simp at m1
    | cons x xs =>
      rw [hl] at m1 m2 he
      simp only [List.all_eq_true, decide_eq_true_eq] at he
      have : ∀ y ∈ x :: xs, y.shape = x.shape := by
        intro y hy
        rcases List.mem_cons.1 hy with rfl | hy
        · rfl
        · exact he y hy
      have e := (this _ m1).trans (this _ m2).symm
      rw [(h2 d hd).1, (h2 d' hd').1] at e
      exact hdd (by simpa using e)
  unfold sensitivity
  rw [h1]
  simp only [Bind.bind, Except.bind]
  rw [if_neg hnum, he]
  rfl

example : sensitivity (.list [.leaf [1], .leaf [2]]) (.list [.leaf ⟨[3, 1, 4], fun _ => some (1 : ℝ)⟩, .leaf ⟨[3, 2, 4], fun _ => some 1⟩]) (.leaf ⟨[4], fun _ => some 1⟩) 4 =
    .error .typeError :=
  C80_shapes_refuted (.list [.leaf ([1], .leaf ⟨[3, 1, 4], fun _ => some (1 : ℝ)⟩), .leaf ([2], .leaf ⟨[3, 2, 4], fun _ => some 1⟩)]) ⟨trivial, trivial, trivial⟩
    (.leaf ⟨[4], fun _ => some 1⟩) trivial (by simp [jaxLeaves, Tree.norm, flat]) 3 4 (by decide) (by
      intro d hd
      simp only [flat, flatL, List.append_nil, List.cons_append, List.nil_append, List.mem_cons, List.not_mem_nil, or_false] at hd
      rcases hd with rfl | rfl
      · exact ⟨trivial, rfl, by simp [jaxLeaves, Tree.norm, flat]⟩
      · exact ⟨trivial, rfl, by simp [jaxLeaves, Tree.norm, flat]⟩) ([1], .leaf ⟨[3, 1, 4], fun _ => some (1 : ℝ)⟩) ([2], .leaf ⟨[3, 2, 4], fun _ => some 1⟩)
    (by simp [flat, flatL]) (by simp [flat, flatL]) (by decide)

/-- C80 fails: a selection without entries raises a division by zero instead of giving no sensitivity. -/
theorem C80_empty_refuted (T : Tree (List Nat × Tree (NArr (Option 𝕜)))) (hT : KeysOk T) (P : Tree (NArr (Option 𝕜) × Bool)) (hP : KeysOk P) (n : Nat)
    (hne : jaxLeaves P ≠ []) (hf : ∀ d ∈ flat T, GradFits (fun p : NArr (Option 𝕜) × Bool => p.1.shape) n d.1 d.2 P) (hsel : selectedSize P = 0) :
    parameterSensitivity (map Prod.fst T) (Tree.bind Prod.snd T) (map Prod.fst P) (map Prod.snd P) = .error .zeroDivision := by
  have hk : KeysOk (map (fun p : NArr (Option 𝕜) × Bool => masked p.1 p.2) P.norm) := (keysOk_map _ _).2 (keysOk_norm' hP)
  obtain ⟨Y, h1, -⟩ := sensitivity_spec hT hk (n := n) (by rw [leaves_norm _ hP]; simpa using hne) (fun d hd => ⟨(hf d hd).keys, by
    rw [Tree.norm_map, norm_norm hP, map_map]
    exact (hf d hd).struct, by
    rw [leaves_norm _ hP]
    conv => enter [y]; rw [← List.map_id (jaxLeaves d.2), List.zip_map]
    intro y hy
    obtain ⟨y', hy', rfl⟩ := List.mem_map.1 hy
    simp only [Prod.map, masked_shape]
    exact (hf d hd).shapes y' hy'⟩)
  rw [parameter_run hP]
  unfold sensitivity
  rw [h1]
  simp only [Bind.bind, Except.bind]
  rw [if_pos hsel]

example : parameterSensitivity (.leaf [1]) (.leaf ⟨[3, 1, 4], fun _ => some (1 : ℝ)⟩) (.leaf ⟨[4], fun _ => some 1⟩) (.leaf false) = .error .zeroDivision :=
  C80_empty_refuted (.leaf ([1], .leaf ⟨[3, 1, 4], fun _ => some (1 : ℝ)⟩)) trivial (.leaf (⟨[4], fun _ => some 1⟩, false)) trivial 3
    (by simp [jaxLeaves, Tree.norm, flat]) (by
      intro d hd
      simp only [flat, List.mem_singleton] at hd
      subst hd
      exact ⟨trivial, rfl, by simp [jaxLeaves, Tree.norm, flat]⟩) (by simp [selectedSize, jaxLeaves, Tree.norm, flat])

/-! ### Inputs -/

/-- One input feature: its training and calibration data, whether it is continuous, and whether it is selected. -/
structure Feature where
  train : NArr ℝ
  cal : NArr ℝ
  cont : Bool
  sel : Bool

/-- The number of components of the selected continuous features. -/
def selectedCount (D : Tree Feature) : Nat :=
  ((jaxLeaves D).map fun f => if f.cont = true ∧ f.sel = true then (NArr.indices f.cal.shape.tail).length else 0).sum

/-- The distance between the upper and the lower quartile. -/
noncomputable def interquartile (l : List ℝ) : ℝ := (Quantile.quant l (3 / 4)).getD 0 - (Quantile.quant l (1 / 4)).getD 0

theorem jaxMap_triple {α β γ κ : Type} {F : α → List (Tree β) → Except PyErr (Tree γ)} (hF : ∀ a vs, F a (vs.map norm) = F a vs) (a : κ → α) (b c : κ → β)
    (h : κ → γ) (hh : ∀ x, F (a x) [.leaf (b x), .leaf (c x)] = .ok (.leaf (h x))) {P : Tree κ} (hP : KeysOk P) :
    jaxMap F (map a P) [map b P, map c P] = .ok (map h P.norm) := by
  rw [← jaxMap_normal ((keysOk_map _ _).2 hP), ← Tree.jaxMap_norm hF _ _ (by simp [keysOk_map, hP])]
  simp only [List.map_cons, List.map_nil]
  rw [Tree.norm_map, Tree.norm_map, Tree.norm_map, ← bind_leaf b, ← bind_leaf c, jaxMap_bind2 _ _ _ (keysOk_norm' hP) (norm_norm hP)]
  exact mapM_leaf _ _ _ fun x _ => hh x

/-- The interquartile ranges of one feature. -/
noncomputable def iqrArr (f : Feature) : NArr (Option 𝕜) :=
  ⟨f.train.shape.tail, fun i => if f.cont && f.sel then iqr (Conformal.column f.train i) else some 0⟩

theorem two_norm {α γ : Type} {F : α → List (Tree Bool) → Except PyErr (Tree γ)} (g : α → Bool → Bool → Except PyErr (Tree γ))
    (e : PyErr) (h2 : ∀ a b c, F a [.leaf b, .leaf c] = g a b c) (hx : ∀ a vs, (∀ b c, vs ≠ [.leaf b, .leaf c]) → F a vs = .error e) (a : α)
    (vs : List (Tree Bool)) : F a (vs.map norm) = F a vs := by
  by_cases h : ∃ b c, vs = [.leaf b, .leaf c]
  · obtain ⟨b, c, rfl⟩ := h
    rfl
  · push Not at h
    rw [hx a vs h, hx]
    intro b c hbc
    rcases vs with _ | ⟨v, _ | ⟨w, _ | ⟨u, vs⟩⟩⟩
    · simp at hbc
    · simp at hbc
    · simp only [List.map_cons, List.map_nil, List.cons.injEq, and_true] at hbc
      obtain ⟨h1, h2⟩ := hbc
      have e1 : v = .leaf b := by cases v <;> simp_all [Tree.norm]
      have e2 : w = .leaf c := by cases w <;> simp_all [Tree.norm]
      exact h b c (by rw [e1, e2])
    · simp at hbc

theorem iqr_run {D : Tree Feature} (hD : KeysOk D) : jaxMap (iqrLeaf (𝕜 := 𝕜)) (map Feature.train D) [map Feature.cont D, map Feature.sel D] =
    .ok (map iqrArr D.norm) :=
  jaxMap_triple (two_norm _ .typeError (fun _ _ _ => rfl) fun a vs h => by
    unfold iqrLeaf
    split
    · exact absurd rfl (h _ _)
    · rfl) _ _ _ _ (fun _ => rfl) hD

theorem count_run {D : Tree Feature} (hD : KeysOk D) : jaxMap countLeaf (map Feature.cal D) [map Feature.cont D, map Feature.sel D] =
    .ok (map (fun f => if f.cont && f.sel then f.cal.shape.tail.foldr (· * ·) 1 else 0) D.norm) :=
  jaxMap_triple (two_norm _ .typeError (fun _ _ _ => rfl) fun a vs h => by
    unfold countLeaf
    split
    · exact absurd rfl (h _ _)
    · rfl) _ _ _ _ (fun _ => rfl) hD

theorem count_sum {D : Tree Feature} (hD : KeysOk D) :
    (jaxLeaves (map (fun f : Feature => if f.cont && f.sel then f.cal.shape.tail.foldr (· * ·) 1 else 0) D.norm)).sum = selectedCount D := by
  rw [leaves_norm _ hD]
  unfold selectedCount
  congr 1
  refine List.map_congr_left fun f _ => ?_
  rw [NArr.length_indices]
  simp only [Bool.and_eq_true]

theorem squares_iqr (g : NArr (Option 𝕜)) (f : Feature) {m : Nat} (hm : m ≠ 0) (hf : f.train.shape.head? = some m) (k : Nat) (o : List Nat) :
    squares g (iqrArr f) k o = if f.cont = true ∧ f.sel = true then
      ((NArr.indices f.train.shape.tail).map fun j => (‖finite (g.val (k :: (o ++ j)))‖ * interquartile (component f.train m j)) ^ 2).sum else 0 := by
  unfold squares
  by_cases h : f.cont = true ∧ f.sel = true
  · rw [if_pos h]
    congr 1
    refine List.map_congr_left fun j _ => ?_
    have hsh : f.train.shape = m :: f.train.shape.tail := by
      cases hs : f.train.shape with
      | nil => rw [hs] at hf; cases hf
      | cons a t => rw [hs] at hf; simp at hf; rw [hf]; rfl
    have hne : component f.train m j ≠ [] := by
      unfold component
      intro e
      have := congrArg List.length e
      simp at this
      exact hm this
    simp only [iqrArr, h.1, h.2, Bool.and_self, if_true]
    rw [column_component hsh]
    unfold iqr interquartile finite
    rw [Quantile.quant_eq hne, Quantile.quant_eq hne]
    simp only [Option.getD_some]
    rw [norm_mul, RCLike.norm_ofReal, mul_pow, mul_pow, sq_abs]
  · rw [if_neg h]
    have : (f.cont && f.sel) = false := by
      rw [Bool.eq_false_iff]
      simpa [Bool.and_eq_true] using h
    simp [iqrArr, this, finite]

/-- C80: without input uncertainties the input sensitivity is the mean over the components of the selected continuous features of the
square of derivative times interquartile range of the training data. -/
theorem C80_inputs (T : Tree (List Nat × Tree (NArr (Option 𝕜)))) (hT : KeysOk T) (D : Tree Feature) (hD : KeysOk D) (n m : Nat) (hm : m ≠ 0)
    (htrain : ∀ f ∈ flat D, f.train.shape.head? = some m) (s : List Nat) (hout : ∀ d ∈ flat T, d.1 = s)
    (hf : ∀ d ∈ flat T, GradFits (fun f : Feature => f.train.shape.tail) n d.1 d.2 D) (hsel : selectedCount D ≠ 0) :
    ∃ r, inputSensitivity (map Prod.fst T) (Tree.bind Prod.snd T) (map Feature.train D) (map Feature.cal D) (map Feature.cont D) (map Feature.sel D) Option.none = .ok r ∧
      map (fun _ => ()) r = map (fun _ => ()) T.norm ∧
      ∀ p d, At T p d → ∃ y, At r p y ∧ y.shape = n :: s ∧ ∀ k o, k < n → InB s o →
        y.val (k :: o) = (((jaxLeaves d.2).zip (jaxLeaves D)).map fun y => if y.2.cont = true ∧ y.2.sel = true then
          ((NArr.indices y.2.train.shape.tail).map fun j => (‖finite (y.1.val (k :: (o ++ j)))‖ * interquartile (component y.2.train m j)) ^ 2).sum
          else 0).sum / selectedCount D := by
  have hne : jaxLeaves D ≠ [] := by
    intro h
    apply hsel
    simp [selectedCount, h]
  have hk : KeysOk (map (iqrArr (𝕜 := 𝕜)) D.norm) := (keysOk_map _ _).2 (keysOk_norm' hD)
  have hz : ∀ d : List Nat × Tree (NArr (Option 𝕜)), (jaxLeaves d.2).zip (jaxLeaves (map (iqrArr (𝕜 := 𝕜)) D.norm)) =
      ((jaxLeaves d.2).zip (jaxLeaves D)).map fun y => (y.1, iqrArr y.2) := by
    intro d
    rw [leaves_norm _ hD]
    conv_lhs => rw [← List.map_id (jaxLeaves d.2)]
    rw [List.zip_map]
    rfl
  obtain ⟨r, h1, h2, h3⟩ := sensitivity_value hT hk hout (by rw [leaves_norm _ hD]; simpa using hne) (n := n) (fun d hd => ⟨(hf d hd).keys, by
    rw [Tree.norm_map, norm_norm hD, map_map]
    exact (hf d hd).struct, by
    rw [hz]
    intro y hy
    obtain ⟨y', hy', rfl⟩ := List.mem_map.1 hy
    exact (hf d hd).shapes y' hy'⟩) hsel
  refine ⟨r, ?_, h2, fun p d hd => ?_⟩
  · unfold inputSensitivity
    rw [iqr_run hD]
    simp only [Bind.bind, Except.bind]
    rw [count_run hD]
    simp only
    rw [count_sum hD, h1]
  obtain ⟨y, h4, h5, h6⟩ := h3 p d hd
  refine ⟨y, h4, h5, fun k o hk ho => ?_⟩
  rw [h6 k o hk ho, hz, List.map_map]
  congr 2
  refine List.map_congr_left fun z hz => ?_
  exact squares_iqr _ _ hm (htrain z.2 (mem_flat_norm.1 (List.of_mem_zip hz).2)) _ _

example : ∃ r, inputSensitivity (.leaf [1]) (.leaf ⟨[2, 1, 1], fun _ => some (1 : ℝ)⟩) (.leaf ⟨[5, 1], fun i => i.headD 0⟩) (.leaf ⟨[4, 1], fun _ => 0⟩)
    (.leaf true) (.leaf true) Option.none = .ok r ∧ ∃ y, At r [] y ∧ y.shape = [2, 1] := by
  obtain ⟨r, h1, -, h3⟩ := C80_inputs (𝕜 := ℝ) (.leaf ([1], .leaf ⟨[2, 1, 1], fun _ => some 1⟩)) trivial
    (.leaf ⟨⟨[5, 1], fun i => i.headD 0⟩, ⟨[4, 1], fun _ => 0⟩, true, true⟩) trivial 2 5 (by decide) (by simp [flat]) [1] (by simp [flat]) (by
      intro d hd
      simp only [flat, List.mem_singleton] at hd
      subst hd
      exact ⟨trivial, rfl, by simp [jaxLeaves, Tree.norm, flat]⟩) (by simp [selectedCount, jaxLeaves, Tree.norm, flat, NArr.length_indices])
  obtain ⟨y, h4, h5, -⟩ := h3 [] _ (.leaf _)
  exact ⟨r, h1, y, h4, h5⟩

/-! ### Input uncertainties -/

theorem bin_single {A B C : Type} (f : A → B → C) (x : NArr A) (y : NArr B) : TreeArith.bin f (.leaf x) (.leaf y) = (NArr.bop f x y).map Tree.leaf := by
  unfold TreeArith.bin
  rw [if_pos (by rfl)]
  cases h : NArr.bop f x y <;> simp [jaxMap, zipAll, zipPre, Tree.mapM, map, Tree.norm, h, Except.map]

theorem sumSq_leaf (x y : NArr 𝕜) : sumSq (.leaf x) (.leaf y) = (NArr.bop (· * ·) x y).bind fun z => sumLast y.shape.length z := by
  unfold sumSq
  rw [bin_single]
  cases NArr.bop (· * ·) x y with
  | error e => rfl
  | ok z =>
    show (sumLeaf z [.leaf y]).bind (fun s => addAll (jaxLeaves s)) = sumLast y.shape.length z
    have h : sumLeaf z [.leaf y] = (sumLast y.shape.length z).map .leaf := rfl
    rw [h]
    cases sumLast y.shape.length z <;> rfl

/-- C80 fails with input uncertainties: for one output of shape `(m,)` and uncertainties of the shape of the inputs, the uncertainties of
all samples are used for every sample, so that the result has the shape `(n, n)` instead of `(n, 1)`, and for `m` different from 1 and
`n` the call raises a type error. -/
theorem C80_uncertainty_refuted (g u : NArr (Option 𝕜)) (n m f : Nat) (hn : n ≠ 1) (hmn : m ≠ n) (hg : g.shape = [n, m, f]) (hu : u.shape = [n, f])
    (train cal : NArr ℝ) (t c : Nat) (ht : t ≠ 0) (htrain : train.shape = [t, f]) (hcal : cal.shape = [c, f]) (hf : f ≠ 0) :
    (m = 1 → ∃ y, inputSensitivity (.leaf [m]) (.leaf g) (.leaf train) (.leaf cal) (.leaf true) (.leaf true) (some (.leaf u)) = .ok (.leaf y) ∧ y.shape = [n, n]) ∧
    (m ≠ 1 → inputSensitivity (.leaf [m]) (.leaf g) (.leaf train) (.leaf cal) (.leaf true) (.leaf true) (some (.leaf u)) = .error .typeError) := by
  have hcount : selectedCount (.leaf ⟨train, cal, true, true⟩) = f := by
    simp [selectedCount, jaxLeaves, Tree.norm, flat, hcal, NArr.length_indices]
  obtain ⟨r, h1, h2, h3⟩ := C80_inputs (𝕜 := 𝕜) (.leaf ([m], .leaf g)) trivial (.leaf ⟨train, cal, true, true⟩) trivial n t ht
    (by simp [flat, htrain]) [m] (by simp [flat]) (by
      intro d hd
      simp only [flat, List.mem_singleton] at hd
      subst hd
      refine ⟨trivial, rfl, ?_⟩
      simp [jaxLeaves, Tree.norm, flat, hg, htrain]) (by rw [hcount]; exact hf)
  obtain ⟨y, h4, h5, -⟩ := h3 [] _ (.leaf _)
  cases h4
  have hs : ∀ k, sumSq (.leaf (row k (clean g))) (.leaf (clean u)) = if m = 1 then
      .ok ⟨[], fun i => ((NArr.indices [n, f]).map fun j => ‖(clean g).val (k :: NArr.bidx [1, f] (i ++ j)) * (clean u).val (NArr.bidx [n, f] (i ++ j))‖ ^ 2).sum⟩
      else .error .typeError := by
    intro k
    rw [sumSq_leaf]
    unfold NArr.bop
    have e1 : (row k (clean g)).shape = [m, f] := by simp [row, clean, NArr.uop, hg]
    have e2 : (clean u).shape = [n, f] := by simp [clean, NArr.uop, hu]
    rw [e1, e2]
    split_ifs with hm
    · subst hm
      have : NArr.bshape [1, f] [n, f] = some [n, f] := by simp [NArr.bshape, NArr.bshapeRev, NArr.bdim, Ne.symm hn]
      rw [this]
      simp only [Except.bind, sumLast, List.length_cons, List.length_nil, le_refl, if_true, Nat.sub_self, List.take_zero, List.drop_zero]
      rfl
    · have : NArr.bshape [m, f] [n, f] = Option.none := by simp [NArr.bshape, NArr.bshapeRev, NArr.bdim, hn, hmn, hm]
      rw [this]
      rfl
  have hrun : ∀ num, sensitivity (.leaf [m]) (.leaf g) (.leaf u) num = (vmap (sumSq · (.leaf (clean u))) (.leaf (clean g))).bind fun z =>
      if num = 0 then .error .zeroDivision else .ok (.leaf (NArr.uop (· * (1 / (num : ℝ))) z)) := by
    intro num
    show ((vmap (sumSq · (.leaf (clean u))) (.leaf (clean g))).map Tree.leaf).bind _ = _
    cases vmap (sumSq · (.leaf (clean u))) (.leaf (clean g)) with
    | error e => rfl
    | ok z => rfl
  have hun : inputSensitivity (.leaf [m]) (.leaf g) (.leaf train) (.leaf cal) (.leaf true) (.leaf true) (some (.leaf u)) =
      (sensitivity (.leaf [m]) (.leaf g) (.leaf u) f).bind fun d => TreeArith.bin (· + ·) (.leaf y) d := by
    have hh : inputSensitivity (.leaf [m]) (.leaf g) (.leaf train) (.leaf cal) (.leaf true) (.leaf true) (some (.leaf u)) =
        (inputSensitivity (.leaf [m]) (.leaf g) (.leaf train) (.leaf cal) (.leaf true) (.leaf true) Option.none).bind fun dy =>
          (sensitivity (.leaf [m]) (.leaf g) (.leaf u) (selectedCount (.leaf ⟨train, cal, true, true⟩))).bind fun d => TreeArith.bin (· + ·) dy d := by
      have a1 := iqr_run (𝕜 := 𝕜) (D := .leaf ⟨train, cal, true, true⟩) trivial
      have a2 := count_run (D := .leaf ⟨train, cal, true, true⟩) trivial
      have a3 := count_sum (D := .leaf ⟨train, cal, true, true⟩) trivial
      simp only [map] at a1 a2
      unfold inputSensitivity
      rw [a1, a2]
      simp only [Bind.bind, Except.bind]
      rw [a3]
      cases sensitivity (.leaf [m]) (.leaf g) (map iqrArr (Tree.leaf (⟨train, cal, true, true⟩ : Feature)).norm) (selectedCount (.leaf ⟨train, cal, true, true⟩)) with
      | error e => rfl
      | ok z => rfl
    rw [hh, hcount]
    have h1' : inputSensitivity (.leaf [m]) (.leaf g) (.leaf train) (.leaf cal) (.leaf true) (.leaf true) Option.none = .ok (.leaf y) := h1
    rw [h1']
    rfl
  have hb : batch (.leaf (clean g)) = .ok n := by
    simp [batch, jaxLeaves, Tree.norm, flat, clean, NArr.uop, hg]
  constructor
  · intro hm
    subst hm
    obtain ⟨z, hz1, hz2, -⟩ := vmap_spec (f := (sumSq · (.leaf (clean u)))) (df := .leaf (clean g)) (n := n) (s := [])
      (by simp [jaxLeaves, Tree.norm, flat]) (by simp [jaxLeaves, Tree.norm, flat, clean, NArr.uop, hg])
      (Z := fun k => ⟨[], fun i => ((NArr.indices [n, f]).map fun j => ‖(clean g).val (k :: NArr.bidx [1, f] (i ++ j)) * (clean u).val (NArr.bidx [n, f] (i ++ j))‖ ^ 2).sum⟩)
      (fun k => by rw [show map (row k) (.leaf (clean g)) = .leaf (row k (clean g)) from rfl, hs k, if_pos rfl]) (fun _ => rfl)
    rw [hun, hrun, hz1]
    simp only [Except.bind, if_neg hf]
    have hbo : NArr.bshape y.shape (NArr.uop (· * (1 / (f : ℝ))) z).shape = some [n, n] := by
      show NArr.bshape y.shape z.shape = _
      rw [h5, hz2]
      simp [NArr.bshape, NArr.bshapeRev, NArr.bdim, Ne.symm hn]
    refine ⟨⟨[n, n], fun i => y.val (NArr.bidx y.shape i) + (NArr.uop (· * (1 / (f : ℝ))) z).val (NArr.bidx (NArr.uop (· * (1 / (f : ℝ))) z).shape i)⟩, ?_, rfl⟩
    have : NArr.bop (· + ·) y (NArr.uop (· * (1 / (f : ℝ))) z) = .ok ⟨[n, n], fun i => y.val (NArr.bidx y.shape i) +
        (NArr.uop (· * (1 / (f : ℝ))) z).val (NArr.bidx (NArr.uop (· * (1 / (f : ℝ))) z).shape i)⟩ := by
      unfold NArr.bop
      rw [hbo]
    rw [bin_single, this]
    rfl
  · intro hm
    have hv : vmap (sumSq · (.leaf (clean u))) (.leaf (clean g)) = .error .typeError := by
      unfold vmap
      rw [hb]
      simp only [Bind.bind, Except.bind]
      rw [show map (row 0) (.leaf (clean g)) = .leaf (row 0 (clean g)) from rfl, hs 0, if_neg hm]
    rw [hun, hrun, hv]
    rfl

example : ∃ y, inputSensitivity (.leaf [1]) (.leaf ⟨[3, 1, 2], fun _ => some (1 : ℝ)⟩) (.leaf ⟨[5, 2], fun _ => 0⟩) (.leaf ⟨[4, 2], fun _ => 0⟩) (.leaf true) (.leaf true)
    (some (.leaf ⟨[3, 2], fun _ => some 1⟩)) = .ok (.leaf y) ∧ y.shape = [3, 3] :=
  (C80_uncertainty_refuted ⟨[3, 1, 2], fun _ => some (1 : ℝ)⟩ ⟨[3, 2], fun _ => some 1⟩ 3 1 2 (by decide) (by decide) rfl rfl ⟨[5, 2], fun _ => 0⟩ ⟨[4, 2], fun _ => 0⟩
    5 4 (by decide) rfl rfl (by decide)).1 rfl

end Props
end Verif
