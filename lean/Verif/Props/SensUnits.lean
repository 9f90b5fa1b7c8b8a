import Verif.Props.NormUnits

/-! # C141: the units of features and parameters and the sensitivities -/

namespace Verif.Props
open Verif.Tree Verif.NdSpec Verif.Conformal Verif.Quantile Verif.Norm Verif.Sens Verif.SensSpec NArr
open Verif.ForwardSpec (At KeysOk)

variable {𝕜 : Type} [RCLike 𝕜]

theorem zip_same {α β γ : Type} (F : α × γ → ℝ) (G : β × γ → ℝ) : ∀ (A : List α) (B : List β) (C : List γ), A.length = B.length →
    (∀ y ∈ A.zip (B.zip C), F (y.1, y.2.2) = G y.2) → (A.zip C).map F = (B.zip C).map G
  | [], [], _, _, _ => rfl
  | [], _ :: _, _, h, _ => by simp at h
  | _ :: _, [], _, h, _ => by simp at h
  | _ :: _, _ :: _, [], _, _ => rfl
  | a :: A, b :: B, c :: C, h, hy => by
    rw [List.zip_cons_cons, List.zip_cons_cons, List.map_cons, List.map_cons]
    rw [zip_same F G A B C (by simpa using h) fun y hy' => hy y (by rw [List.zip_cons_cons, List.zip_cons_cons]; exact List.mem_cons_of_mem _ hy')]
    have := hy (a, b, c) (by simp)
    rw [this]

theorem leaves_length {α β : Type} {s : Tree α} {t : Tree β} (h : map (fun _ => ()) s.norm = map (fun _ => ()) t.norm) : (jaxLeaves s).length = (jaxLeaves t).length := by
  have := congrArg (fun u : Tree Unit => (flat u).length) h
  simpa only [flat_map, List.length_map, jaxLeaves] using this

/-- A feature in two units: the training data, and the factor and shift of each component that lead to the other unit, and the data in it. -/
structure FeatureUnits where
  old : Feature
  new : Feature
  a : List Nat → ℝ
  b : List Nat → ℝ

/-- The data really are the same data in two units, the factors being positive; which features are continuous and selected does not change. -/
structure FeatureUnits.Ok (m : Nat) (u : FeatureUnits) : Prop where
  data : ∃ s, InUnits u.a u.b m s u.old.train u.new.train
  cal : u.new.cal.shape = u.old.cal.shape
  cont : u.new.cont = u.old.cont
  sel : u.new.sel = u.old.sel

theorem interquartile_units {a : ℝ} (ha : 0 < a) (b : ℝ) {l : List ℝ} (hl : l ≠ []) : interquartile (l.map fun v => a * v + b) = a * interquartile l := by
  unfold interquartile
  rw [Units.quant_follows a b ha _ l _ (List.Perm.refl _), Units.quant_follows a b ha _ l _ (List.Perm.refl _)]
  obtain ⟨x, hx⟩ := quant_some hl (3 / 4)
  obtain ⟨y, hy⟩ := quant_some hl (1 / 4)
  rw [hx, hy]
  simp only [Option.map_some, Option.getD_some]
  ring

theorem finite_map (f : 𝕜 → 𝕜) (hf : f 0 = 0) (o : Option 𝕜) : finite (o.map f) = f (finite o) := by
  cases o with
  | none => exact hf.symm
  | some v => rfl

/-- **C141 (features).** The input sensitivities do not depend on the units of the features: if every component of every feature is measured in another unit and with another zero, the
derivatives with respect to it are divided by its factor, and every input sensitivity is what it was. -/
theorem C141_inputs (T : Tree (List Nat × Tree (NArr (Option 𝕜)) × Tree (NArr (Option 𝕜)))) (hT : KeysOk T) (U : Tree FeatureUnits) (hU : KeysOk U) (n m : Nat)
    (hm : m ≠ 0) (hok : ∀ u ∈ flat U, u.Ok m) (s : List Nat) (hout : ∀ d ∈ flat T, d.1 = s)
    (hold : ∀ d ∈ flat T, GradFits (fun u : FeatureUnits => u.old.train.shape.tail) n s d.2.1 U)
    (hnew : ∀ d ∈ flat T, GradFits (fun u : FeatureUnits => u.new.train.shape.tail) n s d.2.2 U)
    (hgrad : ∀ d ∈ flat T, ∀ y ∈ (jaxLeaves d.2.1).zip ((jaxLeaves d.2.2).zip (jaxLeaves U)), ∀ k o j, k < n → InB s o → InB y.2.2.old.train.shape.tail j →
      y.2.1.val (k :: (o ++ j)) = (y.1.val (k :: (o ++ j))).map fun v => v / (y.2.2.a j : 𝕜))
    (hsel : selectedCount (map FeatureUnits.old U) ≠ 0) :
    ∃ r r', inputSensitivity (map Prod.fst T) (Tree.bind (fun d => d.2.1) T) (map (fun u => u.old.train) U) (map (fun u => u.old.cal) U) (map (fun u => u.old.cont) U)
        (map (fun u => u.old.sel) U) Option.none = .ok r ∧
      inputSensitivity (map Prod.fst T) (Tree.bind (fun d => d.2.2) T) (map (fun u => u.new.train) U) (map (fun u => u.new.cal) U) (map (fun u => u.new.cont) U)
        (map (fun u => u.new.sel) U) Option.none = .ok r' ∧
      ∀ p d, At T p d → ∃ y y', At r p y ∧ At r' p y' ∧ y.shape = n :: s ∧ y'.shape = n :: s ∧
        ∀ k o, k < n → InB s o → y'.val (k :: o) = y.val (k :: o) := by
  have fits : ∀ (w : FeatureUnits → Feature) (g : Tree (NArr (Option 𝕜))), GradFits (fun u : FeatureUnits => (w u).train.shape.tail) n s g U →
      GradFits (fun f : Feature => f.train.shape.tail) n s g (map w U) := by
    intro w g h
    refine ⟨h.keys, ?_, fun y hy => ?_⟩
    · rw [Tree.norm_map, map_map]
      exact h.struct
    · rw [Matmul.jaxLeaves_map, ← List.map_id (jaxLeaves g), List.zip_map] at hy
      obtain ⟨z, hz, rfl⟩ := List.mem_map.1 hy
      exact h.shapes z hz
  have hcount : selectedCount (map FeatureUnits.new U) = selectedCount (map FeatureUnits.old U) := by
    unfold selectedCount
    rw [Matmul.jaxLeaves_map, Matmul.jaxLeaves_map, List.map_map, List.map_map]
    congr 1
    refine List.map_congr_left fun u hu => ?_
    have h := hok u (mem_flat_norm.1 hu)
    simp only [Function.comp, h.cont, h.sel, h.cal]
  have hhead : ∀ u ∈ flat U, u.old.train.shape.head? = some m ∧ u.new.train.shape.head? = some m := fun u hu => by
    obtain ⟨s', h1, h2, -⟩ := (hok u hu).data
    simp [h1, h2]
  obtain ⟨r, h1, -, h3⟩ := C80_inputs (map (fun d => (d.1, d.2.1)) T) ((keysOk_map _ _).2 hT) (map FeatureUnits.old U) ((keysOk_map _ _).2 hU) n m hm
    (fun f hf => by rw [flat_map] at hf; obtain ⟨u, hu, rfl⟩ := List.mem_map.1 hf; exact (hhead u hu).1) s
    (fun d hd => by rw [flat_map] at hd; obtain ⟨d', hd', rfl⟩ := List.mem_map.1 hd; exact hout d' hd')
    (fun d hd => by
      rw [flat_map] at hd
      obtain ⟨d', hd', rfl⟩ := List.mem_map.1 hd
      have := fits FeatureUnits.old _ (hold d' hd')
      rwa [← hout d' hd'] at this) hsel
  obtain ⟨r', h1', -, h3'⟩ := C80_inputs (map (fun d => (d.1, d.2.2)) T) ((keysOk_map _ _).2 hT) (map FeatureUnits.new U) ((keysOk_map _ _).2 hU) n m hm
    (fun f hf => by rw [flat_map] at hf; obtain ⟨u, hu, rfl⟩ := List.mem_map.1 hf; exact (hhead u hu).2) s
    (fun d hd => by rw [flat_map] at hd; obtain ⟨d', hd', rfl⟩ := List.mem_map.1 hd; exact hout d' hd')
    (fun d hd => by
      rw [flat_map] at hd
      obtain ⟨d', hd', rfl⟩ := List.mem_map.1 hd
      have := fits FeatureUnits.new _ (hnew d' hd')
      rwa [← hout d' hd'] at this) (by rw [hcount]; exact hsel)
  simp only [map_map, Tree.bind_map] at h1 h1'
  refine ⟨r, r', h1, h1', fun p d hd => ?_⟩
  have hdm : d ∈ flat T := mem_flat_at.2 ⟨p, hd⟩
  obtain ⟨y, h4, h5, h6⟩ := h3 p (d.1, d.2.1) (at_map.2 ⟨d, hd, rfl⟩)
  obtain ⟨y', h4', h5', h6'⟩ := h3' p (d.1, d.2.2) (at_map.2 ⟨d, hd, rfl⟩)
  refine ⟨y, y', h4, h4', h5, h5', fun k o hk ho => ?_⟩
  rw [h6 k o hk ho, h6' k o hk ho, hcount]
  congr 2
  have ez : ∀ (w : FeatureUnits → Feature) (g : Tree (NArr (Option 𝕜))), (jaxLeaves g).zip (jaxLeaves (map w U)) = ((jaxLeaves g).zip (jaxLeaves U)).map fun y => (y.1, w y.2) := by
    intro w g
    rw [Matmul.jaxLeaves_map]
    conv_lhs => rw [← List.map_id (jaxLeaves g)]
    rw [List.zip_map]
    rfl
  show List.map _ ((jaxLeaves d.2.2).zip (jaxLeaves (map FeatureUnits.new U))) = List.map _ ((jaxLeaves d.2.1).zip (jaxLeaves (map FeatureUnits.old U)))
  rw [ez, ez, List.map_map, List.map_map]
  symm
  refine zip_same _ _ _ _ _ ((leaves_length (hold d hdm).struct).trans (leaves_length (hnew d hdm).struct).symm) fun z hz => ?_
  have hzu : z.2.2 ∈ jaxLeaves U := (List.of_mem_zip (List.of_mem_zip hz).2).2
  have hu := hok z.2.2 (mem_flat_norm.1 hzu)
  obtain ⟨s', e1, e2, e3⟩ := hu.data
  show (if z.2.2.old.cont = true ∧ z.2.2.old.sel = true then _ else (0 : ℝ)) = if z.2.2.new.cont = true ∧ z.2.2.new.sel = true then _ else (0 : ℝ)
  rw [hu.cont, hu.sel]
  split
  · have et : z.2.2.new.train.shape.tail = z.2.2.old.train.shape.tail := by rw [e1, e2]
    rw [et]
    congr 1
    refine List.map_congr_left fun j hj => ?_
    have hj : InB z.2.2.old.train.shape.tail j := mem_indices.1 hj
    rw [hgrad d hdm z hz k o j hk ho hj]
    have hj' : InB s' j := by simpa [e1] using hj
    rw [component_units ⟨e1, e2, e3⟩ hj', interquartile_units (e3 j hj').1 _ (component_ne (Nat.pos_of_ne_zero hm) j),
      finite_map (fun v => v / (z.2.2.a j : 𝕜)) (zero_div _), norm_div, RCLike.norm_ofReal, abs_of_pos (e3 j hj').1]
    have := (e3 j hj').1.ne'
    field_simp
  · rfl

/-- Five samples of one feature in metres and in millimetres; one output, with the derivative 6 per metre. -/
def demoFeature : FeatureUnits :=
  ⟨⟨⟨[5, 1], fun i => i.headD 0⟩, ⟨[4, 1], fun _ => 0⟩, true, true⟩, ⟨⟨[5, 1], fun i => 1000 * (i.headD 0 : ℝ)⟩, ⟨[4, 1], fun _ => 0⟩, true, true⟩, fun _ => 1000, fun _ => 0⟩

example : demoFeature.Ok 5 ∧ GradFits (𝕜 := ℝ) (fun u : FeatureUnits => u.old.train.shape.tail) 2 [1] (.leaf ⟨[2, 1, 1], fun _ => some 6⟩) (.leaf demoFeature) ∧
    GradFits (𝕜 := ℝ) (fun u : FeatureUnits => u.new.train.shape.tail) 2 [1] (.leaf ⟨[2, 1, 1], fun _ => some (6 / 1000)⟩) (.leaf demoFeature) ∧
    selectedCount (map FeatureUnits.old (.leaf demoFeature)) ≠ 0 ∧
    ∀ k o j, (⟨[2, 1, 1], fun _ => some (6 / 1000)⟩ : NArr (Option ℝ)).val (k :: (o ++ j)) =
      ((⟨[2, 1, 1], fun _ => some 6⟩ : NArr (Option ℝ)).val (k :: (o ++ j))).map fun v => v / demoFeature.a j :=
  ⟨⟨⟨[1], rfl, rfl, fun i _ => ⟨by norm_num [demoFeature], fun k _ => by simp [demoFeature]⟩⟩, rfl, rfl, rfl⟩,
    ⟨trivial, rfl, by simp [jaxLeaves, Tree.norm, flat, demoFeature]⟩, ⟨trivial, rfl, by simp [jaxLeaves, Tree.norm, flat, demoFeature]⟩,
    by simp [selectedCount, jaxLeaves, Tree.norm, flat, demoFeature, map, NArr.length_indices], fun _ _ _ => rfl⟩

/-- A parameter array in two units: the entries of the second are those of the first times a factor of their own. -/
structure ParamUnits (𝕜 : Type) where
  old : NArr (Option 𝕜)
  new : NArr (Option 𝕜)
  a : List Nat → 𝕜
  sel : Bool

/-- **C141 (parameters).** The parameter sensitivities do not depend on the units of the parameters: if every entry of every parameter array is multiplied by a number of its own other than
zero, the derivatives with respect to it are divided by this number, and every parameter sensitivity is what it was. -/
theorem C141_parameters (T : Tree (List Nat × Tree (NArr (Option 𝕜)) × Tree (NArr (Option 𝕜)))) (hT : KeysOk T) (U : Tree (ParamUnits 𝕜)) (hU : KeysOk U) (n : Nat)
    (hok : ∀ u ∈ flat U, u.new.shape = u.old.shape ∧ ∀ j, InB u.old.shape j → u.a j ≠ 0 ∧ u.new.val j = (u.old.val j).map fun v => u.a j * v)
    (s : List Nat) (hout : ∀ d ∈ flat T, d.1 = s)
    (hold : ∀ d ∈ flat T, GradFits (fun u : ParamUnits 𝕜 => u.old.shape) n s d.2.1 U)
    (hnew : ∀ d ∈ flat T, GradFits (fun u : ParamUnits 𝕜 => u.new.shape) n s d.2.2 U)
    (hgrad : ∀ d ∈ flat T, ∀ y ∈ (jaxLeaves d.2.1).zip ((jaxLeaves d.2.2).zip (jaxLeaves U)), ∀ k o j, k < n → InB s o → InB y.2.2.old.shape j →
      y.2.1.val (k :: (o ++ j)) = (y.1.val (k :: (o ++ j))).map fun v => v / y.2.2.a j)
    (hsel : selectedSize (map (fun u => (u.old, u.sel)) U) ≠ 0) :
    ∃ r r', parameterSensitivity (map Prod.fst T) (Tree.bind (fun d => d.2.1) T) (map (fun u => u.old) U) (map (fun u => u.sel) U) = .ok r ∧
      parameterSensitivity (map Prod.fst T) (Tree.bind (fun d => d.2.2) T) (map (fun u => u.new) U) (map (fun u => u.sel) U) = .ok r' ∧
      ∀ p d, At T p d → ∃ y y', At r p y ∧ At r' p y' ∧ y.shape = n :: s ∧ y'.shape = n :: s ∧
        ∀ k o, k < n → InB s o → y'.val (k :: o) = y.val (k :: o) := by
  have fits : ∀ (w : ParamUnits 𝕜 → NArr (Option 𝕜)) (g : Tree (NArr (Option 𝕜))), GradFits (fun u : ParamUnits 𝕜 => (w u).shape) n s g U →
      GradFits (fun p : NArr (Option 𝕜) × Bool => p.1.shape) n s g (map (fun u => (w u, u.sel)) U) := by
    intro w g h
    refine ⟨h.keys, ?_, fun y hy => ?_⟩
    · rw [Tree.norm_map, map_map]
      exact h.struct
    · rw [Matmul.jaxLeaves_map, ← List.map_id (jaxLeaves g), List.zip_map] at hy
      obtain ⟨z, hz, rfl⟩ := List.mem_map.1 hy
      exact h.shapes z hz
  have hcount : selectedSize (map (fun u => (u.new, u.sel)) U) = selectedSize (map (fun u => (u.old, u.sel)) U) := by
    unfold selectedSize
    rw [Matmul.jaxLeaves_map, Matmul.jaxLeaves_map, List.map_map, List.map_map]
    congr 1
    refine List.map_congr_left fun u hu => ?_
    simp only [Function.comp, (hok u (mem_flat_norm.1 hu)).1]
  obtain ⟨r, h1, -, h3⟩ := C80_parameters (map (fun d => (d.1, d.2.1)) T) ((keysOk_map _ _).2 hT) (map (fun u => (u.old, u.sel)) U) ((keysOk_map _ _).2 hU) n s
    (fun d hd => by rw [flat_map] at hd; obtain ⟨d', hd', rfl⟩ := List.mem_map.1 hd; exact hout d' hd')
    (fun d hd => by
      rw [flat_map] at hd
      obtain ⟨d', hd', rfl⟩ := List.mem_map.1 hd
      have := fits ParamUnits.old _ (hold d' hd')
      rwa [← hout d' hd'] at this) hsel
  obtain ⟨r', h1', -, h3'⟩ := C80_parameters (map (fun d => (d.1, d.2.2)) T) ((keysOk_map _ _).2 hT) (map (fun u => (u.new, u.sel)) U) ((keysOk_map _ _).2 hU) n s
    (fun d hd => by rw [flat_map] at hd; obtain ⟨d', hd', rfl⟩ := List.mem_map.1 hd; exact hout d' hd')
    (fun d hd => by
      rw [flat_map] at hd
      obtain ⟨d', hd', rfl⟩ := List.mem_map.1 hd
      have := fits ParamUnits.new _ (hnew d' hd')
      rwa [← hout d' hd'] at this) (by rw [hcount]; exact hsel)
  simp only [map_map, Tree.bind_map] at h1 h1'
  refine ⟨r, r', h1, h1', fun p d hd => ?_⟩
  have hdm : d ∈ flat T := mem_flat_at.2 ⟨p, hd⟩
  obtain ⟨y, h4, h5, h6⟩ := h3 p (d.1, d.2.1) (at_map.2 ⟨d, hd, rfl⟩)
  obtain ⟨y', h4', h5', h6'⟩ := h3' p (d.1, d.2.2) (at_map.2 ⟨d, hd, rfl⟩)
  refine ⟨y, y', h4, h4', h5, h5', fun k o hk ho => ?_⟩
  rw [h6 k o hk ho, h6' k o hk ho, hcount]
  congr 2
  have ez : ∀ (w : ParamUnits 𝕜 → NArr (Option 𝕜) × Bool) (g : Tree (NArr (Option 𝕜))),
      (jaxLeaves g).zip (jaxLeaves (map w U)) = ((jaxLeaves g).zip (jaxLeaves U)).map fun y => (y.1, w y.2) := by
    intro w g
    rw [Matmul.jaxLeaves_map]
    conv_lhs => rw [← List.map_id (jaxLeaves g)]
    rw [List.zip_map]
    rfl
  show List.map _ ((jaxLeaves d.2.2).zip (jaxLeaves (map (fun u => (u.new, u.sel)) U))) =
    List.map _ ((jaxLeaves d.2.1).zip (jaxLeaves (map (fun u => (u.old, u.sel)) U)))
  rw [ez, ez, List.map_map, List.map_map]
  symm
  refine zip_same _ _ _ _ _ ((leaves_length (hold d hdm).struct).trans (leaves_length (hnew d hdm).struct).symm) fun z hz => ?_
  have hzu : z.2.2 ∈ jaxLeaves U := (List.of_mem_zip (List.of_mem_zip hz).2).2
  obtain ⟨hsh, hv⟩ := hok z.2.2 (mem_flat_norm.1 hzu)
  show (if z.2.2.sel then squares z.1 z.2.2.old k o else 0) = if z.2.2.sel then squares z.2.1 z.2.2.new k o else 0
  split
  · unfold squares
    rw [hsh]
    congr 1
    refine List.map_congr_left fun j hj => ?_
    have hj : InB z.2.2.old.shape j := mem_indices.1 hj
    rw [hgrad d hdm z hz k o j hk ho hj, (hv j hj).2, finite_map (fun v => v / z.2.2.a j) (zero_div _), finite_map (fun v => z.2.2.a j * v) (mul_zero _)]
    have := (hv j hj).1
    congr 2
    field_simp
  · rfl

/-- Two parameters 3, the first in a unit a hundredth of the old one, the second with another sign. -/
def demoParam : ParamUnits ℝ := ⟨⟨[2], fun _ => some 3⟩, ⟨[2], fun j => some (if j = [0] then 300 else -3)⟩, fun j => if j = [0] then 100 else -1, true⟩

example : (demoParam.new.shape = demoParam.old.shape ∧
      ∀ j, InB demoParam.old.shape j → demoParam.a j ≠ 0 ∧ demoParam.new.val j = (demoParam.old.val j).map fun v => demoParam.a j * v) ∧
    GradFits (fun u : ParamUnits ℝ => u.old.shape) 2 [1] (.leaf ⟨[2, 1, 2], fun _ => some 6⟩) (.leaf demoParam) ∧
    selectedSize (map (fun u => (u.old, u.sel)) (.leaf demoParam)) ≠ 0 := by
  refine ⟨⟨rfl, fun j _ => ?_⟩, ⟨trivial, rfl, by simp [jaxLeaves, Tree.norm, flat, demoParam]⟩,
    by simp [selectedSize, jaxLeaves, Tree.norm, flat, demoParam, map, NArr.length_indices]⟩
  unfold demoParam
  by_cases h : j = [0] <;> norm_num [h]

end Verif.Props
