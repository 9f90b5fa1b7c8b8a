import Verif.Props.Sensitivity
import Verif.Props.ConformalInterval

/-! # C80: the sensitivity to uncertain inputs, for uncertainties that are the same for all samples -/

namespace Verif.Props
open Tree Sens SensSpec
open ForwardSpec (At KeysOk)
open NdSpec

variable {𝕜 : Type} [RCLike 𝕜]

/-- The uncertainties of one feature. -/
def uncArr (f : Feature × NArr (Option 𝕜)) : NArr (Option 𝕜) := if f.1.cont && f.1.sel then f.2 else NArr.uop (fun _ => some 0) f.2

theorem unc_run {D : Tree (Feature × NArr (Option 𝕜))} (hD : KeysOk D) :
    jaxMap uncLeaf (map Prod.snd D) [map (fun f => f.1.cont) D, map (fun f => f.1.sel) D] = .ok (map uncArr D.norm) :=
  jaxMap_triple (two_norm _ .typeError (fun _ _ _ => rfl) fun a vs h => by
    unfold uncLeaf
    split
    · exact absurd rfl (h _ _)
    · rfl) _ _ _ _ (fun _ => rfl) hD

theorem uncArr_shape (f : Feature × NArr (Option 𝕜)) : (uncArr f).shape = f.2.shape := by
  unfold uncArr
  split <;> rfl

theorem squares_unc (g : NArr (Option 𝕜)) (f : Feature × NArr (Option 𝕜)) (k : Nat) (o : List Nat) :
    squares g (uncArr f) k o = if f.1.cont = true ∧ f.1.sel = true then squares g f.2 k o else 0 := by
  unfold uncArr
  by_cases h : f.1.cont = true ∧ f.1.sel = true
  · rw [if_pos h, if_pos (by rw [h.1, h.2]; rfl)]
  · rw [if_neg h, if_neg (by rwa [Bool.and_eq_true])]
    simp [squares, finite, NArr.uop]

/-- The number to which the uncertainties of one feature contribute: the square of derivative times interquartile range, and the square of derivative times uncertainty, for all components. -/
noncomputable def uncertain (m : Nat) (g : NArr (Option 𝕜)) (f : Feature × NArr (Option 𝕜)) (k : Nat) (o : List Nat) : ℝ :=
  ((NArr.indices f.1.train.shape.tail).map fun j => (‖finite (g.val (k :: (o ++ j)))‖ * interquartile (component f.1.train m j)) ^ 2 +
    (‖finite (g.val (k :: (o ++ j)))‖ * ‖finite (f.2.val j)‖) ^ 2).sum

/-- **C80** With one uncertainty per component of each feature (the same for all samples), the input sensitivity is the mean over the components of the selected continuous features of the square of
derivative times interquartile range plus the square of derivative times uncertainty. Other uncertainties do not matter. -/
theorem C80_uncertain (T : Tree (List Nat × Tree (NArr (Option 𝕜)))) (hT : KeysOk T) (D : Tree (Feature × NArr (Option 𝕜))) (hD : KeysOk D) (n m : Nat) (hm : m ≠ 0)
    (htrain : ∀ f ∈ flat D, f.1.train.shape.head? = some m) (hunc : ∀ f ∈ flat D, f.2.shape = f.1.train.shape.tail) (s : List Nat) (hout : ∀ d ∈ flat T, d.1 = s)
    (hf : ∀ d ∈ flat T, GradFits (fun f : Feature × NArr (Option 𝕜) => f.1.train.shape.tail) n d.1 d.2 D) (hsel : selectedCount (map Prod.fst D) ≠ 0) :
    ∃ r, inputSensitivity (map Prod.fst T) (Tree.bind Prod.snd T) (map (fun f => f.1.train) D) (map (fun f => f.1.cal) D) (map (fun f => f.1.cont) D)
        (map (fun f => f.1.sel) D) (some (map Prod.snd D)) = .ok r ∧
      map (fun _ => ()) r = map (fun _ => ()) T.norm ∧
      ∀ p d, At T p d → ∃ y, At r p y ∧ y.shape = n :: s ∧ ∀ k o, k < n → InB s o →
        y.val (k :: o) = (((jaxLeaves d.2).zip (jaxLeaves D)).map fun y => if y.2.1.cont = true ∧ y.2.1.sel = true then uncertain m y.1 y.2 k o
          else 0).sum / selectedCount (map Prod.fst D) := by
  have hDF : KeysOk (map Prod.fst D) := (keysOk_map _ _).2 hD
  have hne : jaxLeaves D ≠ [] := by
    intro h
    apply hsel
    simp [selectedCount, Matmul.jaxLeaves_map, h]
  have hgen : ∀ (sc : Feature × NArr (Option 𝕜) → NArr (Option 𝕜)), (∀ f ∈ flat D, (sc f).shape = f.1.train.shape.tail) →
      ∃ r, sensitivity (map Prod.fst T) (Tree.bind Prod.snd T) (map sc D.norm) (selectedCount (map Prod.fst D)) = .ok r ∧ map (fun _ => ()) r = map (fun _ => ()) T.norm ∧
      ∀ p d, At T p d → ∃ y, At r p y ∧ y.shape = n :: s ∧ ∀ k o, k < n → InB s o →
        y.val (k :: o) = (((jaxLeaves d.2).zip (jaxLeaves D)).map fun y => squares y.1 (sc y.2) k o).sum / selectedCount (map Prod.fst D) := by
    intro sc hsc
    have hk : KeysOk (map sc D.norm) := (keysOk_map _ _).2 (keysOk_norm' hD)
    have hz : ∀ d : List Nat × Tree (NArr (Option 𝕜)), (jaxLeaves d.2).zip (jaxLeaves (map sc D.norm)) =
        ((jaxLeaves d.2).zip (jaxLeaves D)).map fun y => (y.1, sc y.2) := by
      intro d
      rw [leaves_norm _ hD]
      conv_lhs => rw [← List.map_id (jaxLeaves d.2)]
      rw [List.zip_map]
      rfl
    obtain ⟨r, h1, h2, h3⟩ := sensitivity_value hT hk hout (by rw [leaves_norm _ hD]; simpa using hne) (n := n) (fun d hd => ⟨(hf d hd).keys, by
      rw [Tree.norm_map, norm_norm hD, map_map]
      exact (hf d hd).struct, by
      rw [hz]
      intro y hy
      obtain ⟨y', hy', rfl⟩ := List.mem_map.1 hy
      simp only
      rw [hsc y'.2 (mem_flat_norm.1 (List.of_mem_zip hy').2)]
      exact (hf d hd).shapes y' hy'⟩) hsel
    refine ⟨r, h1, h2, fun p d hd => ?_⟩
    obtain ⟨y, h4, h5, h6⟩ := h3 p d hd
    refine ⟨y, h4, h5, fun k o hk ho => ?_⟩
    rw [h6 k o hk ho, hz, List.map_map]
    rfl
  obtain ⟨r1, a1, a2, a3⟩ := hgen (fun f => iqrArr f.1) fun f _ => rfl
  obtain ⟨r2, b1, b2, b3⟩ := hgen uncArr fun f hf => by rw [uncArr_shape]; exact hunc f hf
  have n1 : ∀ {r : Tree (NArr ℝ)}, map (fun _ => ()) r = map (fun _ => ()) T.norm → map (fun _ => ()) r.norm = map (fun _ => ()) T.norm := fun {r} h => by
    rw [← Tree.norm_map, h, Tree.norm_map, norm_norm hT]
  have kr : ∀ {r : Tree (NArr ℝ)}, map (fun _ => ()) r = map (fun _ => ()) T.norm → KeysOk r := fun {r} h =>
    (keysOk_map (fun _ => ()) r).1 (by rw [h]; exact (keysOk_map _ _).2 (keysOk_norm' hT))
  have loc : ∀ {r : Tree (NArr ℝ)} {p y}, map (fun _ => ()) r = map (fun _ => ()) T.norm → At r p y → ∃ d, At T p d := fun {r p y} h hy => by
    have : At (map (fun _ => ()) r) p () := at_map.2 ⟨y, hy, rfl⟩
    rw [h] at this
    obtain ⟨d, hd, -⟩ := at_map.1 this
    exact ⟨d, at_norm.1 hd⟩
  have shape : ∀ p x y, At r1 p x → At r2 p y → x.shape = n :: s ∧ y.shape = n :: s := fun p x y hx hy => by
    obtain ⟨d, hd⟩ := loc a2 hx
    obtain ⟨x', hx', h1, -⟩ := a3 p d hd
    obtain ⟨y', hy', h2, -⟩ := b3 p d hd
    rw [at_unique (kr a2) hx hx', at_unique (kr b2) hy hy']
    exact ⟨h1, h2⟩
  obtain ⟨r, c1, c2, c3⟩ := bin_total (fun a b : ℝ => a + b) (kr b2) ((n1 a2).trans (n1 b2).symm) fun p x y hx hy => by
    obtain ⟨h1, h2⟩ := shape p x y hx hy
    obtain ⟨z, hz, -⟩ := bop_rows (fun a b : ℝ => a + b) x y (.inl h1) (.inl h2) (.inl h1)
    exact ⟨z, hz⟩
  refine ⟨r, ?_, c2.trans (n1 a2), fun p d hd => ?_⟩
  · unfold inputSensitivity
    have e1 := iqr_run (𝕜 := 𝕜) hDF
    have e2 := count_run hDF
    have e3 := count_sum hDF
    simp only [map_map, Tree.norm_map] at e1 e2 e3
    rw [e1]
    simp only [Bind.bind, Except.bind]
    rw [e2]
    simp only
    rw [e3, a1]
    simp only
    rw [unc_run hD]
    simp only
    rw [b1]
    exact c1
  · obtain ⟨x, hx, h1, hx'⟩ := a3 p d hd
    obtain ⟨y, hy, h2, hy'⟩ := b3 p d hd
    obtain ⟨z, hz, hzz⟩ := c3 p x y hx hy
    obtain ⟨w, hw, hs, hv⟩ := bop_rows (fun a b : ℝ => a + b) x y (.inl h1) (.inl h2) (.inl h1)
    rw [hzz] at hw
    cases hw
    refine ⟨z, hz, hs, fun k o hk ho => ?_⟩
    have hin : InB (n :: s) (k :: o) := NArr.inB_cons.2 ⟨hk, ho⟩
    have hcons : ∀ w : NArr ℝ, w.shape = n :: s → entryAt w s k o = w.val (k :: o) := fun w hw => by
      unfold entryAt
      rw [if_neg]
      rw [hw]
      intro e
      have := congrArg List.length e
      simp at this
    rw [hv k o hin, hcons x h1, hcons y h2, hx' k o hk ho, hy' k o hk ho, ← add_div, ← List.sum_map_add]
    congr 2
    refine List.map_congr_left fun z hz => ?_
    have hzf := mem_flat_norm.1 (List.of_mem_zip hz).2
    rw [squares_iqr _ _ hm (htrain z.2 hzf), squares_unc]
    split
    · unfold uncertain squares
      rw [hunc z.2 hzf, ← List.sum_map_add]
      congr 1
      refine List.map_congr_left fun j _ => ?_
      rw [norm_mul]
    · rw [add_zero]

example : ∃ r, inputSensitivity (.leaf [1]) (.leaf ⟨[2, 1, 1], fun _ => some (1 : ℝ)⟩) (.leaf ⟨[5, 1], fun i => i.headD 0⟩) (.leaf ⟨[4, 1], fun _ => 0⟩)
    (.leaf true) (.leaf true) (some (.leaf ⟨[1], fun _ => some 3⟩)) = .ok r ∧ ∃ y, At r [] y ∧ y.shape = [2, 1] := by
  obtain ⟨r, h1, -, h3⟩ := C80_uncertain (𝕜 := ℝ) (.leaf ([1], .leaf ⟨[2, 1, 1], fun _ => some 1⟩)) trivial
    (.leaf (⟨⟨[5, 1], fun i => i.headD 0⟩, ⟨[4, 1], fun _ => 0⟩, true, true⟩, ⟨[1], fun _ => some 3⟩)) trivial 2 5 (by decide) (by simp [flat]) (by simp [flat]) [1] (by simp [flat]) (by
      intro d hd
      simp only [flat, List.mem_singleton] at hd
      subst hd
      exact ⟨trivial, rfl, by simp [jaxLeaves, Tree.norm, flat]⟩) (by simp [selectedCount, jaxLeaves, Tree.norm, flat, map, NArr.length_indices])
  obtain ⟨y, h4, h5, -⟩ := h3 [] _ (.leaf _)
  exact ⟨r, h1, y, h4, h5⟩

end Verif.Props
