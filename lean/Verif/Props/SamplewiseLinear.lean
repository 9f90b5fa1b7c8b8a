import Verif.Props.SamplewiseModules
import Verif.Props.Matmul
import Verif.Props.Prebuilt

/-!
# C93: products of matrices and linear layers compute sample by sample
-/

namespace Verif.Props
open Reshape Tree ForwardSpec NArr NdSpec Samplewise Prebuilt ReshapeSpec

variable {K : Type}

/-- **C93**, `MatMul`: once compiled, on every batch of the shapes it was compiled for, also in the cases in which C63 fails. -/
theorem C93_matmul [CommSemiring K] {cfg : Matmul.Cfg} {p : Option (NArr K)} {shapes : Tree (List Nat)} {draw : Nat → List Nat → K} {c : Einsum.Params K × Str} (hk : KeysOk shapes)
    (hok : MatmulSpec.OrderOk cfg.sep cfg.pathOrder shapes) (hne : jaxLeaves shapes ≠ []) (hn : (jaxLeaves shapes).length ≤ 49) (h : Matmul.compile draw cfg p shapes = .ok c) :
    SamplewiseOn (fun d => (jaxLeaves d).map (fun x => x.shape.tail) = jaxLeaves shapes) fun d => (Matmul.call c shapes d).map .leaf := by
  obtain ⟨full, cs, out, f, -, -, -, -, -, -, -, -, -, -, -, -, ⟨ls, is, h1, h2, h3, h4, h5, h6, h7⟩, -⟩ := Matmul.core hk hok hne hn h
  exact C93_einsum h1 h2 h3 h4 h5 h6 h7

/-- **C93**, `LinearNN` with an activation applied entry by entry: compiled for a new input shape with a single array, whatever its parameters then are. -/
theorem C93_linear [CommSemiring K] (draw : Nat → List Nat → K) (drawB : List Nat → List Nat → K) (m : Mdl (LinHyper K) (Layers K) (Tree (List Nat))) {n : Nat}
    {s : List Nat} {shapes : Tree (List Nat)} (hout : m.hyper.out = some n) (hk : KeysOk shapes) (hs : jaxLeaves shapes = [s])
    (h1 : (treeFlattenShape shapes).length = 1) (hnew : m.inShape ≠ some shapes) (hact : ∀ a, m.hyper.act = some a → ∃ g, a = uop g) :
    ∃ m', Prebuilt.compile (linOps draw drawB) m shapes = (m', .ok ()) ∧
      ∀ (W : NArr K) (b : Option (NArr K)), W.shape = [n, count s] → b.isSome = m.hyper.bias → (∀ b', b = some b' → b'.shape = [n]) →
        SamplewiseOn (fun d => KeysOk d ∧ OfShape shapes d) (linCall (withParams m'.modules W b)) := by
  obtain ⟨m', hm, -, -, -, -, -, hc⟩ := C77_linear draw drawB m hout hk hs h1 hnew
  refine ⟨m', hm, fun W b hW hb hbs f k l hsel d d' hD hd => ?_⟩
  obtain ⟨hkd, hds⟩ := hD
  have hlv := leaves_related hd
  have hjs : (jaxLeaves d).map (fun x => x.shape.tail) = [s] := by
    rw [← hs, ← hds, Matmul.jaxLeaves_map]
  obtain ⟨x, hx⟩ : ∃ x, jaxLeaves d = [x] := by
    have := congrArg List.length hjs
    rw [List.length_map] at this
    exact List.length_eq_one_iff.1 this
  rw [hx] at hlv hjs
  obtain ⟨x', hx', hxx⟩ : ∃ x', jaxLeaves d' = [x'] ∧ Picked f k l x x' := by
    generalize jaxLeaves d' = ys at hlv
    cases hlv with
    | cons h1 h2 => cases h2; exact ⟨_, rfl, h1⟩
  obtain ⟨s', e1, e2, hv⟩ := hxx
  have hss : s' = s := by simpa [e1] using hjs
  subst hss
  have hds' : OfShape shapes d' := by
    obtain ⟨z, rfl, rfl⟩ := hd
    rw [← hds]
    unfold OfShape
    rw [map_map, map_map]
    refine Tree.map_congr fun q _ => ?_
    obtain ⟨⟨a, b⟩, u, ha, hb, -⟩ := q
    simp only at ha hb ⊢
    rw [ha, hb]
    rfl
  have hkd' : KeysOk d' := by
    obtain ⟨z, rfl, rfl⟩ := hd
    exact (keysOk_map _ _).2 ((keysOk_map _ _).1 hkd)
  obtain ⟨y, hy, hys, hyv⟩ := (hc W b hW hb hbs).2 d k x hkd hds hx e1 hsel.source
  obtain ⟨y', hy', hys', hyv'⟩ := (hc W b hW hb hbs).2 d' l x' hkd' hds' hx' e2 hsel.target
  rw [hy, hy']
  refine related_leaf ?_
  have hyy : Picked f k l y y' := by
    refine ⟨[n], hys, hys', fun i hi j hj => ?_⟩
    obtain ⟨r, rfl⟩ := List.length_eq_one_iff.1 hj.1
    have hr : r < n := by
      exact hj.2 0 n r rfl rfl
    rw [hyv' i r hi hr, hyv (f i) r (hsel.valid i hi) hr]
    have : sample x' i = sample x (f i) := by
      unfold sample
      rw [e1, e2]
      refine List.map_congr_left fun q hq => hv i hi q ?_
      exact mem_indices.1 hq
    rw [this]
  cases ha : m.hyper.act with
  | none => exact hyy
  | some a =>
    obtain ⟨g, rfl⟩ := hact a ha
    exact uop_leafwise g f k l hsel y y' trivial hyy

/-- The layer of C77 with its rectifier, on two samples and on the second one alone. -/
example : ∃ m', Prebuilt.compile (linOps (fun _ i => (i.getD 0 0 : ℤ) - i.getD 1 0) (fun _ i => 10 * i.getD 0 0)) ⟨linDemo, linBuild linDemo, Option.none, Option.none⟩
      (map (fun x => x.shape.tail) linData) = (m', .ok ()) ∧
    Agree (Related (Picked (fun _ => 1) 2 1)) (linCall (withParams m'.modules ⟨[2, 4], fun i => (i.getD 0 0 : ℤ) - i.getD 1 0⟩ (some ⟨[2], fun i => 10 * i.getD 0 0⟩)) linData)
      (linCall (withParams m'.modules ⟨[2, 4], fun i => (i.getD 0 0 : ℤ) - i.getD 1 0⟩ (some ⟨[2], fun i => 10 * i.getD 0 0⟩)) (map (rows (fun _ => 1) 1) linData)) := by
  obtain ⟨m', h1, h2⟩ := C93_linear (fun _ i => (i.getD 0 0 : ℤ) - i.getD 1 0) (fun _ i => 10 * i.getD 0 0)
    ⟨linDemo, linBuild linDemo, Option.none, Option.none⟩ (n := 2) (s := [2, 2]) (shapes := map (fun x => x.shape.tail) linData) rfl ⟨by decide +kernel, trivial, trivial⟩ rfl rfl (by simp)
    (fun a h => by cases h; exact ⟨fun x => max x 0, rfl⟩)
  exact ⟨m', h1, h2 _ _ rfl rfl (fun b' h => by cases h; rfl) _ _ _ ⟨by decide, by decide, fun _ _ => by decide⟩ _ _ ⟨⟨by decide +kernel, trivial, trivial⟩, rfl⟩
    ⟨.dict [("x".toList, .leaf ⟨(_, _), [2, 2], rfl, rfl, fun _ _ _ _ => rfl⟩)], rfl, rfl⟩⟩

/-- A matrix per sample times another one, compiled. -/
example : ∃ c, Matmul.compile (K := ℤ) (fun _ _ => 0) ⟨.none, Option.none, false, '.'⟩ Option.none (.list [.leaf [2, 3], .leaf [3, 4]]) = .ok c ∧
    KeysOk (.list [.leaf [2, 3], .leaf [3, 4]] : Tree (List Nat)) ∧ MatmulSpec.OrderOk '.' Option.none (.list [.leaf [2, 3], .leaf [3, 4]]) :=
  ⟨_, rfl, ⟨trivial, trivial, trivial⟩, fun _ h => by cases h⟩

end Verif.Props
