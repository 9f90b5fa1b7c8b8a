import Verif.Model.Prebuilt
import Verif.Props.Concat
import Verif.Props.Matmul
import Verif.Props.Elementwise
import Verif.Lemmas.SeqCompose

/-!
# C77: `LinearNN` and the compilation of prebuilt models
-/

namespace Verif
namespace Props
open Tree Prebuilt Reshape ReshapeSpec Elementwise ForwardSpec MatmulSpec Matmul

variable {K : Type}

/-- The plan of the product `W x`, whether or not `W` is already there. -/
theorem lin_plan (n D : Nat) (shapes : Tree (List Nat)) (h : jaxLeaves shapes = [[D]]) (psh : Option (List Nat)) (hp : psh = Option.none ∨ psh = some [n, D]) :
    Matmul.plan ⟨.int n, Option.none, true, '.'⟩ psh shapes = .ok ("ab,b".toList, [('a', n), ('b', D)]) := by
  have hsl : shapeList ⟨.int n, Option.none, true, '.'⟩ psh.isSome shapes = .ok [Option.none, some [D]] := by
    simp [shapeList, h]
  have hpos : paramPos ⟨.int n, Option.none, true, '.'⟩ psh [Option.none, some [D]] = .ok (some (0, [n, D])) := by
    rcases hp with rfl | rfl
    · have : ([Option.none, some [D]] : List (Option (List Nat))).idxOf Option.none = 0 := by simp
      simp [paramPos, this, paramShape, dimAt, Except.map]
    · simp [paramPos]
  have hfull : fillShapes [Option.none, some [D]] (some (0, [n, D])) = [[n, D], [D]] := rfl
  have hv : vectorsLast [[n, D], [D]] = true := by
    simp [vectorsLast, List.range_succ]
  have hco : checkOut (.int n) [[n, D], [D]] = .ok () := by
    simp [checkOut]
  unfold Matmul.plan
  rw [hsl]
  simp only [hpos, hfull, hv, hco]
  rw [h]
  simp
  rfl

theorem lin_concretise (D : Nat) (shapes : Tree (List Nat)) (h : jaxLeaves shapes = [[D]]) (hp : Bool) :
    Einsum.concretise (.leaf "ab,b".toList) hp shapes = .ok ⟨["ab".toList], ["b".toList], "a".toList, 'c'⟩ := by
  have hparts : ∃ w, Einsum.parts (.leaf "ab,b".toList) shapes = .ok (Option.none, .leaf "ab,b".toList, Option.none, w) ∧ (w = true → ∃ s, shapes = .leaf s) := by
    unfold Einsum.parts
    by_cases hs : sameStruct (Tree.leaf "ab,b".toList).norm shapes.norm = true
    · rw [if_pos hs]
      refine ⟨true, rfl, fun _ => ?_⟩
      cases shapes with
      | leaf s => exact ⟨s, rfl⟩
      | _ => simp [Tree.norm, sameStruct] at hs
    · rw [if_neg hs]
      exact ⟨false, rfl, fun h => by cases h⟩
  obtain ⟨w, hw, hleaf⟩ := hparts
  have hin : Einsum.inputList (.leaf "b".toList) shapes w = .ok ["b".toList] := by
    cases w with
    | false => rfl
    | true =>
      obtain ⟨s, rfl⟩ := hleaf rfl
      rfl
  unfold Einsum.concretise
  rw [hw]
  simp only
  rw [show Einsum.splitOutput (.leaf "ab,b".toList) Option.none = .ok (.leaf "ab,b".toList, Option.none) by rfl]
  simp only [h, List.length_singleton]
  rw [show Einsum.splitLeading Option.none (.leaf "ab,b".toList) 1 = (some "ab".toList, .leaf "b".toList) by rfl]
  simp only [hin]
  rw [if_neg (by simp)]
  rfl

theorem lin_dimMap (n D : Nat) (p : Option (NArr K)) (hp : ∀ W, p = some W → W.shape = [n, D]) :
    Einsum.dimMap [('a', n), ('b', D)] ⟨["ab".toList], ["b".toList], "a".toList, 'c'⟩ [[D]] (toParams p) = .ok [('a', n), ('b', D)] := by
  have h1 : Einsum.recordAll [('a', n), ('b', D)] [("b".toList, [D])] = .ok [('a', n), ('b', D)] := by
    simp [Einsum.recordAll, Einsum.record, List.lookup]
  have h2 : Einsum.recordParams [('a', n), ('b', D)] ["ab".toList] (toParams p) = .ok [('a', n), ('b', D)] := by
    cases p with
    | none => rfl
    | some W => simp [toParams, Einsum.recordParams, hp W rfl, Einsum.recordAll, Einsum.record, List.lookup]
  unfold Einsum.dimMap
  simp only [List.length_singleton]
  rw [show List.zip (List.drop (if 1 = 0 then 0 else (["ab".toList] ++ ["b".toList]).length - 1) (["ab".toList] ++ ["b".toList])) [[D]] = [("b".toList, [D])] from rfl, h1]
  simp only
  rw [show List.take (if 1 = 0 then 0 else (["ab".toList] ++ ["b".toList]).length - 1) (["ab".toList] ++ ["b".toList]) = ["ab".toList] from rfl, h2]
  rfl

/-- Compiling the product: the parameter is one matrix, the given one if there is one. -/
theorem lin_compile (draw : Nat → List Nat → K) (n D : Nat) (shapes : Tree (List Nat)) (h : jaxLeaves shapes = [[D]]) (p : Option (NArr K))
    (hp : ∀ W, p = some W → W.shape = [n, D]) :
    Matmul.compile draw ⟨.int n, Option.none, true, '.'⟩ p shapes = .ok (.arr (p.getD ⟨[n, D], draw 0⟩), "ab,b".toList) ∧
      Matmul.outputShape ⟨.int n, Option.none, true, '.'⟩ p shapes = .ok [n] := by
  unfold Matmul.compile Matmul.outputShape
  have hpl := lin_plan n D shapes h (p.map NArr.shape) (by cases p with
    | none => exact .inl rfl
    | some W => exact .inr (by rw [Option.map_some, hp W rfl]))
  rw [hpl]
  simp only [Einsum.compile, Einsum.outputShape, lin_concretise D shapes h, h]
  rw [lin_dimMap n D p hp]
  cases p with
  | none => exact ⟨rfl, rfl⟩
  | some W =>
    refine ⟨?_, rfl⟩
    simp [toParams, Einsum.Params.arrays, hp W rfl, Einsum.dim, List.lookup]

theorem single_at {α : Type} {t : Tree α} {a : α} (h : jaxLeaves t = [a]) : (∃ p, At t p a) ∧ ∀ p b, At t p b → b = a := by
  have hm : ∀ b, b ∈ jaxLeaves t ↔ ∃ p, At t p b := fun b => by
    unfold jaxLeaves
    rw [mem_flat_at]
    exact ⟨fun ⟨p, hp⟩ => ⟨p, at_norm.1 hp⟩, fun ⟨p, hp⟩ => ⟨p, at_norm.2 hp⟩⟩
  exact ⟨(hm a).1 (by simp [h]), fun p b hb => by simpa [h] using (hm b).2 ⟨p, hb⟩⟩

theorem single_struct {α β : Type} {t : Tree α} {u : Tree β} {a : α} (hk : KeysOk t) (h : jaxLeaves t = [a]) (hs : map (fun _ => ()) u = map (fun _ => ()) t.norm) :
    (∃ b, jaxLeaves u = [b]) ∧ sameStruct u.norm t.norm = true ∧ KeysOk u := by
  have h1 : sameStruct u.norm t.norm = true := by
    have := congrArg Tree.norm hs
    rw [norm_map, norm_map, norm_norm hk] at this
    exact (sameStruct_iff _ _).2 this
  refine ⟨?_, h1, keysOk_of_struct hs (keysOk_norm' hk)⟩
  have hl := Forward.jaxLeaves_length h1
  rw [h] at hl
  exact List.length_eq_one_iff.1 hl.symm

/-- The shapes after `Flatten`. -/
theorem lin_flat {shapes : Tree (List Nat)} {s : List Nat} (hk : KeysOk shapes) (hs : jaxLeaves shapes = [s]) :
    ∃ o, flattenShape (map some shapes) = .ok o ∧ jaxLeaves (concrete o) = [[count s]] ∧ sameStruct (concrete o).norm shapes.norm = true ∧
      KeysOk (concrete o) := by
  obtain ⟨⟨p₀, h₀⟩, -⟩ := single_at hs
  have hsh : map (fun x : NArr Unit => some x.shape.tail) (map (fun s => (⟨1 :: s, fun _ => ()⟩ : NArr Unit)) shapes) = map some shapes := by
    rw [map_map]; rfl
  obtain ⟨out, d, h1, -, -, h4⟩ := C60_flatten (map (fun s => (⟨1 :: s, fun _ => ()⟩ : NArr Unit)) shapes) ((keysOk_map _ _).2 hk)
    (fun p x hx => by
      obtain ⟨a, -, rfl⟩ := at_map.1 hx
      exact ⟨1, a, rfl, by omega⟩) p₀ _ (at_map.2 ⟨s, h₀, rfl⟩)
  obtain ⟨-, hi⟩ := flatten_total (map (fun s => (⟨1 :: s, fun _ => ()⟩ : NArr Unit)) shapes) ((keysOk_map _ _).2 hk) (at_map.2 ⟨s, h₀, rfl⟩)
  rw [hsh] at h1 hi
  obtain ⟨hst, -⟩ := output_at (sameStruct_target _ ((keysOk_map _ _).2 hk) hi).1 h1
  have hst' : map (fun _ => ()) (concrete out) = map (fun _ => ()) shapes.norm := by
    unfold concrete
    rw [map_map, hst, norm_map, map_map]
  obtain ⟨⟨b, hb⟩, h5, h8⟩ := single_struct hk hs hst'
  refine ⟨out, h1, ?_, h5, h8⟩
  obtain ⟨h6, -⟩ := h4 p₀ _ (at_map.2 ⟨s, h₀, rfl⟩)
  have h7 : At (concrete out) p₀ [count s] := at_map.2 ⟨_, h6, by simp⟩
  rw [hb, (single_at hb).2 _ _ h7]

/-- Data after `Flatten`. -/
theorem lin_flat_call {V : Type} {data : Tree (NArr V)} {x : NArr V} {B : Nat} {s : List Nat} (hk : KeysOk data) (hx : jaxLeaves data = [x]) (hs : x.shape = B :: s) (hB : 0 < B) :
    ∃ d y, callable (some (flattenTarget (map some (map (fun x : NArr V => x.shape.tail) data)))) data = .ok d ∧ jaxLeaves d = [y] ∧ y.shape = [B, count s] ∧
      (∀ k, k < B → sample y k = sample x k) ∧ sameStruct d.norm data.norm = true ∧ KeysOk d := by
  obtain ⟨⟨p₀, h₀⟩, hu⟩ := single_at hx
  obtain ⟨out, d, h1, h2, h3, h4⟩ := C60_flatten data hk (fun p x' hx' => by rw [hu p x' hx', hs]; exact ⟨B, s, rfl, hB⟩) p₀ x h₀
  obtain ⟨⟨y, hy⟩, h5, h6⟩ := single_struct hk hx h3
  obtain ⟨-, y', h7, h8, h9⟩ := h4 p₀ x h₀
  have := (single_at hy).2 _ _ h7
  subst this
  rw [hs] at h8 h9
  refine ⟨d, y', ?_, hy, h8, h9, h5, h6⟩
  rw [map_map]
  exact h2

/-- Compiling the layers: the parameters that are there stay, the others are created. -/
theorem lin_sub (draw : Nat → List Nat → K) (drawB : List Nat → List Nat → K) {shapes : Tree (List Nat)} {s : List Nat} (hk : KeysOk shapes)
    (hs : jaxLeaves shapes = [s]) : ∃ s₁, jaxLeaves s₁ = [[count s]] ∧ sameStruct s₁.norm shapes.norm = true ∧ KeysOk s₁ ∧ ∀ ly : Layers K,
      (ly.params = .none ∨ ∃ W, ly.params = .arr W ∧ W.shape = [ly.out, count s]) → (ly.b = Option.none ∨ ∃ b, ly.b = some (.arr b) ∧ b.shape = [ly.out]) →
      linSub draw drawB ly shapes = ({ ly with
        params := .arr (ly.params.arrays.head?.getD ⟨[ly.out, count s], draw 0⟩)
        plan := some ("ab,b".toList, s₁, flattenTarget (map some shapes))
        b := if ly.hasBias then some (ly.b.getD (.arr ⟨[ly.out], drawB [ly.out]⟩)) else ly.b }, .ok (.leaf [ly.out])) := by
  obtain ⟨o, h1, h2, h3, hko⟩ := lin_flat hk hs
  refine ⟨concrete o, h2, h3, hko, fun ly hW hb => ?_⟩
  have hp : ∀ W, ly.params.arrays.head? = some W → W.shape = [ly.out, count s] := by
    intro W h
    rcases hW with hW | ⟨W', hW, hsh⟩
    · rw [hW] at h; cases h
    · rw [hW] at h
      cases h
      exact hsh
  obtain ⟨h4, -⟩ := lin_compile draw ly.out (count s) (concrete o) h2 _ hp
  obtain ⟨-, h5⟩ := lin_compile draw ly.out (count s) (concrete o) h2
    (some (ly.params.arrays.head?.getD ⟨[ly.out, count s], draw 0⟩)) (fun W h => by
      cases h
      cases e : ly.params.arrays.head? with
      | none => rfl
      | some W => exact hp W e)
  unfold linSub
  rw [h1]
  simp only [Layers.cfg, h4]
  rw [show (Einsum.Params.arr (ly.params.arrays.head?.getD ⟨[ly.out, count s], draw 0⟩)).arrays.head? = some (ly.params.arrays.head?.getD ⟨[ly.out, count s], draw 0⟩) from rfl]
  simp only [h5]
  cases hbias : ly.hasBias with
  | false => simp
  | true =>
    rcases hb with hb | ⟨b, hb, hsh⟩
    · simp [hb, biasInit]
    · have : biasCheck (.arr b) (.leaf [ly.out]) = .ok () := by
        simp [biasCheck, hsh, treeFlattenShape, Tree.norm, shapeLeaves]
      simp [hb, this]

/-- The forward pass of compiled layers. -/
theorem lin_call [CommSemiring K] (ly : Layers K) {data : Tree (NArr K)} {x : NArr K} {B : Nat} {s : List Nat} (hk : KeysOk data) (hx : jaxLeaves data = [x])
    (hs : x.shape = B :: s) (hB : 0 < B) {W : NArr K} (hW : ly.params = .arr W) (hWs : W.shape = [ly.out, count s]) {s₁ : Tree (List Nat)}
    (hpl : ly.plan = some ("ab,b".toList, s₁, flattenTarget (map some (map (fun x : NArr K => x.shape.tail) data)))) (h₁ : jaxLeaves s₁ = [[count s]])
    (h₂ : sameStruct s₁.norm data.norm = true) (hk₁ : KeysOk s₁) (bias : Option (NArr K)) (hb : ly.hasBias = bias.isSome) (hbs : ∀ b, bias = some b → b.shape = [ly.out])
    (hlb : ly.b = bias.map BiasParam.arr) :
    ∃ y : NArr K, linCall ly data = .ok (.leaf (ly.act.getD id y)) ∧ y.shape = [B, ly.out] ∧ ∀ k r, k < B → r < ly.out →
      y.val [k, r] = ∑ j ∈ Finset.range (count s), W.val [r, j] * (sample x k).getD j 0 + bias.elim 0 fun b => b.val [r] := by
  obtain ⟨d, z, h3, h4, h5, h6, h7, h8⟩ := lin_flat_call hk hx hs hB
  obtain ⟨h9, -⟩ := lin_compile (fun _ _ => 0) ly.out (count s) s₁ h₁ (some W) (fun _ h => by cases h; exact hWs)
  have hstr : sameStruct d.norm s₁.norm = true := by
    rw [sameStruct_iff] at h7 h₂ ⊢
    rw [h7, h₂]
  obtain ⟨full, ho, -, -, -, -, -, hcall⟩ := C63_matmul (cfg := ⟨.int ly.out, Option.none, true, '.'⟩) hk₁ (fun po h => by cases h) (by rw [h₁]; simp) h9 (.inl (by rw [h₁]; simp))
  obtain ⟨u, hu, hus, huv⟩ := hcall B d h8 hstr (by rw [h4, h₁]; simp [h5])
  have hfull : full = [[ly.out, count s], [count s]] := by
    simp [operands, h₁, Einsum.Params.arrays, hWs] at ho
    exact ho.symm
  subst hfull
  have hval : ∀ k r, k < B → r < ly.out → u.val [k, r] = ∑ j ∈ Finset.range (count s), W.val [r, j] * (sample x k).getD j 0 := by
    intro k r hkB hr
    obtain ⟨O, hO, hv⟩ := huv k
    have hO' : O = [W, sampleOf k z] := by
      simp [operands, Einsum.Params.arrays, jaxLeaves_map, h4] at hO
      exact hO.symm
    subst hO'
    rw [hv [r] rfl]
    simp only [prodEntry, hWs]
    refine Finset.sum_congr rfl fun j hj => ?_
    rw [← h6 k hkB]
    have hj' : j < count s := Finset.mem_range.1 hj
    have hi : NArr.indices [count s] = (List.range (count s)).map ([·]) := by
      rw [List.map_eq_flatMap]
      rfl
    simp [sample, h5, sampleOf, hi, hj']
  have hz : ∃ y : NArr K, biasStage ly.hasBias ly.b (.leaf u) = .ok (.leaf y) ∧ y.shape = [B, ly.out] ∧ ∀ k r, k < B → r < ly.out →
      (y.val [k, r] : K) = u.val [k, r] + bias.elim 0 fun b => b.val [r] := by
    cases bias with
    | none =>
      rw [hb]
      exact ⟨u, rfl, hus, fun k r _ _ => (add_zero _).symm⟩
    | some b =>
      rw [hb, hlb]
      have hbsh := hbs b rfl
      obtain ⟨out, hc, -, hv⟩ := C64_bias_array b (.leaf u) (fun p x hx => by cases hx; rw [hus]; simp) (by
        simp [biasCheck, hbsh, treeFlattenShape, Tree.norm, shapeLeaves, hus, prodShape, map])
      obtain ⟨y, hy, hys, hyv⟩ := hv [] u (.leaf u)
      have hout : out = .leaf y := by cases hy; rfl
      subst hout
      refine ⟨y, hc, by rw [hys, hus]; rfl, fun k r hkB hr => ?_⟩
      rw [hyv k [r] (by
        rw [hus]
        refine ⟨rfl, fun a d j h1 h2 => ?_⟩
        match a, h1, h2 with
        | 0, h1, h2 => cases h1; cases h2; exact hkB
        | 1, h1, h2 => cases h1; cases h2; exact hr)]
      show _ = u.val [k, r] + b.val [r]
      congr 2
      unfold featureOf
      rw [hbsh]
      split
      · rename_i h
        have : r = 0 := by
          simp only [List.cons.injEq, and_true] at h
          omega
        rw [this]
      · rfl
  obtain ⟨y, hy, hys, hyv⟩ := hz
  refine ⟨y, ?_, hys, fun k r hkB hr => by rw [hyv k r hkB hr, hval k r hkB hr]⟩
  unfold linCall
  rw [hpl]
  simp only [h3, hW]
  rw [show Matmul.call (Einsum.Params.arr W, "ab,b".toList) s₁ d = .ok u from hu]
  simp only [hy]
  cases ly.act with
  | none => rfl
  | some f => rfl

/-- Layers with other values of the parameters (after training, or after setting them). -/
def withParams (ly : Layers K) (W : NArr K) (b : Option (NArr K)) : Layers K := { ly with params := .arr W, b := b.map .arr }

/-- The entry of `act(W x + b)` before the activation. -/
def linear [CommSemiring K] (W : NArr K) (b : Option (NArr K)) (v : List K) (r : Nat) : K :=
  ∑ j ∈ Finset.range v.length, W.val [r, j] * v.getD j 0 + b.elim 0 fun b => b.val [r]

theorem sample_length {V : Type} (x : NArr V) {B : Nat} {s : List Nat} (hs : x.shape = B :: s) (k : Nat) : (sample x k).length = count s := by
  have : ∀ s : List Nat, (NArr.indices s).length = count s := by
    intro s
    induction s with
    | nil => rfl
    | cons n s ih => simp [NArr.indices, count, ih, List.length_flatMap]
  rw [sample, List.length_map, hs, List.tail_cons, this]

/-- **C77 (a linear layer).** A `LinearNN` with `out_features = n`, compiled for a new input shape with a single leaf, has one matrix with a row per output feature and a column per
entry of a sample, and a bias vector exactly if it was asked for. Whatever values they have, the output for a batch is `act(W x + b)` for every sample on its own, where `x` is
the sample in row-major order, and has the declared shape. Compiling again for the same shape keeps the values. -/
theorem C77_linear [CommSemiring K] (draw : Nat → List Nat → K) (drawB : List Nat → List Nat → K) (m : Mdl (LinHyper K) (Layers K) (Tree (List Nat))) {n : Nat}
    {s : List Nat} {shapes : Tree (List Nat)} (hout : m.hyper.out = some n) (hk : KeysOk shapes) (hs : jaxLeaves shapes = [s])
    (h1 : (treeFlattenShape shapes).length = 1) (hnew : m.inShape ≠ some shapes) :
    ∃ m', Prebuilt.compile (linOps draw drawB) m shapes = (m', .ok ()) ∧ m'.hyper = m.hyper ∧ m'.inShape = some shapes ∧ m'.outShape = some (.leaf [n]) ∧
      linShape m.hyper shapes = .ok (.leaf [n]) ∧
      (∃ W b, m'.modules = withParams m'.modules W b ∧ W.shape = [n, count s] ∧ b.isSome = m.hyper.bias ∧ ∀ b', b = some b' → b'.shape = [n]) ∧
      ∀ (W : NArr K) (b : Option (NArr K)), W.shape = [n, count s] → b.isSome = m.hyper.bias → (∀ b', b = some b' → b'.shape = [n]) →
        Prebuilt.compile (linOps draw drawB) { m' with modules := withParams m'.modules W b } shapes = ({ m' with modules := withParams m'.modules W b }, .ok ()) ∧
        ∀ (data : Tree (NArr K)) (B : Nat) (x : NArr K), KeysOk data → map (fun x => x.shape.tail) data = shapes → jaxLeaves data = [x] → x.shape = B :: s → 0 < B →
          ∃ y : NArr K, linCall (withParams m'.modules W b) data = .ok (.leaf (m.hyper.act.getD id y)) ∧ y.shape = [B, n] ∧
            ∀ k r, k < B → r < n → y.val [k, r] = linear W b (sample x k) r := by
  have hcheck : ∀ h : LinHyper K, h.out = some n → linCheck h shapes = .ok () := fun h hh => by
    unfold linCheck
    rw [hh]
    simp [h1]
  obtain ⟨s₁, hl, hst, hk₁, hsub⟩ := lin_sub draw drawB hk hs
  obtain ⟨hyp, mods, ins, outs⟩ := m
  obtain ⟨out, bias, act⟩ := hyp
  simp only at hout hnew ⊢
  subst hout
  let b₀ : Option (NArr K) := if bias then some ⟨[n], drawB [n]⟩ else Option.none
  let ly₀ : Layers K := ⟨n, bias, act, .arr ⟨[n, count s], draw 0⟩, some ("ab,b".toList, s₁, flattenTarget (map some shapes)), b₀.map .arr⟩
  refine ⟨⟨⟨some n, bias, act⟩, ly₀, some shapes, some (.leaf [n])⟩, ?_, rfl, rfl, rfl, rfl, ⟨⟨[n, count s], draw 0⟩, b₀, rfl, rfl, ?_, ?_⟩, ?_⟩
  · unfold Prebuilt.compile
    simp only [linOps, hcheck ⟨some n, bias, act⟩ rfl, if_neg hnew]
    rw [hsub _ (.inl rfl) (.inl rfl)]
    cases bias <;> rfl
  · cases bias <;> rfl
  · intro b' hb'
    cases bias with
    | false => exact absurd hb' (by simp [b₀])
    | true =>
      have : b' = ⟨[n], drawB [n]⟩ := by simpa [b₀, eq_comm] using hb'
      rw [this]
  · intro W b hW hb hbs
    constructor
    · unfold Prebuilt.compile
      simp only [linOps, hcheck ⟨some n, bias, act⟩ rfl, if_true]
      rw [hsub (withParams ly₀ W b) (.inr ⟨W, rfl, hW⟩) (by
        cases b with
        | none => exact .inl rfl
        | some b => exact .inr ⟨b, rfl, hbs b rfl⟩)]
      cases b with
      | none =>
        cases bias with
        | false => rfl
        | true => cases hb
      | some b =>
        cases bias with
        | false => cases hb
        | true => rfl
    · intro data B x hkd hsh hx hxs hB
      subst hsh
      obtain ⟨y, hy, hys, hyv⟩ := lin_call (withParams ly₀ W b) hkd hx hxs hB rfl hW rfl hl (by
        rw [sameStruct_iff] at hst ⊢
        rw [hst, Tree.norm_map, map_map]) hk₁ b hb.symm hbs rfl
      refine ⟨y, hy, hys, fun k r hkB hr => ?_⟩
      rw [hyv k r hkB hr]
      unfold linear
      rw [sample_length x hxs]

/-- A matrix and a sample. -/
def linDemo : LinHyper ℤ := ⟨some 2, true, some fun x => ⟨x.shape, fun i => max (x.val i) 0⟩⟩

/-- Two samples of shape (2, 2) under a key. -/
def linData : Tree (NArr ℤ) := .dict [("x".toList, .leaf ⟨[2, 2, 2], fun i => i.getD 0 0 * 4 + i.getD 1 0 * 2 + i.getD 2 0⟩)]

/-- **C77** A `LinearNN` without `out_features`, or for an input that is not a single array, is not compiled: `ValueError`, and the model stays as it was. -/
theorem C77_linear_refuses (draw : Nat → List Nat → K) (drawB : List Nat → List Nat → K) (m : Mdl (LinHyper K) (Layers K) (Tree (List Nat))) (shapes : Tree (List Nat))
    (h : m.hyper.out = Option.none ∨ (treeFlattenShape shapes).length ≠ 1) : Prebuilt.compile (linOps draw drawB) m shapes = (m, .error .valueError) := by
  have hc : linCheck m.hyper shapes = .error .valueError := by
    unfold linCheck
    rcases h with h | h
    · rw [h]
    · cases m.hyper.out with
      | none => rfl
      | some n => exact if_pos h
  unfold Prebuilt.compile linOps
  simp only [hc]

example : (treeFlattenShape (.dict [("x".toList, .leaf [3]), ("y".toList, .leaf [2, 2])])).length ≠ 1 := by decide

/-- The hypotheses of `C77_linear` hold for a dictionary with one array of matrices. -/
example : ∃ m', Prebuilt.compile (linOps (fun _ i => (i.getD 0 0 : ℤ) - i.getD 1 0) (fun _ i => 10 * i.getD 0 0)) ⟨linDemo, linBuild linDemo, Option.none, Option.none⟩
      (map (fun x => x.shape.tail) linData) = (m', .ok ()) ∧
    ∃ y : NArr ℤ, linCall (withParams m'.modules ⟨[2, 4], fun i => (i.getD 0 0 : ℤ) - i.getD 1 0⟩ (some ⟨[2], fun i => 10 * i.getD 0 0⟩)) linData = .ok (.leaf (linDemo.act.getD id y)) ∧
      y.shape = [2, 2] ∧ y.val [1, 1] = -6 := by
  obtain ⟨m', h1, -, -, -, -, -, h2⟩ := C77_linear (fun _ i => (i.getD 0 0 : ℤ) - i.getD 1 0) (fun _ i => 10 * i.getD 0 0)
    ⟨linDemo, linBuild linDemo, Option.none, Option.none⟩ (n := 2) (s := [2, 2]) (shapes := map (fun x => x.shape.tail) linData) rfl ⟨by decide +kernel, trivial, trivial⟩ rfl rfl (by simp)
  refine ⟨m', h1, ?_⟩
  obtain ⟨-, h3⟩ := h2 ⟨[2, 4], fun i => (i.getD 0 0 : ℤ) - i.getD 1 0⟩ (some ⟨[2], fun i => 10 * i.getD 0 0⟩) rfl rfl (fun b' h => by cases h; rfl)
  obtain ⟨y, h4, h5, h6⟩ := h3 linData 2 ⟨[2, 2, 2], fun i => i.getD 0 0 * 4 + i.getD 1 0 * 2 + i.getD 2 0⟩ ⟨by decide +kernel, trivial, trivial⟩ rfl rfl rfl (by omega)
  refine ⟨y, h4, h5, ?_⟩
  rw [h6 1 1 (by omega) (by omega)]
  decide +kernel

/-- **C77 refuted for changed hyperparameters.** Whatever new hyperparameters are set (with the dictionary of all of them) on a compiled `LinearNN`, compiling it again for the same
input shape succeeds and keeps the old layers: the declared shape is the new number of features, the compiled one and the result still the old. -/
theorem C77_stale_refuted [CommSemiring K] (draw : Nat → List Nat → K) (drawB : List Nat → List Nat → K) (m : Mdl (LinHyper K) (Layers K) (Tree (List Nat))) {n n' : Nat}
    {s : List Nat} {shapes : Tree (List Nat)} (hout : m.hyper.out = some n) (hk : KeysOk shapes) (hs : jaxLeaves shapes = [s])
    (h1 : (treeFlattenShape shapes).length = 1) (hnew : m.inShape ≠ some shapes) (h' : LinHyper K) (hn' : h'.out = some n') :
    ∃ m₁ m₂ m₃, Prebuilt.compile (linOps draw drawB) m shapes = (m₁, .ok ()) ∧ setHyper m₁ { getHyper m₁ with hyper := h' } = (m₂, .ok ()) ∧
      Prebuilt.compile (linOps draw drawB) m₂ shapes = (m₃, .ok ()) ∧ m₃.hyper = h' ∧ linShape h' shapes = .ok (.leaf [n']) ∧ m₃.outShape = some (.leaf [n]) ∧
      m₃.modules = m₁.modules := by
  obtain ⟨m₁, hc, hh, hi, ho, -, ⟨W, b, hm, hW, hb, hbs⟩, hrec⟩ := C77_linear draw drawB m hout hk hs h1 hnew
  obtain ⟨hr, -⟩ := hrec W b hW hb hbs
  rw [← hm] at hr
  obtain ⟨hyp₁, mods₁, ins₁, outs₁⟩ := m₁
  simp only at hh hi ho hm hr
  subst hi ho
  refine ⟨_, ⟨h', mods₁, some shapes, some (.leaf [n])⟩, ⟨h', mods₁, some shapes, some (.leaf [n])⟩, hc, rfl, ?_, rfl, by simp [linShape, hn'], rfl, rfl⟩
  have hcheck : ∀ (h : LinHyper K) n, h.out = some n → linCheck h shapes = .ok () := fun h n hh => by
    unfold linCheck
    rw [hh]
    simp [h1]
  unfold Prebuilt.compile at hr ⊢
  simp only [linOps, hcheck hyp₁ n (by rw [hh, hout]), hcheck h' n' hn', if_true] at hr ⊢
  generalize linSub draw drawB mods₁ shapes = q at hr ⊢
  obtain ⟨ms, _ | o⟩ := q
  · simp at hr
  · simp only [Prod.mk.injEq, and_true, Mdl.mk.injEq, true_and] at hr ⊢
    exact hr

example : linCheck (⟨some 5, true, Option.none⟩ : LinHyper ℤ) (.leaf [3]) = .ok () := rfl

/-- **C77 refuted for partial dictionaries.** Setting hyperparameters without the two shapes, as the signature invites, raises `KeyError`, although they have then already been
changed. -/
theorem C77_keyerror_refuted {H L S : Type} (m : Mdl H L S) (h : H) : setHyper m ⟨h, Option.none, Option.none, Option.none⟩ = ({ m with hyper := h }, .error .keyError) := rfl

/-- **C77 (round trip of hyperparameters).** Setting what was read from another model of the same kind makes the two equal. -/
theorem C77_hyper {H L S : Type} (m m' : Mdl H L S) : setHyper m (getHyper m') = (m', .ok ()) := rfl

/-- **C77 (the activation after loading).** A compiled `LinearNN` finds its activation among its loaded modules, in each of the four cases. -/
theorem C77_activation {A : Type} (bias : Bool) (act : Option A) : findAct bias (kinds bias act) = act.map Kind.act := by
  cases bias <;> cases act <;> rfl

example : kinds true (some 7) = [.flatten, .matmul, .bias, .act 7] := rfl

/-- **C77 refuted for an uncompiled layer.** If it is saved before it is compiled, its activation is lost. -/
theorem C77_activation_refuted {A : Type} (bias : Bool) : findAct bias ([] : List (Kind A)) = Option.none := by
  cases bias <;> rfl

/-! ### AffineEigenvaluePMM -/

variable {W : Type}

/-- **C77 (compiling an eigenvalue model).** For a matrix size `n`, at most `n` eigenvalues and a single vector of `f` features, compiling for a new input shape succeeds exactly if
no matrices are given or as many as features (and one more with a bias); given matrices are used as they are, otherwise they are created; the compiled shape is the declared one;
compiling again for the same shape keeps whatever matrices there are. -/
theorem C77_eigenvalue (fresh : Nat → Nat → List W) (m : Mdl (EigHyper W) (EigLayers W) (Tree (List Nat))) {n f : Nat}
    {shapes : Tree (List Nat)} (hsize : m.hyper.size = some n) (hk : m.hyper.numEig ≤ n) (hs : treeFlattenShape shapes = [some [f]]) (hnew : m.inShape ≠ some shapes) :
    ((∃ m', Prebuilt.compile (eigOps fresh) m shapes = (m', .ok ())) ↔ ∀ Ms, m.hyper.Ms = some Ms → Ms.length = f + m.hyper.bias.toNat) ∧
    ∀ m', Prebuilt.compile (eigOps fresh) m shapes = (m', .ok ()) →
      m'.hyper = m.hyper ∧ m'.inShape = some shapes ∧ m'.outShape = some (map (fun _ => [m.hyper.numEig]) shapes.norm) ∧
      m'.modules.Ms = some (m.hyper.Ms.getD (fresh (f + m.hyper.bias.toNat) n)) ∧
      ∀ Ms : List W, Ms.length = f + m.hyper.bias.toNat →
        Prebuilt.compile (eigOps fresh) { m' with modules := { m'.modules with Ms := some Ms } } shapes = ({ m' with modules := { m'.modules with Ms := some Ms } }, .ok ()) := by
  obtain ⟨⟨size, k, bias, Ms⟩, mods, ins, outs⟩ := m
  simp only at hsize hk hnew ⊢
  subst hsize
  have hcheck : eigCheck (⟨some n, k, bias, Ms⟩ : EigHyper W) shapes = .ok () := by
    simp [eigCheck, hs]
  have hp : (if bias = true then f + 1 else f) = f + bias.toNat := by
    cases bias <;> rfl
  unfold Prebuilt.compile
  simp only [eigOps, hcheck, if_neg hnew, eigBuild, Option.getD_some, eigSub, hs, hp]
  cases Ms with
  | none =>
    simp only [eigTail, if_pos hk]
    refine ⟨⟨fun _ Ms h => (by cases h), fun _ => ⟨_, rfl⟩⟩, fun m' h => ?_⟩
    cases h
    refine ⟨rfl, rfl, rfl, rfl, fun Ms hMs => ?_⟩
    simp [hs, hcheck, hMs, hp, hk]
  | some Ms₀ =>
    by_cases hl : Ms₀.length = f + bias.toNat
    · simp only [eigTail, if_pos hk, hl, ne_eq, not_true_eq_false, if_false]
      refine ⟨⟨fun _ Ms h => (by cases h; exact hl), fun _ => ⟨_, rfl⟩⟩, fun m' h => ?_⟩
      cases h
      refine ⟨rfl, rfl, rfl, rfl, fun Ms hMs => ?_⟩
      simp [hs, hcheck, hMs, hp, hk]
    · simp only [ne_eq, hl, not_false_eq_true, if_true]
      refine ⟨⟨fun ⟨m', h⟩ => (by simp at h), fun h => absurd (h _ rfl) hl⟩, fun m' h => by simp at h⟩

/-- **C77 refuted for correcting a mistake.** If compiling failed because more eigenvalues were asked for than the matrix has, setting a correct number and compiling again for the
same input shape fails again, although a new model with these hyperparameters compiles. -/
theorem C77_failed_refuted (fresh : Nat → Nat → List W) (hfresh : ∀ p n, (fresh p n).length = p) {n f k k' : Nat} (bias : Bool) (hk : n < k) (hk' : k' ≤ n) (l : EigLayers W) :
    ∃ m₁ m₂, Prebuilt.compile (eigOps fresh) ⟨⟨some n, k, bias, Option.none⟩, l, Option.none, Option.none⟩ (.leaf [f]) = (m₁, .error .runtimeError) ∧
      setHyper m₁ { getHyper m₁ with hyper := ⟨some n, k', bias, Option.none⟩ } = (m₂, .ok ()) ∧
      (Prebuilt.compile (eigOps fresh) m₂ (.leaf [f])).2 = .error .runtimeError ∧
      (Prebuilt.compile (eigOps fresh) ⟨⟨some n, k', bias, Option.none⟩, l, Option.none, Option.none⟩ (.leaf [f])).2 = .ok () := by
  have hk₀ : ¬ k ≤ n := by omega
  have hfl : treeFlattenShape (.leaf [f]) = [some [f]] := rfl
  refine ⟨⟨⟨some n, k, bias, Option.none⟩, ⟨n, k, bias, some (fresh (if bias then f + 1 else f) n)⟩, some (.leaf [f]), Option.none⟩, _, ?_, rfl, ?_, ?_⟩
  · simp [Prebuilt.compile, eigOps, eigCheck, eigBuild, eigSub, eigTail, hfl, hk₀]
  · simp [Prebuilt.compile, eigOps, eigCheck, eigSub, eigTail, hfl, hk₀, hfresh, getHyper]
  · simp [Prebuilt.compile, eigOps, eigCheck, eigBuild, eigSub, eigTail, hfl, hk']

example : (Prebuilt.compile (eigOps fun p n => List.replicate p n) ⟨⟨some 4, 2, true, Option.none⟩, ⟨0, 0, false, Option.none⟩, Option.none, Option.none⟩ (.leaf [3])).1.modules.Ms
    = some [4, 4, 4, 4] := by decide +kernel

end Props
end Verif
