import Verif.Model.Distance
import Verif.Spec.Distance
import Verif.Lemmas.Sensitivity
import Verif.Props.OneHot
import Verif.Props.Normalization
import Verif.Props.Sensitivity

/-! # Lemmas about the encoded and scaled data -/

namespace Verif
namespace Dist
open Tree NArr
open ForwardSpec (At KeysOk)
open NdSpec

/-- What calibration stores for a feature. -/
noncomputable def fitted (f : Feat) : Fitted :=
  ⟨range f.train f.cont, if f.cont || !f.dist then Option.none else some (OneHot.fitLeaf f.train), f.dist⟩

/-- The range of a component of the training data. -/
noncomputable def rng (f : Feat) (j : List Nat) : ℝ := (Norm.ptp (Conformal.column f.train j)).getD 0

/-- The coordinates of sample `k` of `x`, encoded and scaled like the feature. -/
noncomputable def coords (f : Feat) (x : NArr ℝ) (k : Nat) : List ℝ :=
  if f.dist then
    if f.cont then (indices f.train.shape.tail).map fun j => x.val (k :: j) / rng f j
    else (OneHot.uniq (OneHot.rows f.train)).map fun a => (if OneHot.row x k = a then 1 else 0) / 2
  else []

/-- The shapes fit and the selected components are not constant; categories are numbers. -/
structure Regular (m : Nat) (s : List Nat) (f : Feat) : Prop where
  train : f.train.shape = m :: s
  range : f.dist = true → f.cont = true → ∀ j, InB s j → rng f j ≠ 0
  cat : f.dist = true → f.cont = false → s = [1]

theorem oh_transform {x x0 : NArr ℝ} {n n0 : Nat} (h0 : x0.shape = [n0, 1]) (h : x.shape = [n, 1]) :
    OneHot.transform (some (.leaf (OneHot.fitLeaf x0))) (.leaf x) = .ok (.leaf ⟨[n, (OneHot.fitLeaf x0).table.length], fun i => match i with
        | [r, k] => if OneHot.eqRow (OneHot.row x r) ((OneHot.fitLeaf x0).table.getD k []) then 1 else 0
        | _ => 0⟩) := by
  have hw : OneHot.width x = (OneHot.fitLeaf x0).width := by simp [OneHot.width, OneHot.Fitted.width, OneHot.fitLeaf, h0, h]
  have hi : OneHot.inOk (.leaf x) = true := by simp [OneHot.inOk, jaxLeaves, Tree.norm, flat, h]
  unfold OneHot.transform
  rw [if_pos hi]
  have hj : jaxMap OneHot.encode (.leaf x) [.leaf (OneHot.fitLeaf x0)] = .ok (.leaf ⟨[n, (OneHot.fitLeaf x0).table.length], fun i => match i with
        | [r, k] => if OneHot.eqRow (OneHot.row x r) ((OneHot.fitLeaf x0).table.getD k []) then 1 else 0
        | _ => 0⟩) := by
    simp only [jaxMap, zipAll, Tree.norm, map, zipPre, mapM, OneHot.encode, List.nil_append, hw, true_or, if_true, h]
    rfl
  simp only [hj]
  rw [if_pos]
  simp [OneHot.outOk, jaxLeaves, Tree.norm, flat]

theorem indices_one (c : Nat) : indices [c] = (List.range c).map fun i => [i] := by
  simp [indices, List.flatMap_singleton']
  induction List.range c with
  | nil => rfl
  | cons a l ih => simp [ih]

theorem scaleLeaf_run {m : Nat} {s : List Nat} {f : Feat} (hf : Regular m s f) {x : NArr ℝ} {n : Nat} (hx : x.shape = n :: s) :
    ∃ z, scaleLeaf x [.leaf (fitted f)] = .ok (.leaf z) ∧ z.shape.head? = some n ∧ ∀ k < n, flatRow k z = (coords f x k).map some := by
  have hne : ∀ (b : Nat) (s : List Nat), b :: s ≠ s := fun b s e => by have := congrArg List.length e; simp at this
  have hrs : (range f.train f.cont).shape = s := by unfold range; split <;> simp [hf.train]
  by_cases hd : f.dist = true
  · by_cases hc : f.cont = true
    · obtain ⟨z, h1, h2, h3⟩ := Props.bop_rows scale x (range f.train f.cont) (Or.inl hx) (Or.inr hrs) (Or.inl hx)
      refine ⟨z, ?_, by rw [h2]; rfl, fun k hk => ?_⟩
      · simp only [scaleLeaf, fitted, hc, hd, Bool.true_or, if_true, encodeLeaf, Bind.bind, Except.bind]
        rw [hc] at h1
        rw [h1]
      · unfold flatRow coords
        rw [if_pos hd, if_pos hc, h2, hf.train, List.map_map]
        refine List.map_congr_left fun j hj => ?_
        have hj : InB s j := mem_indices.1 hj
        rw [h3 k j (inB_cons.2 ⟨hk, hj⟩)]
        unfold Props.entryAt
        rw [if_neg (by rw [hx]; exact hne n s), if_pos hrs, scale, if_neg]
        · simp [range, hc, rng]
        · have := hf.range hd hc j hj
          simpa [range, hc, rng] using this
    · have hc : f.cont = false := by simpa using hc
      have hs : s = [1] := hf.cat hd hc
      subst hs
      have ht : (OneHot.fitLeaf f.train).table = OneHot.uniq (OneHot.rows f.train) := OneHot.table_chain (by
        rw [hf.train]
        exact Props.C47_scalar _ _ hf.train)
      have hble : BLe [1] [n, (OneHot.fitLeaf f.train).table.length] := by simp [BLe, BLeR]
      have hb := bshape_of_le hble
      refine ⟨⟨[n, (OneHot.fitLeaf f.train).table.length], fun i => scale ((fun i => match i with
        | [r, k] => if OneHot.eqRow (OneHot.row x r) ((OneHot.fitLeaf f.train).table.getD k []) then 1 else 0
        | _ => 0 : List Nat → ℝ) (bidx [n, (OneHot.fitLeaf f.train).table.length] i)) 2⟩, ?_, rfl, fun k hk => ?_⟩
      · simp only [scaleLeaf, fitted, hc, hd, Bool.false_or, Bool.not_true, Bool.false_eq_true, if_false, if_true, encodeLeaf, oh_transform hf.train hx,
          Bind.bind, Except.bind, bop]
        rw [hc] at hrs
        rw [hrs, hb]
        simp [range]
      · unfold flatRow coords
        rw [if_pos hd, hc, if_neg (by simp)]
        simp only [List.tail_cons]
        rw [indices_one, List.map_map, List.map_map, ← ht]
        have key : ∀ i ∈ List.range (OneHot.fitLeaf f.train).table.length,
            scale ((fun i => match i with
              | [r, k] => if OneHot.eqRow (OneHot.row x r) ((OneHot.fitLeaf f.train).table.getD k []) then 1 else 0
              | _ => 0 : List Nat → ℝ) (bidx [n, (OneHot.fitLeaf f.train).table.length] [k, i])) 2 =
            some ((if OneHot.row x k = (OneHot.fitLeaf f.train).table.getD i [] then 1 else 0) / 2) := by
          intro i hi
          rw [bidx_self (inB_cons.2 ⟨hk, inB_cons.2 ⟨List.mem_range.1 hi, rfl, by simp⟩⟩)]
          unfold scale
          rw [if_neg (by norm_num)]
          simp only
          congr 2
          have hmem : (OneHot.fitLeaf f.train).table.getD i [] ∈ OneHot.rows f.train := by
            rw [← OneHot.mem_uniq, ← ht, List.getD_eq_getElem?_getD, List.getElem?_eq_getElem (List.mem_range.1 hi), Option.getD_some]
            exact List.getElem_mem _
          obtain ⟨r, -, hr⟩ := OneHot.mem_rows.1 hmem
          have hlen : (OneHot.row x k).length = ((OneHot.fitLeaf f.train).table.getD i []).length := by
            rw [← hr, OneHot.row_length, OneHot.row_length]
            simp [OneHot.width, hx, hf.train]
          by_cases e : OneHot.row x k = (OneHot.fitLeaf f.train).table.getD i []
          · rw [if_pos e, if_pos ((OneHot.eqRow_same hlen).2 e)]
          · rw [if_neg e, if_neg fun h => e ((OneHot.eqRow_same hlen).1 h)]
        have e1 := Props.range_getD (fun a => some ((if OneHot.row x k = a then (1 : ℝ) else 0) / 2)) [] (OneHot.fitLeaf f.train).table
        rw [show (List.map (some ∘ fun a => (if OneHot.row x k = a then (1 : ℝ) else 0) / 2) (OneHot.fitLeaf f.train).table) =
          (OneHot.fitLeaf f.train).table.map (fun a => some ((if OneHot.row x k = a then (1 : ℝ) else 0) / 2)) from rfl, ← e1]
        exact List.map_congr_left fun i hi => key i hi
  · have hd : f.dist = false := by simpa using hd
    obtain ⟨z, h1, h2, h3⟩ := Props.bop_rows scale x (range f.train f.cont) (Or.inl hx) (Or.inr hrs) (Or.inl hx)
    refine ⟨⟨[n, 0], fun _ => Option.none⟩, ?_, rfl, fun k hk => ?_⟩
    · simp only [scaleLeaf, fitted, hd, Bool.not_false, Bool.or_true, if_true, encodeLeaf, Bind.bind, Except.bind]
      rw [h1]
      simp [h2]
    · simp [flatRow, coords, hd, indices]

theorem fit_run {D : Tree Feat} (hD : KeysOk D) {m : Nat} (hr : ∀ f ∈ flat D, ∃ s, Regular m s f) :
    fit (map Feat.train D) (map Feat.cont D) (map Feat.dist D) = .ok (map fitted D.norm) := by
  unfold fit
  rw [← jaxMap_normal ((keysOk_map _ _).2 hD), ← Tree.jaxMap_norm (Props.two_norm _ .typeError (fun _ _ _ => rfl) fun a vs h => by
    unfold fitLeaf
    split
    · exact absurd rfl (h _ _)
    · rfl) _ _ (by simp [keysOk_map, hD])]
  simp only [List.map_cons, List.map_nil]
  rw [Tree.norm_map, Tree.norm_map, Tree.norm_map, ← bind_leaf Feat.cont, ← bind_leaf Feat.dist, jaxMap_bind2 _ _ _ (keysOk_norm' hD) (norm_norm hD)]
  refine mapM_leaf _ _ _ fun f hf => ?_
  obtain ⟨s, hs⟩ := hr f (mem_flat_norm.1 hf)
  unfold fitLeaf fitted encoder
  by_cases h : f.cont || !f.dist
  · simp only [h, if_true]
    rfl
  · have h' : f.cont = false ∧ f.dist = true := by simpa using h
    have : 2 ≤ f.train.shape.length := by rw [hs.train, hs.cat h'.2 h'.1]; simp
    simp only [h, if_false, Props.oh_leaf this]
    rfl

theorem mapM_some {α : Type} (l : List α) : (l.map some).mapM id = some l := by
  induction l with
  | nil => rfl
  | cons a l ih => rw [List.map_cons, List.mapM_cons, ih]; rfl

theorem finiteRow_some (l : List ℝ) : finiteRow (l.map some) = .ok l := by
  unfold finiteRow
  rw [mapM_some]

theorem prepare_run {D : Tree Feat} (hD : KeysOk D) (hne : jaxLeaves D ≠ []) {m n : Nat} (sel : Feat → NArr ℝ)
    (hr : ∀ f ∈ flat D, ∃ s, Regular m s f ∧ (sel f).shape = n :: s) :
    prepare (map fitted D.norm) (map sel D) = .ok ((List.range n).map fun k => (jaxLeaves D).flatMap fun f => coords f (sel f) k) := by
  classical
  have key : ∀ f, ∃ z, f ∈ flat D → scaleLeaf (sel f) [.leaf (fitted f)] = .ok (.leaf z) ∧ z.shape.head? = some n ∧
      ∀ k < n, flatRow k z = (coords f (sel f) k).map some := by
    intro f
    by_cases hf : f ∈ flat D
    · obtain ⟨s, h1, h2⟩ := hr f hf
      obtain ⟨z, h⟩ := scaleLeaf_run h1 h2
      exact ⟨z, fun _ => h⟩
    · exact ⟨⟨[], fun _ => Option.none⟩, fun h => absurd h hf⟩
  choose Z hZ using key
  have h1 : jaxMap scaleLeaf (map sel D) [map fitted D.norm] = .ok (map Z D.norm) := by
    rw [← jaxMap_normal ((keysOk_map _ _).2 hD), Tree.norm_map, ← bind_leaf fitted, jaxMap_bind _ _ (keysOk_norm' hD) (norm_norm hD)]
    exact mapM_leaf _ _ _ fun f hf => (hZ f (mem_flat_norm.1 hf)).1
  unfold prepare
  rw [h1]
  simp only [Bind.bind, Except.bind]
  have h2 : jaxLeaves (map Z D.norm) = (jaxLeaves D).map Z := Props.leaves_norm _ hD
  rw [h2]
  have hm : ∀ z ∈ (jaxLeaves D).map Z, z.shape.head? = some n := by
    intro z hz
    obtain ⟨f, hf, rfl⟩ := List.mem_map.1 hz
    exact (hZ f (mem_flat_norm.1 hf)).2.1
  have hrow : ∀ k < n, ((jaxLeaves D).map Z).flatMap (flatRow k) = ((jaxLeaves D).flatMap fun f => coords f (sel f) k).map some := by
    intro k hk
    have : ∀ f ∈ jaxLeaves D, flatRow k (Z f) = (coords f (sel f) k).map some := fun f hf => (hZ f (mem_flat_norm.1 hf)).2.2 k hk
    generalize jaxLeaves D = L at this
    induction L with
    | nil => rfl
    | cons f L ih =>
      simp only [List.map_cons, List.flatMap_cons, List.map_append]
      rw [this f (by simp), ih fun g hg => this g (by simp [hg])]
  cases hl : (jaxLeaves D).map Z with
  | nil => exact absurd (List.map_eq_nil_iff.1 hl) hne
  | cons z zs =>
    rw [hl] at hm hrow
    have hz := hm z (by simp)
    simp only
    rw [if_pos]
    · have hn : z.shape.headD 0 = n := by
        cases hs : z.shape with
        | nil => rw [hs] at hz; cases hz
        | cons a t => rw [hs] at hz; simpa using hz
      rw [hn]
      have : ∀ l : List Nat, (∀ k ∈ l, k < n) → l.mapM (fun r => finiteRow ((z :: zs).flatMap (flatRow r))) = .ok (l.map fun k => (jaxLeaves D).flatMap fun f => coords f (sel f) k) := by
        intro l hl
        induction l with
        | nil => rfl
        | cons k l ih =>
          rw [List.mapM_cons, hrow k (hl k (by simp)), finiteRow_some, ih fun k hk => hl k (by simp [hk])]
          rfl
      exact this _ fun k hk => List.mem_range.1 hk
    · rw [List.all_eq_true]
      intro y hy
      exact decide_eq_true (by rw [hz, hm y (by simp [hy])])

end Dist
end Verif
