import Verif.Spec.Sensitivity
import Verif.Lemmas.ModelFile
import Verif.Props.Eigen
import Verif.Lemmas.SeqCompose
import Verif.Lemmas.MatmulCore
import Verif.Props.ConformalInterval

/-! # Lemmas about sums of squares of scaled gradients -/

namespace Verif
namespace Tree
open ForwardSpec (KeysOk)

variable {α β γ δ : Type}

mutual
theorem exists_zip : ∀ (a : Tree α) (b : Tree β), map (fun _ => ()) a = map (fun _ => ()) b →
    ∃ z : Tree (α × β), map Prod.fst z = a ∧ map Prod.snd z = b
  | .leaf x, b, h => by
    cases b with
    | leaf y => exact ⟨.leaf (x, y), rfl, rfl⟩
    | none | list _ | tuple _ | dict _ => simp [map] at h
  | .none, b, h => by
    cases b with
    | none => exact ⟨.none, rfl, rfl⟩
    | leaf _ | list _ | tuple _ | dict _ => simp [map] at h
  | .list ts, b, h => by
    cases b with
    | list us =>
      obtain ⟨z, h1, h2⟩ := exists_zipL ts us (by simpa [map] using h)
      exact ⟨.list z, by rw [map, h1], by rw [map, h2]⟩
    | leaf _ | none | tuple _ | dict _ => simp [map] at h
  | .tuple ts, b, h => by
    cases b with
    | tuple us =>
      obtain ⟨z, h1, h2⟩ := exists_zipL ts us (by simpa [map] using h)
      exact ⟨.tuple z, by rw [map, h1], by rw [map, h2]⟩
    | leaf _ | none | list _ | dict _ => simp [map] at h
  | .dict ts, b, h => by
    cases b with
    | dict us =>
      obtain ⟨z, h1, h2⟩ := exists_zipD ts us (by simpa [map] using h)
      exact ⟨.dict z, by rw [map, h1], by rw [map, h2]⟩
    | leaf _ | none | list _ | tuple _ => simp [map] at h
theorem exists_zipL : ∀ (a : List (Tree α)) (b : List (Tree β)), mapL (fun _ => ()) a = mapL (fun _ => ()) b →
    ∃ z : List (Tree (α × β)), mapL Prod.fst z = a ∧ mapL Prod.snd z = b
  | [], b, h => by
    cases b with
    | nil => exact ⟨[], rfl, rfl⟩
    | cons _ _ => simp [mapL] at h
  | t :: ts, b, h => by
    cases b with
    | nil => simp [mapL] at h
    | cons u us =>
      simp only [mapL, List.cons.injEq] at h
      obtain ⟨z, h1, h2⟩ := exists_zip t u h.1
      obtain ⟨zs, h3, h4⟩ := exists_zipL ts us h.2
      exact ⟨z :: zs, by rw [mapL, h1, h3], by rw [mapL, h2, h4]⟩
theorem exists_zipD : ∀ (a : List (Str × Tree α)) (b : List (Str × Tree β)), mapD (fun _ => ()) a = mapD (fun _ => ()) b →
    ∃ z : List (Str × Tree (α × β)), mapD Prod.fst z = a ∧ mapD Prod.snd z = b
  | [], b, h => by
    cases b with
    | nil => exact ⟨[], rfl, rfl⟩
    | cons _ _ => simp [mapD] at h
  | (k, t) :: ts, b, h => by
    cases b with
    | nil => simp [mapD] at h
    | cons u us =>
      obtain ⟨k', u⟩ := u
      simp only [mapD, List.cons.injEq, Prod.mk.injEq] at h
      obtain ⟨⟨rfl, h0⟩, h'⟩ := h
      obtain ⟨z, h1, h2⟩ := exists_zip t u h0
      obtain ⟨zs, h3, h4⟩ := exists_zipD ts us h'
      exact ⟨(k, z) :: zs, by rw [mapD, h1, h3], by rw [mapD, h2, h4]⟩
end

mutual
theorem map_bind (f : β → γ) (g : α → Tree β) : ∀ t : Tree α, map f (Tree.bind g t) = Tree.bind (fun a => map f (g a)) t
  | .leaf _ => rfl
  | .none => rfl
  | .list ts => by rw [Tree.bind, map, mapL_bind f g ts, Tree.bind]
  | .tuple ts => by rw [Tree.bind, map, mapL_bind f g ts, Tree.bind]
  | .dict ts => by rw [Tree.bind, map, mapD_bind f g ts, Tree.bind]
theorem mapL_bind (f : β → γ) (g : α → Tree β) : ∀ ts : List (Tree α), mapL f (bindL g ts) = bindL (fun a => map f (g a)) ts
  | [] => rfl
  | t :: ts => by rw [bindL, mapL, map_bind f g t, mapL_bind f g ts, bindL]
theorem mapD_bind (f : β → γ) (g : α → Tree β) : ∀ ts : List (Str × Tree α), mapD f (bindD g ts) = bindD (fun a => map f (g a)) ts
  | [] => rfl
  | (k, t) :: ts => by rw [bindD, mapD, map_bind f g t, mapD_bind f g ts, bindD]
end

theorem flat_zip {a : Tree α} {b : Tree β} {z : Tree (α × β)} (h1 : map Prod.fst z = a) (h2 : map Prod.snd z = b) :
    flat z = (flat a).zip (flat b) := by
  rw [← h1, ← h2, Props.flat_map, Props.flat_map, List.zip_map']
  simp

/-- A leafwise `jax.tree.map` of two trees of the same structure. -/
theorem jaxMap_zip {F : α → List (Tree β) → Except PyErr (Tree γ)} (hF : ∀ a vs, F a (vs.map norm) = F a vs) (h : α → β → γ)
    {t : Tree α} {u : Tree β} (ht : KeysOk t) (hu : KeysOk u) (hs : map (fun _ => ()) t.norm = map (fun _ => ()) u.norm)
    (hh : ∀ x ∈ (jaxLeaves t).zip (jaxLeaves u), F x.1 [.leaf x.2] = .ok (.leaf (h x.1 x.2))) :
    ∃ z : Tree (α × β), KeysOk z ∧ norm z = z ∧ map Prod.fst z = t.norm ∧ map Prod.snd z = u.norm ∧ flat z = (jaxLeaves t).zip (jaxLeaves u) ∧
      jaxMap F t [u] = .ok (map (fun x => h x.1 x.2) z) := by
  obtain ⟨z, h1, h2⟩ := exists_zip _ _ hs
  have hfl := flat_zip h1 h2
  have hkz : KeysOk z := (keysOk_map Prod.fst z).1 (by rw [h1]; exact keysOk_norm' ht)
  have hnz : norm z = z := by
    have h3 := sorted_norm t ht
    rw [← h1] at h3
    exact norm_of_sorted _ ((sorted_map _ z).1 h3)
  refine ⟨z, hkz, hnz, h1, h2, hfl, ?_⟩
  rw [← jaxMap_normal ht, ← jaxMap_norm hF _ _ (by simpa using hu)]
  simp only [List.map_cons, List.map_nil]
  rw [← h1, ← h2, ← bind_leaf Prod.snd, jaxMap_bind _ _ hkz hnz]
  refine mapM_leaf _ _ _ fun x hx => hh x ?_
  rw [hfl] at hx
  exact hx

end Tree

namespace Sens
open Tree NArr
open ForwardSpec (At KeysOk)
open NdSpec

variable {𝕜 : Type} [RCLike 𝕜] {V W : Type}

/-- The squares of one scaled gradient, summed over the axes of the scale. -/
noncomputable def term (g x : NArr 𝕜) (o : List Nat) : ℝ := ((indices x.shape).map fun j => ‖g.val (o ++ j) * x.val j‖ ^ 2).sum

theorem ble_append (s t : List Nat) : BLe t (s ++ t) := by
  unfold BLe
  rw [List.reverse_append]
  exact Props.bleR_append _ _

theorem inB_append : ∀ {s t i j : List Nat}, InB s i → InB t j → InB (s ++ t) (i ++ j)
  | [], t, i, j, hi, hj => by
    have : i = [] := List.length_eq_zero_iff.1 hi.1
    subst this
    exact hj
  | n :: s, t, [], j, hi, hj => by have := hi.1; simp at this
  | n :: s, t, k :: i, j, hi, hj => by
    rw [List.cons_append, List.cons_append, inB_cons]
    exact ⟨(inB_cons.1 hi).1, inB_append (inB_cons.1 hi).2 hj⟩

theorem bidx_append {t i j : List Nat} (hj : InB t j) : bidx t (i ++ j) = j := by
  have e : bidx t (i ++ j) = bidx t j := by
    unfold bidx
    have : (i ++ j).length - t.length = i.length := by rw [List.length_append, hj.1]; omega
    rw [this, hj.1, Nat.sub_self, List.drop_left, List.drop_zero]
  rw [e, bidx_self hj]

/-- The product of a gradient and a scale. -/
def prod (g x : NArr 𝕜) : NArr 𝕜 := ⟨g.shape, fun i => g.val (bidx g.shape i) * x.val (bidx x.shape i)⟩

/-- The sum of the squares of the last axes. -/
noncomputable def tail (k : Nat) (z : NArr 𝕜) : NArr ℝ := ⟨z.shape.take (z.shape.length - k), fun i =>
      ((indices (z.shape.drop (z.shape.length - k))).map fun j => ‖z.val (i ++ j)‖ ^ 2).sum⟩

theorem tail_prod {g x : NArr 𝕜} {s : List Nat} (h : g.shape = s ++ x.shape) :
    (tail x.shape.length (prod g x)).shape = s ∧ ∀ o, InB s o → (tail x.shape.length (prod g x)).val o = term g x o := by
  have hl : g.shape.length - x.shape.length = s.length := by rw [h, List.length_append]; omega
  constructor
  · simp only [tail, prod]
    rw [hl, h, List.take_left]
  · intro o ho
    simp only [tail, prod, term]
    rw [hl, h, List.drop_left]
    congr 1
    refine List.map_congr_left fun j hj => ?_
    have hj := mem_indices.1 hj
    rw [bidx_append hj, bidx_self (inB_append ho hj)]

theorem addAll_spec {s : List Nat} : ∀ {l : List (NArr ℝ)} {a : NArr ℝ}, a.shape = s → (∀ b ∈ l, b.shape = s) →
    ∃ z, l.foldlM (fun a b => NArr.bop (· + ·) a b) a = .ok z ∧ z.shape = s ∧ ∀ o, InB s o → z.val o = a.val o + (l.map (·.val o)).sum
  | [], a, ha, _ => ⟨a, rfl, ha, fun o _ => by simp⟩
  | b :: l, a, ha, hl => by
    have hb : b.shape = s := hl b (by simp)
    have h1 : bop (· + ·) a b = .ok ⟨s, fun i => a.val (bidx a.shape i) + b.val (bidx b.shape i)⟩ := by
      unfold bop
      rw [ha, hb, bshape_self]
    obtain ⟨z, h2, h3, h4⟩ := addAll_spec (l := l) (a := ⟨s, fun i => a.val (bidx a.shape i) + b.val (bidx b.shape i)⟩) rfl fun c hc => hl c (by simp [hc])
    refine ⟨z, ?_, h3, fun o ho => ?_⟩
    · rw [List.foldlM_cons, h1]
      exact h2
    · rw [h4 o ho]
      simp only [List.map_cons, List.sum_cons]
      rw [ha, hb, bidx_self ho, add_assoc]

/-- One leaf of a product of trees. -/
def mulLeaf (x : NArr 𝕜) (vs : List (Tree (NArr 𝕜))) : Except PyErr (Tree (NArr 𝕜)) :=
  match vs with
  | [.leaf y] => match NArr.bop (· * ·) x y with
    | .ok z => .ok (.leaf z)
    | .error e => .error e
  | _ => .error .typeError

theorem bin_mul {t u : Tree (NArr 𝕜)} (h : map (fun _ => ()) t.norm = map (fun _ => ()) u.norm) :
    TreeArith.bin (· * ·) t u = jaxMap mulLeaf t [u] := by
  unfold TreeArith.bin
  rw [if_pos ((sameStruct_iff _ _).2 h)]
  rfl

theorem mulLeaf_norm (a : NArr 𝕜) (vs : List (Tree (NArr 𝕜))) : mulLeaf a (vs.map norm) = mulLeaf a vs := by
  rcases vs with _ | ⟨v, _ | ⟨w, vs⟩⟩
  · rfl
  · cases v <;> rfl
  · cases v <;> rfl

theorem sumLeaf_norm (a : NArr 𝕜) (vs : List (Tree (NArr 𝕜))) : sumLeaf a (vs.map norm) = sumLeaf a vs := by
  rcases vs with _ | ⟨v, _ | ⟨w, vs⟩⟩
  · rfl
  · cases v <;> rfl
  · cases v <;> rfl

theorem sumSq_spec {df scale : Tree (NArr 𝕜)} {s : List Nat} (hd : KeysOk df) (hs : KeysOk scale)
    (hstr : map (fun _ => ()) df.norm = map (fun _ => ()) scale.norm)
    (hsh : ∀ y ∈ (jaxLeaves df).zip (jaxLeaves scale), y.1.shape = s ++ y.2.shape) (hne : jaxLeaves scale ≠ []) :
    ∃ z, sumSq df scale = .ok z ∧ z.shape = s ∧
      ∀ o, InB s o → z.val o = (((jaxLeaves df).zip (jaxLeaves scale)).map fun y => term y.1 y.2 o).sum := by
  obtain ⟨z, hkz, hnz, h1, h2, h3, h4⟩ := jaxMap_zip (mulLeaf_norm (𝕜 := 𝕜)) prod hd hs hstr fun x hx => by
    have hb : bop (· * ·) x.1 x.2 = .ok (prod x.1 x.2) := by
      unfold bop
      rw [bshape_of_le (by rw [hsh x hx]; exact ble_append _ _)]
      rfl
    unfold mulLeaf
    simp only [hb]
  have h5 : TreeArith.bin (· * ·) df scale = .ok (map (fun x => prod x.1 x.2) z) := by
    rw [bin_mul hstr, h4]
  have h6 : jaxMap sumLeaf (map (fun x => prod x.1 x.2) z) [scale] = .ok (map (fun x => tail x.2.shape.length (prod x.1 x.2)) z) := by
    rw [← Tree.jaxMap_norm (sumLeaf_norm (𝕜 := 𝕜)) _ _ (by simpa using hs)]
    simp only [List.map_cons, List.map_nil]
    rw [← h2, ← bind_leaf Prod.snd, jaxMap_bind _ _ hkz hnz]
    refine mapM_leaf _ _ _ fun x hx => ?_
    rw [h3] at hx
    have hle : x.2.shape.length ≤ (prod x.1 x.2).shape.length := by
      simp only [prod]
      rw [hsh x hx, List.length_append]
      omega
    simp only [sumLeaf, sumLast, if_pos hle]
    rfl
  have h7 : sumSq df scale = addAll (((jaxLeaves df).zip (jaxLeaves scale)).map fun x => tail x.2.shape.length (prod x.1 x.2)) := by
    unfold sumSq
    rw [h5]
    simp only [Bind.bind, Except.bind]
    rw [h6]
    simp only
    rw [jaxLeaves, Tree.norm_map, hnz, Props.flat_map, h3]
  rw [h7]
  have hlen : (jaxLeaves df).length = (jaxLeaves scale).length := (Forward.jaxLeaves_length ((sameStruct_iff _ _).2 hstr)).symm
  generalize hL : (jaxLeaves df).zip (jaxLeaves scale) = L at *
  cases L with
  | nil =>
    have := congrArg List.length hL
    rw [List.length_zip, hlen, Nat.min_self, List.length_nil] at this
    exact absurd (List.length_eq_zero_iff.1 this) hne
  | cons x xs =>
    obtain ⟨y, h8, h9, h10⟩ := addAll_spec (s := s) (l := xs.map fun x => tail x.2.shape.length (prod x.1 x.2))
      (tail_prod (hsh x (by simp))).1 (by
        intro b hb
        obtain ⟨x', hx', rfl⟩ := List.mem_map.1 hb
        exact (tail_prod (hsh x' (by simp [hx']))).1)
    refine ⟨y, h8, h9, fun o ho => ?_⟩
    rw [h10 o ho, (tail_prod (hsh x (by simp))).2 o ho, List.map_map, List.map_cons, List.sum_cons]
    congr 2
    refine List.map_congr_left fun x' hx' => ?_
    exact (tail_prod (hsh x' (by simp [hx']))).2 o ho

theorem vmap_spec {f : Tree (NArr V) → Except PyErr (NArr W)} {df : Tree (NArr V)} {n : Nat} {s : List Nat} (hne : jaxLeaves df ≠ [])
    (hn : ∀ x ∈ jaxLeaves df, x.shape.head? = some n) {Z : Nat → NArr W} (hZ : ∀ k, f (map (row k) df) = .ok (Z k)) (hs : ∀ k, (Z k).shape = s) :
    ∃ r, vmap f df = .ok r ∧ r.shape = n :: s ∧ ∀ k o, k < n → r.val (k :: o) = (Z k).val o := by
  have hb : batch df = .ok n := by
    unfold batch
    cases hl : jaxLeaves df with
    | nil => exact absurd hl hne
    | cons x xs =>
      rw [hl] at hn
      have hx := hn x (by simp)
      simp only
      cases hx' : x.shape with
      | nil => rw [hx'] at hx; cases hx
      | cons m t =>
        rw [hx'] at hx
        simp only [List.head?_cons, Option.some.injEq] at hx
        subst hx
        simp only
        rw [if_pos]
        rw [List.all_eq_true]
        intro y hy
        exact decide_eq_true (hn y (by simp [hy]))
  have hr : (List.range n).mapM (fun k => f (map (row k) df)) = .ok ((List.range n).map Z) := by
    have : ∀ l : List Nat, l.mapM (fun k => f (map (row k) df)) = .ok (l.map Z) := by
      intro l
      induction l with
      | nil => rfl
      | cons a l ih => rw [List.mapM_cons, hZ, ih]; rfl
    exact this _
  refine ⟨_, by unfold vmap; rw [hb]; simp only [Bind.bind, Except.bind]; rw [hZ]; simp only; rw [hr], ?_, ?_⟩
  · simp only [hs]
  · intro k o hk
    simp [hk]

theorem clean_shape (x : NArr (Option 𝕜)) : (clean x).shape = x.shape := rfl

open SensSpec in
theorem perOutput_spec {df scale : Tree (NArr (Option 𝕜))} {n : Nat} {s : List Nat} (hs : KeysOk scale) (hf : GradFits NArr.shape n s df scale)
    (hne : jaxLeaves scale ≠ []) (sh : List Nat) :
    ∃ Y, perOutput (map clean scale.norm) sh [map clean df.norm] = .ok (.leaf Y) ∧ Y.shape = n :: s ∧ ∀ k o, k < n → InB s o →
      Y.val (k :: o) = (((jaxLeaves df).zip (jaxLeaves scale)).map fun y => squares y.1 y.2 k o).sum := by
  have hlen : (jaxLeaves df).length = (jaxLeaves scale).length := (Forward.jaxLeaves_length ((sameStruct_iff _ _).2 hf.struct)).symm
  have hL : jaxLeaves (map clean scale.norm) = (jaxLeaves scale).map (clean (𝕜 := 𝕜)) := by
    rw [Matmul.jaxLeaves_map, jaxLeaves, norm_norm hs, jaxLeaves]
  have hD : ∀ k, jaxLeaves (map (row k) (map clean df.norm)) = (jaxLeaves df).map fun g => row k (clean (𝕜 := 𝕜) g) := by
    intro k
    rw [map_map, Matmul.jaxLeaves_map, jaxLeaves, norm_norm hf.keys, jaxLeaves]
  have hD' : jaxLeaves (map clean df.norm) = (jaxLeaves df).map (clean (𝕜 := 𝕜)) := by
    rw [Matmul.jaxLeaves_map, jaxLeaves, norm_norm hf.keys, jaxLeaves]
  have hz : ∀ k, (jaxLeaves (map (row k) (map clean df.norm))).zip (jaxLeaves (map clean scale.norm)) =
      ((jaxLeaves df).zip (jaxLeaves scale)).map fun y => (row k (clean (𝕜 := 𝕜) y.1), clean (𝕜 := 𝕜) y.2) := by
    intro k
    rw [hD, hL, List.zip_map]
    rfl
  have key : ∀ k, ∃ z, sumSq (map (row k) (map clean df.norm)) (map clean scale.norm) = .ok z ∧ z.shape = s ∧ ∀ o, InB s o →
      z.val o = (((jaxLeaves df).zip (jaxLeaves scale)).map fun y => squares y.1 y.2 k o).sum := by
    intro k
    obtain ⟨z, h1, h2, h3⟩ := sumSq_spec (s := s) (df := map (row k) (map clean df.norm)) (scale := map clean scale.norm)
      ((keysOk_map _ _).2 ((keysOk_map _ _).2 (keysOk_norm' hf.keys))) ((keysOk_map _ _).2 (keysOk_norm' hs)) (by
        rw [map_map, Tree.norm_map, Tree.norm_map, map_map, map_map, norm_norm hf.keys, norm_norm hs]
        exact hf.struct) (by
        rw [hz]
        intro y hy
        obtain ⟨y', hy', rfl⟩ := List.mem_map.1 hy
        simp only [row, clean_shape, hf.shapes y' hy', List.tail_cons]) (by rw [hL]; simpa using hne)
    refine ⟨z, h1, h2, fun o ho => ?_⟩
    rw [h3 o ho, hz, List.map_map]
    rfl
  choose Z hZ1 hZ2 hZ3 using key
  have hdne : jaxLeaves df ≠ [] := by
    intro h
    rw [h] at hlen
    exact hne (List.length_eq_zero_iff.1 hlen.symm)
  obtain ⟨r, h1, h2, h3⟩ := vmap_spec (f := (sumSq · (map clean scale.norm))) (df := map clean df.norm) (n := n) (s := s) (by rw [hD']; simpa using hdne) (by
    rw [hD']
    intro x hx
    obtain ⟨g, hg, rfl⟩ := List.mem_map.1 hx
    obtain ⟨i, hi, rfl⟩ := List.getElem_of_mem hg
    have hi' : i < (jaxLeaves scale).length := hlen ▸ hi
    have := hf.shapes ((jaxLeaves df)[i], (jaxLeaves scale)[i]) (List.mem_iff_getElem.2 ⟨i, by simp [hi, hi'], by simp⟩)
    rw [clean_shape, this]
    rfl) hZ1 hZ2
  refine ⟨r, ?_, h2, fun k o hk ho => ?_⟩
  · simp only [perOutput, h1]
    rfl
  · rw [h3 k o hk, hZ3 k o ho]

open SensSpec in
/-- The sensitivities for gradients that fit. -/
theorem sensitivity_spec {T : Tree (List Nat × Tree (NArr (Option 𝕜)))} (hT : KeysOk T) {scale : Tree (NArr (Option 𝕜))} (hs : KeysOk scale) {n : Nat}
    (hne : jaxLeaves scale ≠ []) (hf : ∀ d ∈ flat T, GradFits NArr.shape n d.1 d.2 scale) :
    ∃ Y : List Nat × Tree (NArr (Option 𝕜)) → NArr ℝ,
      jaxMap (perOutput (map clean scale.norm)) (map Prod.fst T) [map clean (Tree.bind Prod.snd T).norm] = .ok (map Y T.norm) ∧
      ∀ d ∈ flat T, (Y d).shape = n :: d.1 ∧ ∀ k o, k < n → InB d.1 o →
        (Y d).val (k :: o) = (((jaxLeaves d.2).zip (jaxLeaves scale)).map fun y => squares y.1 y.2 k o).sum := by
  classical
  have key : ∀ d : List Nat × Tree (NArr (Option 𝕜)), ∃ Y, d ∈ flat T → perOutput (map clean scale.norm) d.1 [map clean d.2.norm] = .ok (.leaf Y) ∧
      Y.shape = n :: d.1 ∧ ∀ k o, k < n → InB d.1 o →
      Y.val (k :: o) = (((jaxLeaves d.2).zip (jaxLeaves scale)).map fun y => squares y.1 y.2 k o).sum := by
    intro d
    by_cases hd : d ∈ flat T
    · obtain ⟨Y, h⟩ := perOutput_spec hs (hf d hd) hne d.1
      exact ⟨Y, fun _ => h⟩
    · exact ⟨⟨[], fun _ => 0⟩, fun h => absurd h hd⟩
  choose Y hY using key
  refine ⟨Y, ?_, fun d hd => (hY d hd).2⟩
  have e : map clean (Tree.bind Prod.snd T).norm = Tree.bind (fun d : List Nat × Tree (NArr (Option 𝕜)) => map clean d.2.norm) T.norm := by
    rw [norm_bind, map_bind]
  rw [e, ← jaxMap_normal ((keysOk_map _ _).2 hT), Tree.norm_map, jaxMap_bind _ _ (keysOk_norm' hT) (norm_norm hT)]
  exact mapM_leaf _ _ _ fun d hd => (hY d (mem_flat_norm.1 hd)).1

end Sens
end Verif
