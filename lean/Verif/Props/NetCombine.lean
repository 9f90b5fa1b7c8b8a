import Verif.Props.NetUnits

/-! # C144: networks can be combined -/

namespace Verif.Props
open Prebuilt NetworkSpec Network

variable (draw : Nat → List Nat → ℝ) (drawB : List Nat → List Nat → ℝ)

/-- The units of two layers together; the first `f` inputs are those of the first layer, the others those of the second. -/
def beside (f : Nat) (A B : Layer) : Layer :=
  ⟨A.out + B.out, fun r j => if r < A.out then (if j < f then A.W r j else 0) else if j < f then 0 else B.W (r - A.out) (j - f),
    some fun r => if r < A.out then A.b.elim 0 (· r) else B.b.elim 0 (· (r - A.out)), A.act⟩

/-- The units of two layers together, with the same inputs. -/
def stacked (A B : Layer) : Layer :=
  ⟨A.out + B.out, fun r j => if r < A.out then A.W r j else B.W (r - A.out) j, some fun r => if r < A.out then A.b.elim 0 (· r) else B.b.elim 0 (· (r - A.out)), A.act⟩

/-- The layers of two networks of the same depth, side by side. -/
def besides : Nat → List Layer → List Layer → List Layer
  | f, A :: As, B :: Bs => beside f A B :: besides A.out As Bs
  | _, _, _ => []

theorem fn_of_act {A B : Layer} (h : A.act = B.act) : A.fn = B.fn := by unfold Layer.fn; rw [h]

theorem besides_width : ∀ (As Bs : List Layer) (f g : Nat), As.map (·.act) = Bs.map (·.act) → width (f + g) (besides f As Bs) = width f As + width g Bs
  | [], [], _, _, _ => rfl
  | A :: As, B :: Bs, _, _, h => besides_width As Bs A.out B.out (List.cons.inj h).2
  | [], _ :: _, _, _, h => by cases h
  | _ :: _, [], _, _, h => by cases h

theorem besides_net : ∀ (As Bs : List Layer) (f g : Nat), As.map (·.act) = Bs.map (·.act) → ∀ z x x' : Nat → ℝ, (∀ j < f, z j = x j) → (∀ j < g, z (f + j) = x' j) →
    (∀ r < width f As, net (f + g) (besides f As Bs) z r = net f As x r) ∧ ∀ r < width g Bs, net (f + g) (besides f As Bs) z (width f As + r) = net g Bs x' r
  | [], [], _, _, _, _, _, _, h1, h2 => ⟨h1, h2⟩
  | A :: As, B :: Bs, f, g, h, z, x, x', h1, h2 => by
    have hf := fn_of_act (List.cons.inj h).1
    refine besides_net As Bs A.out B.out (List.cons.inj h).2 ((beside f A B).at (f + g) z) (A.at f x) (B.at g x') (fun j hj => ?_) (fun j hj => ?_)
    · show A.fn (∑ i ∈ Finset.range (f + g), (if j < A.out then (if i < f then A.W j i else 0) else if i < f then 0 else B.W (j - A.out) (i - f)) * z i +
        (if j < A.out then A.b.elim 0 (· j) else B.b.elim 0 (· (j - A.out)))) = A.fn (∑ i ∈ Finset.range f, A.W j i * x i + A.b.elim 0 (· j))
      simp only [if_pos hj]
      rw [Finset.sum_range_add]
      congr 2
      rw [Finset.sum_congr rfl fun i hi => by rw [if_pos (Finset.mem_range.1 hi), h1 i (Finset.mem_range.1 hi)], Finset.sum_eq_zero (s := Finset.range g) fun i _ => by
        rw [if_neg (by omega), zero_mul], add_zero]
    · have hn : ¬ A.out + j < A.out := by omega
      show A.fn (∑ i ∈ Finset.range (f + g), (if A.out + j < A.out then (if i < f then A.W (A.out + j) i else 0) else if i < f then 0 else B.W (A.out + j - A.out) (i - f)) * z i +
        (if A.out + j < A.out then A.b.elim 0 (· (A.out + j)) else B.b.elim 0 (· (A.out + j - A.out)))) = B.fn (∑ i ∈ Finset.range g, B.W j i * x' i + B.b.elim 0 (· j))
      simp only [if_neg hn, Nat.add_sub_cancel_left]
      rw [Finset.sum_range_add, hf]
      congr 2
      rw [Finset.sum_eq_zero (s := Finset.range f) fun i hi => by rw [if_pos (Finset.mem_range.1 hi), zero_mul], zero_add]
      exact Finset.sum_congr rfl fun i hi => by rw [if_neg (by omega), Nat.add_sub_cancel_left, h2 i (Finset.mem_range.1 hi)]
  | [], _ :: _, _, _, h, _, _, _, _, _ => by cases h
  | _ :: _, [], _, _, h, _, _, _, _, _ => by cases h

theorem besides_outs : ∀ (As Bs : List Layer) (f : Nat), As.map (·.act) = Bs.map (·.act) →
    (besides f As Bs).map (·.out) = List.zipWith (· + ·) (As.map (·.out)) (Bs.map (·.out)) ∧ (besides f As Bs).map (·.act) = As.map (·.act)
  | [], [], _, _ => ⟨rfl, rfl⟩
  | A :: As, B :: Bs, _, h => by
    obtain ⟨h1, h2⟩ := besides_outs As Bs A.out (List.cons.inj h).2
    exact ⟨by simpa [besides, beside] using h1, by simpa [besides, beside] using h2⟩
  | [], _ :: _, _, h => by cases h
  | _ :: _, [], _, h => by cases h

theorem stacked_at (f : Nat) (A B : Layer) (h : A.act = B.act) (x : Nat → ℝ) :
    (∀ j < A.out, (stacked A B).at f x j = A.at f x j) ∧ ∀ j < B.out, (stacked A B).at f x (A.out + j) = B.at f x j := by
  refine ⟨fun j hj => ?_, fun j _ => ?_⟩
  · show A.fn (∑ i ∈ Finset.range f, (if j < A.out then A.W j i else B.W (j - A.out) i) * x i + (if j < A.out then A.b.elim 0 (· j) else B.b.elim 0 (· (j - A.out)))) = _
    simp only [if_pos hj]
    rfl
  · have hn : ¬ A.out + j < A.out := by omega
    show A.fn (∑ i ∈ Finset.range f, (if A.out + j < A.out then A.W (A.out + j) i else B.W (A.out + j - A.out) i) * x i +
      (if A.out + j < A.out then A.b.elim 0 (· (A.out + j)) else B.b.elim 0 (· (A.out + j - A.out)))) = _
    simp only [if_neg hn, Nat.add_sub_cancel_left, fn_of_act h]
    rfl

/-- **C144 (side by side).** For two networks with the same features, the same depth and the same activations there is one, with as many units in every layer as the two have together, whose outputs are those of the first
followed by those of the second. -/
theorem C144_beside (f : Nat) (As Bs : List Layer) (hne : As ≠ []) (h : As.map (·.act) = Bs.map (·.act)) :
    ∃ Cs : List Layer, Cs.map (·.out) = List.zipWith (· + ·) (As.map (·.out)) (Bs.map (·.out)) ∧ Cs.map (·.act) = As.map (·.act) ∧ width f Cs = width f As + width f Bs ∧
      ∀ x, ∃ y y' z, predictNet draw drawB f As x = some y ∧ predictNet draw drawB f Bs x = some y' ∧ predictNet draw drawB f Cs x = some z ∧
        (∀ r < width f As, z r = y r) ∧ ∀ r < width f Bs, z (width f As + r) = y' r := by
  cases As with
  | nil => exact absurd rfl hne
  | cons A As =>
    cases Bs with
    | nil => cases h
    | cons B Bs =>
      obtain ⟨ha, hr⟩ := List.cons.inj h
      obtain ⟨o1, o2⟩ := besides_outs As Bs A.out hr
      have hw : width f (stacked A B :: besides A.out As Bs) = width f (A :: As) + width f (B :: Bs) := besides_width As Bs A.out B.out hr
      refine ⟨stacked A B :: besides A.out As Bs, by simpa [stacked] using o1, by simpa [stacked] using o2, hw, fun x => ?_⟩
      obtain ⟨y, h1, h2⟩ := predictNet_eq draw drawB f (A :: As) x
      obtain ⟨y', h1', h2'⟩ := predictNet_eq draw drawB f (B :: Bs) x
      obtain ⟨z, h3, h4⟩ := predictNet_eq draw drawB f (stacked A B :: besides A.out As Bs) x
      obtain ⟨s1, s2⟩ := stacked_at f A B ha x
      obtain ⟨n1, n2⟩ := besides_net As Bs A.out B.out hr _ _ _ s1 s2
      refine ⟨y, y', z, h1, h1', h3, fun r hr => ?_, fun r hr => ?_⟩
      · rw [h4 r (by omega), h2 r hr]
        exact n1 r hr
      · rw [h4 _ (by omega), h2' r hr]
        exact n2 r hr

/-- **C144 (combinations).** If the last layers have no activations, there is also one whose outputs are any multiples of the outputs of the two added up: so sums, differences and averages of networks are networks. -/
theorem C144_sum (f : Nat) (As Bs : List Layer) (A B : Layer) (hne : As ≠ []) (h : As.map (·.act) = Bs.map (·.act)) (hA : A.act = Option.none) (hB : B.act = Option.none) (ho : A.out = B.out) (a b : ℝ) :
    ∃ (Cs : List Layer) (C : Layer), Cs.map (·.out) = List.zipWith (· + ·) (As.map (·.out)) (Bs.map (·.out)) ∧ Cs.map (·.act) = As.map (·.act) ∧ C.out = A.out ∧ C.act = Option.none ∧
      ∀ x, ∃ y y' z, predictNet draw drawB f (As ++ [A]) x = some y ∧ predictNet draw drawB f (Bs ++ [B]) x = some y' ∧ predictNet draw drawB f (Cs ++ [C]) x = some z ∧
        ∀ r < A.out, z r = a * y r + b * y' r := by
  obtain ⟨Cs, o1, o2, hw, hC⟩ := C144_beside draw drawB f As Bs hne h
  refine ⟨Cs, ⟨A.out, fun r j => if j < width f As then a * A.W r j else b * B.W r (j - width f As), some fun r => a * A.b.elim 0 (· r) + b * B.b.elim 0 (· r), Option.none⟩, o1, o2, rfl, rfl, fun x => ?_⟩
  obtain ⟨u, u', v, p1, p2, p3, q1, q2⟩ := hC x
  have hu : ∀ (Ls : List Layer) (w : Nat → ℝ), predictNet draw drawB f Ls x = some w → ∀ r < width f Ls, net f Ls x r = w r := fun Ls w hw r hr => by
    obtain ⟨w', h1, h2⟩ := predictNet_eq draw drawB f Ls x
    rw [hw, Option.some.injEq] at h1
    rw [← h2 r hr, h1]
  obtain ⟨y, h1, h2⟩ := predictNet_eq draw drawB f (As ++ [A]) x
  obtain ⟨y', h1', h2'⟩ := predictNet_eq draw drawB f (Bs ++ [B]) x
  obtain ⟨z, h3, h4⟩ := predictNet_eq draw drawB f (Cs ++ [⟨A.out, fun r j => if j < width f As then a * A.W r j else b * B.W r (j - width f As),
    some fun r => a * A.b.elim 0 (· r) + b * B.b.elim 0 (· r), Option.none⟩]) x
  refine ⟨y, y', z, h1, h1', h3, fun r hr => ?_⟩
  rw [width_append_last] at h2 h2' h4
  rw [h4 r hr, h2 r hr, h2' r (ho ▸ hr), net_append_last, net_append_last, net_append_last, hw]
  unfold Layer.at Layer.fn
  rw [hA, hB]
  simp only [Option.getD_none, id, Option.elim_some]
  rw [Finset.sum_range_add]
  have e1 : ∑ i ∈ Finset.range (width f As), (if i < width f As then a * A.W r i else b * B.W r (i - width f As)) * net f Cs x i = a * ∑ i ∈ Finset.range (width f As), A.W r i * net f As x i := by
    rw [Finset.mul_sum]
    refine Finset.sum_congr rfl fun i hi => ?_
    have hi := Finset.mem_range.1 hi
    rw [if_pos hi, hu Cs v p3 i (by omega), q1 i hi, ← hu As u p1 i hi, mul_assoc]
  have e2 : ∑ i ∈ Finset.range (width f Bs), (if width f As + i < width f As then a * A.W r (width f As + i) else b * B.W r (width f As + i - width f As)) * net f Cs x (width f As + i) =
      b * ∑ i ∈ Finset.range (width f Bs), B.W r i * net f Bs x i := by
    rw [Finset.mul_sum]
    refine Finset.sum_congr rfl fun i hi => ?_
    have hi := Finset.mem_range.1 hi
    rw [if_neg (by omega), Nat.add_sub_cancel_left, hu Cs v p3 _ (by omega), q2 i hi, ← hu Bs u' p2 i hi, mul_assoc]
  rw [e1, e2]
  ring

/-- A layer with `n` units, the first of which are those of `L`; the others have the given weights and biases. -/
def widen (n : Nat) (V : Nat → Nat → ℝ) (c : Nat → ℝ) (L : Layer) : Layer :=
  ⟨n, fun r j => if r < L.out then L.W r j else V r j, L.b.map fun b r => if r < L.out then b r else c r, L.act⟩

/-- A layer that does not look at inputs from `n` on. -/
def ignore (n : Nat) (M : Layer) : Layer := { M with W := fun r j => if j < n then M.W r j else 0 }

/-- **C144 (wider).** Hidden layers can be made wider, whatever the new units do, if the next layer does not look at them: wider networks can do what narrower ones can. -/
theorem C144_wider (f : Nat) (pre post : List Layer) (L M : Layer) (n : Nat) (hn : L.out ≤ n) (V : Nat → Nat → ℝ) (c : Nat → ℝ) (x : Nat → ℝ) :
    ∃ y y', predictNet draw drawB f (pre ++ L :: M :: post) x = some y ∧ predictNet draw drawB f (pre ++ widen n V c L :: ignore L.out M :: post) x = some y' ∧
      ∀ r < width f (pre ++ L :: M :: post), y' r = y r := by
  refine predictNet_same draw drawB (by rw [(net_append _ _ f x).2, (net_append _ _ f x).2]; rfl) (fun _ v => v) fun r hr => ?_
  rw [(net_append _ _ f x).1, (net_append _ _ f x).1]
  generalize net f pre x = z
  generalize width f pre = w
  have e : (ignore L.out M).at n ((widen n V c L).at w z) = M.at L.out (L.at w z) := by
    funext k
    show M.fn (∑ j ∈ Finset.range n, (if j < L.out then M.W k j else 0) * (widen n V c L).at w z j + M.b.elim 0 (· k)) = M.fn (∑ j ∈ Finset.range L.out, M.W k j * L.at w z j + M.b.elim 0 (· k))
    congr 2
    obtain ⟨d, rfl⟩ := Nat.exists_eq_add_of_le hn
    rw [Finset.sum_range_add, Finset.sum_eq_zero (s := Finset.range d) fun i _ => by rw [if_neg (by omega), zero_mul], add_zero]
    refine Finset.sum_congr rfl fun j hj => ?_
    have hj := Finset.mem_range.1 hj
    rw [if_pos hj]
    congr 1
    unfold Layer.at widen Layer.fn
    simp only [if_pos hj]
    congr 2
    cases L.b with
    | none => rfl
    | some b => simp only [Option.map_some, Option.elim_some, if_pos hj]
  show net M.out post ((ignore L.out M).at n ((widen n V c L).at w z)) r = net M.out post (M.at L.out (L.at w z)) r
  rw [e]

/-- A layer that passes on `n` numbers, with the activation of another one. -/
def passOn (L : Layer) : Layer := ⟨L.out, fun r j => if r = j then 1 else 0, Option.none, L.act⟩

/-- The activations that change nothing when applied again. -/
def Idempotent : Act → Prop
  | .relu | .relu6 | .hardTanh | .abs | .identity => True
  | .clip lo hi => lo ≤ hi
  | _ => False

theorem idempotent_fn (a : Act) (h : Idempotent a) (u : ℝ) : a.fn (a.fn u) = a.fn u := by
  have hr := C136_range a u
  refine C136_fixed a _ ?_
  cases a with
  | relu => exact hr
  | relu6 => exact hr
  | hardTanh => exact hr
  | abs => exact hr
  | identity => exact hr
  | clip lo hi =>
    have h' : lo ≤ hi := h
    simp only [actRange, if_pos h'] at hr
    exact hr
  | _ => cases h

/-- **C144 (deeper).** A layer that passes on its inputs can be put behind every layer without an activation or with one that changes nothing when applied again, as rectifiers and clipping: deeper networks can do what
shallower ones can. -/
theorem C144_deeper (f : Nat) (pre post : List Layer) (L : Layer) (h : L.act = Option.none ∨ ∃ a : Act, Idempotent a ∧ L.act = some a.fn) (x : Nat → ℝ) :
    ∃ y y', predictNet draw drawB f (pre ++ L :: post) x = some y ∧ predictNet draw drawB f (pre ++ L :: passOn L :: post) x = some y' ∧
      ∀ r < width f (pre ++ L :: post), y' r = y r := by
  have hi : ∀ u, L.fn (L.fn u) = L.fn u := fun u => by
    unfold Layer.fn
    rcases h with h | ⟨a, ha, h⟩
    · rw [h]; rfl
    · rw [h]; exact idempotent_fn a ha u
  refine predictNet_same draw drawB (by rw [(net_append _ _ f x).2, (net_append _ _ f x).2]; rfl) (fun _ v => v) fun r hr => ?_
  rw [(net_append _ _ f x).2] at hr
  rw [(net_append _ _ f x).1, (net_append _ _ f x).1]
  refine net_congr post (f := L.out) (fun k hk => ?_) r hr
  show L.fn (∑ j ∈ Finset.range L.out, (if k = j then 1 else 0) * L.at (width f pre) (net f pre x) j + 0) = L.at (width f pre) (net f pre x) k
  simp only [ite_mul, one_mul, zero_mul, add_zero]
  rw [Finset.sum_ite_eq, if_pos (Finset.mem_range.2 hk)]
  exact hi _

/-- Two networks with a rectified layer of three and of two units, and plain last layers of one unit. -/
example : let As : List Layer := [⟨3, fun _ _ => 1, Option.none, some (Act.fn .relu)⟩]
    let Bs : List Layer := [⟨2, fun r j => r + j, some fun _ => 1, some (Act.fn .relu)⟩]
    As ≠ [] ∧ As.map (·.act) = Bs.map (·.act) ∧ ((⟨1, fun _ _ => 2, Option.none, Option.none⟩ : Layer).out = (⟨1, fun _ _ => 3, some fun _ => 1, Option.none⟩ : Layer).out) ∧
      Idempotent .relu ∧ Idempotent (.clip 0 1) := ⟨by simp, rfl, rfl, trivial, zero_le_one⟩

end Verif.Props
