import Verif.Spec.Batch

namespace Verif.Batch
open BatchSpec

variable {α γ S : Type}

theorem mapM_ok' {A B E : Type} (f : A → Except E B) (g : A → B) (l : List A) (h : ∀ a ∈ l, f a = .ok (g a)) :
    l.mapM f = .ok (l.map g) := by
  induction l with
  | nil => rfl
  | cons a l ih =>
    rw [List.mapM_cons, h a (by simp), ih (fun x hx => h x (List.mem_cons_of_mem _ hx))]
    rfl

theorem dynSlice_ok {x : List α} {start len : Nat} (h : start + len ≤ x.length) :
    dynSlice start len x = .ok ((x.drop start).take len) := by
  unfold dynSlice
  rw [if_neg (by omega), Nat.min_eq_left (by omega)]

/-- The batches of one leaf. -/
def leafBatches (size nb : Nat) (x : List α) : List (List α) :=
  (List.range nb).map fun i => (x.drop (i * size)).take size

theorem leafBatches_flatten (size nb : Nat) (x : List α) : (leafBatches size nb x).flatten = x.take (nb * size) := by
  unfold leafBatches
  induction nb with
  | zero => simp
  | succ nb ih =>
    rw [List.range_succ, List.map_append, List.flatten_append, ih]
    simp only [List.map_cons, List.map_nil, List.flatten_cons, List.flatten_nil, List.append_nil]
    rw [Nat.succ_mul, List.take_add]

theorem mul_div_le' (n size i : Nat) (hi : i < n / size) : i * size + size ≤ n := by
  have h1 : (i + 1) * size ≤ n / size * size := Nat.mul_le_mul_right _ hi
  have h2 : n / size * size ≤ n := Nat.div_mul_le_self n size
  rw [Nat.succ_mul] at h1
  omega

theorem div_mod (n size : Nat) : n / size * size + n % size = n := by
  rw [Nat.mul_comm]; exact Nat.div_add_mod n size

theorem split_ok {n size : Nat} {X : Leaves α} (hX : Uniform n X) (hs : 0 < size) (hle : size ≤ n) :
    pytreeSplit X size = .ok (X.map (leafBatches size (n / size)),
      if n % size > 0 then some (X.map fun x => x.drop (n / size * size)) else none) := by
  obtain ⟨hne, hlen⟩ := hX
  have hn : numSamples X = .ok n := by
    cases X with
    | nil => exact absurd rfl hne
    | cons x X => simp [numSamples, hlen x (by simp)]
  have hany : X.any (fun x => x.length < size) = false := by
    rw [List.any_eq_false]
    intro x hx
    simp [hlen x hx, hle]
  have hparts : (X.mapM fun x => (List.range (n / size)).mapM fun i => dynSlice (i * size) size x) =
      .ok (X.map (leafBatches size (n / size))) := by
    refine mapM_ok' _ _ _ fun x hx => ?_
    refine mapM_ok' _ _ _ fun i hi => ?_
    rw [List.mem_range] at hi
    exact dynSlice_ok (by rw [hlen x hx]; exact mul_div_le' n size i hi)
  have hdm := div_mod n size
  have hrem : batchLeaves X size (n / size) (some (n % size)) = .ok (X.map fun x => x.drop (n / size * size)) := by
    unfold batchLeaves
    refine mapM_ok' _ _ _ fun x hx => ?_
    simp only [Option.getD_some]
    rw [dynSlice_ok (by rw [hlen x hx]; omega)]
    rw [List.take_of_length_le]
    rw [List.length_drop, hlen x hx]; omega
  unfold pytreeSplit
  rw [hn]
  simp only [bind, Except.bind, pure, Except.pure]
  rw [if_neg (by omega)]
  simp only [hany, Bool.false_eq_true, if_false, hparts]
  split <;> simp [hrem]

theorem leaf_rejoin {n size : Nat} (x : List α) (hx : x.length = n) :
    (leafBatches size (n / size) x).flatten ++ x.drop (n / size * size) = x := by
  rw [leafBatches_flatten, List.take_append_drop]

theorem rem_empty {n size : Nat} {x : List α} (hx : x.length = n) (h : ¬ n % size > 0) : x.drop (n / size * size) = [] := by
  have := div_mod n size
  rw [List.drop_eq_nil_iff, hx]; omega

theorem concatenate_ok {w : Nat} {ts : List (Leaves α)} (hne : ts ≠ []) (hw : ∀ t ∈ ts, t.length = w) :
    ∃ out, concatenate ts = .ok out ∧ out.length = w ∧ JoinOf ts out := by
  cases ts with
  | nil => exact absurd rfl hne
  | cons t rest =>
    have ht : t.length = w := hw t (by simp)
    refine ⟨(List.range t.length).map fun k => ((t :: rest).map fun u => (u[k]?).getD []).flatten, ?_, by simp [ht], ?_, ?_⟩
    · unfold concatenate
      simp only
      rw [if_neg]
      rw [List.any_eq_true]
      rintro ⟨u, hu, hb⟩
      simp [hw u (List.mem_cons_of_mem _ hu), ht] at hb
    · intro b hb
      simp only [List.length_map, List.length_range]
      rw [hw b hb, ht]
    · intro k x hx
      rw [List.getElem?_map, Option.map_eq_some_iff] at hx
      obtain ⟨a, ha, rfl⟩ := hx
      obtain ⟨hl, rfl⟩ := List.getElem?_eq_some_iff.1 ha
      simp

theorem join_unique {ts : List (Leaves α)} {X Y : Leaves α} (hl : X.length = Y.length) (h : JoinOf ts X)
    (h' : JoinOf ts Y) : X = Y := by
  refine List.ext_getElem hl fun k h1 h2 => ?_
  rw [h.2 k _ (List.getElem?_eq_getElem h1), ← h'.2 k _ (List.getElem?_eq_getElem h2)]

theorem join_append {ys zs : List (Leaves α)} {Y Z out : Leaves α} (h : JoinOf [Y, Z] out) (hy : JoinOf ys Y)
    (hz : JoinOf zs Z) : JoinOf (ys ++ zs) out := by
  have lY : Y.length = out.length := h.1 Y (by simp)
  have lZ : Z.length = out.length := h.1 Z (by simp)
  refine ⟨?_, ?_⟩
  · intro b hb
    rcases List.mem_append.1 hb with hb | hb
    · rw [hy.1 b hb, lY]
    · rw [hz.1 b hb, lZ]
  · intro k x hx
    have hk : k < out.length := (List.getElem?_eq_some_iff.1 hx).1
    rw [h.2 k x hx, List.map_append, List.flatten_append,
      ← hy.2 k _ (List.getElem?_eq_getElem (by omega)), ← hz.2 k _ (List.getElem?_eq_getElem (by omega))]
    simp [lY, lZ, hk]

theorem join_single {X Y : Leaves α} (h : JoinOf [Y] X) : X = Y := by
  have hl := h.1 Y (by simp)
  refine List.ext_getElem hl.symm fun k h1 h2 => ?_
  rw [h.2 k _ (List.getElem?_eq_getElem h1)]
  simp [h2]

theorem join_self (X : Leaves α) : JoinOf [X] X := by
  refine ⟨by simp, fun k x hx => by simp [hx]⟩

theorem runs_runBatches (f : Leaves α → S → Leaves γ × S) (bs : List (Leaves α)) (s : S) :
    Runs f bs s (runBatches f bs s).1 (runBatches f bs s).2 := by
  induction bs generalizing s with
  | nil => exact .nil s
  | cons b bs ih => exact .cons (ih _)

theorem _root_.Verif.BatchSpec.Runs.append {f : Leaves α → S → Leaves γ × S} {bs cs : List (Leaves α)} {s s' s'' : S} {ys zs : List (Leaves γ)}
    (h : Runs f bs s ys s') (h' : Runs f cs s' zs s'') : Runs f (bs ++ cs) s (ys ++ zs) s'' := by
  induction h with
  | nil => exact h'
  | cons _ ih => exact .cons (ih h')

theorem _root_.Verif.BatchSpec.Runs.width {f : Leaves α → S → Leaves γ × S} (hf : StaticWidth f) {w : Nat} {bs : List (Leaves α)} {s s' : S}
    {ys : List (Leaves γ)} (hb : ∀ b ∈ bs, b.length = w) (X : Leaves α) (s0 : S) (hX : X.length = w)
    (h : Runs f bs s ys s') : ∀ y ∈ ys, y.length = (f X s0).1.length := by
  induction h with
  | nil => simp
  | @cons b bs s ys s' h ih =>
    intro y hy
    rcases List.mem_cons.1 hy with rfl | hy
    · exact hf _ _ _ _ (by rw [hb b (by simp), hX])
    · exact ih (fun b hb' => hb b (List.mem_cons_of_mem _ hb')) y hy

theorem _root_.Verif.BatchSpec.Runs.length {f : Leaves α → S → Leaves γ × S} {bs : List (Leaves α)} {s s' : S} {ys : List (Leaves γ)}
    (h : Runs f bs s ys s') : ys.length = bs.length := by
  induction h with
  | nil => rfl
  | cons _ ih => simp [ih]

/-- The full batches as a list of PyTrees. -/
def fullBatches (size nb : Nat) (X : Leaves α) : List (Leaves α) :=
  (List.range nb).map fun j => X.map fun x => (x.drop (j * size)).take size

theorem batches_eq (size nb : Nat) (X : Leaves α) :
    ((List.range nb).map fun j => (X.map (leafBatches size nb)).map fun p => (p[j]?).getD []) = fullBatches size nb X := by
  unfold fullBatches
  refine List.map_congr_left fun j hj => ?_
  rw [List.mem_range] at hj
  rw [List.map_map]
  refine List.map_congr_left fun x _ => ?_
  simp [leafBatches, hj]

theorem join_full (size nb : Nat) (X : Leaves α) : JoinOf (fullBatches size nb X) (X.map fun x => x.take (nb * size)) := by
  refine ⟨?_, ?_⟩
  · intro b hb
    obtain ⟨j, -, rfl⟩ := List.mem_map.1 hb
    simp
  · intro k x hx
    rw [List.getElem?_map, Option.map_eq_some_iff] at hx
    obtain ⟨x', hx', rfl⟩ := hx
    rw [← leafBatches_flatten]
    congr 1
    unfold leafBatches fullBatches
    rw [List.map_map]
    refine List.map_congr_left fun j _ => ?_
    simp [hx']

/-- One-sample batches of the remainder. -/
def singles (r : Nat) (R : Leaves α) : List (Leaves α) := (List.range r).map fun j => R.map fun x => (x[j]?).toList

theorem flatten_singles (x : List α) : ((List.range x.length).map fun j => (x[j]?).toList).flatten = x := by
  induction x with
  | nil => rfl
  | cons a x ih =>
    rw [List.length_cons, List.range_succ_eq_map, List.map_cons, List.map_map, List.flatten_cons]
    have : (List.map ((fun j => ((a :: x)[j]?).toList) ∘ Nat.succ) (List.range x.length)) =
        (List.range x.length).map fun j => (x[j]?).toList := List.map_congr_left fun j _ => by simp
    rw [this, ih]
    simp

theorem join_singles {r : Nat} {R : Leaves α} (hR : ∀ x ∈ R, x.length = r) : JoinOf (singles r R) R := by
  refine ⟨?_, ?_⟩
  · intro b hb
    obtain ⟨j, -, rfl⟩ := List.mem_map.1 hb
    simp
  · intro k x hx
    have hl := hR x (List.mem_of_getElem? hx)
    conv => lhs; rw [← flatten_singles x]
    congr 1
    unfold singles
    rw [List.map_map, hl]
    refine List.map_congr_left fun j _ => ?_
    simp [hx]

theorem uniform_map {n : Nat} {X : Leaves α} (hX : Uniform n X) (g : List α → List γ) {k : Nat}
    (h : ∀ x ∈ X, (g x).length = k) : Uniform k (X.map g) := by
  refine ⟨by simp [hX.1], ?_⟩
  intro y hy
  obtain ⟨x, hx, rfl⟩ := List.mem_map.1 hy
  exact h x hx

theorem join_take_drop (X : Leaves α) (k : Nat) : JoinOf [X.map fun x => x.take k, X.map fun x => x.drop k] X := by
  refine ⟨by simp, fun i x hx => ?_⟩
  simp [hx]

/-- What automatic batching does, in general. -/
theorem autobatch_run (isScalar : α → Bool) {f : Leaves α → S → Leaves γ × S} (hf : StaticWidth f) {n m : Nat} (hm : 0 < m)
    (avoid : Bool) {X : Leaves α} (hX : Uniform n X) (hsc : avoid = true → ∀ x ∈ X, ∀ a ∈ x, isScalar a = false) (s : S) :
    ∃ bs ys s' out, autobatch isScalar f (some m) avoid X s = .ok (out, s') ∧ JoinOf bs X ∧ Runs f bs s ys s' ∧
      JoinOf ys out ∧ bs ≠ [] ∧ (∀ b ∈ bs, ∃ k, k ≤ m ∧ (0 < n → 0 < k) ∧ Uniform k b) ∧
      out.length = (f X s).1.length := by
  have hn : numSamples X = .ok n := by
    obtain ⟨hne, hlen⟩ := hX
    cases X with
    | nil => exact absurd rfl hne
    | cons x X => simp [numSamples, hlen x (by simp)]
  by_cases hle : n ≤ m
  · refine ⟨[X], [(f X s).1], (f X s).2, (f X s).1, ?_, join_self X, .cons (.nil _), join_self _, by simp, ?_, rfl⟩
    · unfold autobatch
      simp only [hn, bind, Except.bind, pure, Except.pure]
      rw [if_pos hle]
    · intro b hb
      rw [List.mem_singleton] at hb
      subst hb
      exact ⟨n, hle, id, hX⟩
  · have hdm := div_mod n m
    have hnb : 0 < n / m := Nat.div_pos (by omega) hm
    have hsplit := split_ok hX hm (by omega : m ≤ n)
    have hlen := hX.2
    -- the full batches
    have hfb : ∀ b ∈ fullBatches m (n / m) X, b.length = X.length ∧ Uniform m b := by
      intro b hb
      obtain ⟨j, hj, rfl⟩ := List.mem_map.1 hb
      refine ⟨by simp, uniform_map hX _ fun x hx => ?_⟩
      have := mul_div_le' n m j (List.mem_range.1 hj)
      rw [List.length_take, List.length_drop, hlen x hx]; omega
    have hruns := runs_runBatches f (fullBatches m (n / m) X) s
    generalize hr : runBatches f (fullBatches m (n / m) X) s = rr at hruns
    obtain ⟨outs, s1⟩ := rr
    simp only at hruns
    have hne : outs ≠ [] := by
      intro e
      have := hruns.length
      rw [e] at this
      simp [fullBatches] at this
      omega
    obtain ⟨out, ho, hol, hoj⟩ := concatenate_ok hne (hruns.width hf (fun b hb => (hfb b hb).1) X s rfl)
    by_cases hrem : n % m > 0
    · rw [if_pos hrem] at hsplit
      have hRu : Uniform (n % m) (X.map fun x => x.drop (n / m * m)) := uniform_map hX _ fun x hx => by
        rw [List.length_drop, hlen x hx]; omega
      have hmod : n % m < m := Nat.mod_lt n hm
      cases avoid with
      | true =>
        have hnosc : (X.map fun x => x.drop (n / m * m)).any (fun x => x.any isScalar) = false := by
          rw [List.any_eq_false]
          intro y hy
          obtain ⟨x, hx, rfl⟩ := List.mem_map.1 hy
          rw [Bool.not_eq_true, List.any_eq_false]
          intro a ha
          rw [Bool.not_eq_true]
          exact hsc rfl x hx a (List.mem_of_mem_drop ha)
        have hruns2 := runs_runBatches f (singles (n % m) (X.map fun x => x.drop (n / m * m))) s1
        generalize hr2 : runBatches f (singles (n % m) (X.map fun x => x.drop (n / m * m))) s1 = rr2 at hruns2
        obtain ⟨outs2, s2⟩ := rr2
        simp only at hruns2
        have hsl : ∀ b ∈ singles (n % m) (X.map fun x => x.drop (n / m * m)), b.length = X.length ∧ Uniform 1 b := by
          intro b hb
          obtain ⟨j, hj, rfl⟩ := List.mem_map.1 hb
          refine ⟨by simp, uniform_map hRu _ fun x hx => ?_⟩
          have hlx := hRu.2 x hx
          rw [List.mem_range] at hj
          have : j < x.length := by omega
          simp [this]
        have hne2 : outs2 ≠ [] := by
          intro e
          have := hruns2.length
          rw [e] at this
          simp [singles] at this
          omega
        obtain ⟨out2, ho2, hol2, hoj2⟩ := concatenate_ok hne2 (hruns2.width hf (fun b hb => (hsl b hb).1) X s rfl)
        obtain ⟨out3, ho3, hol3, hoj3⟩ := concatenate_ok (ts := [out, out2]) (by simp)
          (w := (f X s).1.length) (by simp [hol, hol2])
        refine ⟨_, _, s2, out3, ?_, join_append (join_take_drop X (n / m * m)) (join_full m (n / m) X) (join_singles hRu.2),
          hruns.append hruns2, join_append hoj3 hoj hoj2, ?_, ?_, hol3⟩
        · unfold autobatch
          simp only [hn, bind, Except.bind, pure, Except.pure]
          rw [if_neg hle, if_neg (by omega)]
          simp only [hsplit, batches_eq, hr, ho, if_true, hnosc, Bool.false_eq_true, if_false]
          unfold singles at hr2
          simp only [hr2, ho2, ho3]
        · have : fullBatches m (n / m) X ≠ [] := by
            intro e
            have := congrArg List.length e
            simp [fullBatches] at this
            omega
          simp [this]
        · intro b hb
          rcases List.mem_append.1 hb with hb | hb
          · exact ⟨m, Nat.le_refl _, fun _ => hm, (hfb b hb).2⟩
          · exact ⟨1, hm, fun _ => Nat.one_pos, (hsl b hb).2⟩
      | false =>
        generalize hR : (X.map fun x => x.drop (n / m * m)) = R at hsplit hRu
        have hRl : R.length = X.length := by rw [← hR]; simp
        obtain ⟨out3, ho3, hol3, hoj3⟩ := concatenate_ok (ts := [out, (f R s1).1]) (by simp)
          (w := (f X s).1.length) (by simp [hol, hf R X s1 s hRl])
        refine ⟨fullBatches m (n / m) X ++ [R], outs ++ [(f R s1).1], (f R s1).2, out3, ?_,
          join_append (join_take_drop X (n / m * m)) (join_full m (n / m) X) (by rw [hR]; exact join_self R),
          hruns.append (.cons (.nil _)), join_append hoj3 hoj (join_self _), by simp, ?_, hol3⟩
        · unfold autobatch
          simp only [hn, bind, Except.bind, pure, Except.pure]
          rw [if_neg hle, if_neg (by omega)]
          simp only [hsplit, batches_eq, hr, ho, Bool.false_eq_true, if_false, ho3]
        · intro b hb
          rcases List.mem_append.1 hb with hb | hb
          · exact ⟨m, Nat.le_refl _, fun _ => hm, (hfb b hb).2⟩
          · rw [List.mem_singleton] at hb
            subst hb
            exact ⟨n % m, by omega, fun _ => hrem, hRu⟩
    · rw [if_neg hrem] at hsplit
      refine ⟨_, _, s1, out, ?_, ?_, hruns, hoj, ?_, ?_, hol⟩
      · unfold autobatch
        simp only [hn, bind, Except.bind, pure, Except.pure]
        rw [if_neg hle, if_neg (by omega)]
        simp only [hsplit, batches_eq, hr, ho]
      · have hj := join_full m (n / m) X
        have : (X.map fun x => x.take (n / m * m)) = X := by
          conv => rhs; rw [← List.map_id X]
          refine List.map_congr_left fun x hx => ?_
          rw [List.take_of_length_le (by rw [hlen x hx]; omega)]; rfl
        rwa [this] at hj
      · intro e
        have := congrArg List.length e
        simp [fullBatches] at this
        omega
      · intro b hb
        exact ⟨m, Nat.le_refl _, fun _ => hm, (hfb b hb).2⟩

theorem runs_state {f : Leaves α → S → Leaves γ × S} (hf : PerSample f) {bs : List (Leaves α)} {s s' : S}
    {ys : List (Leaves γ)} (h : Runs f bs s ys s') : s' = s := by
  induction h with
  | nil => rfl
  | cons _ ih => rw [ih, hf.state]

theorem exists_join {w : Nat} {ts : List (Leaves α)} (hne : ts ≠ []) (hw : ∀ t ∈ ts, t.length = w) :
    ∃ out, out.length = w ∧ JoinOf ts out := by
  obtain ⟨out, -, h1, h2⟩ := concatenate_ok hne hw
  exact ⟨out, h1, h2⟩

theorem join_uniform {k : Nat → Prop} {bs : List (Leaves α)} {X : Leaves α} (hne : bs ≠ [])
    (hb : ∀ b ∈ bs, ∃ n, 0 < n ∧ Uniform n b) (hX : JoinOf bs X) : ∃ n, 0 < n ∧ Uniform n X := by
  have h0 : ∃ n, ∀ (k : Nat) (x : List α), X[k]? = some x → x.length = n ∧ 0 < n := by
    obtain ⟨hl, hj⟩ := hX
    refine ⟨(bs.map fun b => ((b[0]?).getD []).length).sum, fun k x hx => ?_⟩
    have hk := (List.getElem?_eq_some_iff.1 hx).1
    rw [hj k x hx, List.length_flatten, List.map_map]
    have e : (bs.map (List.length ∘ fun b => (b[k]?).getD [])) = bs.map fun b => ((b[0]?).getD []).length := by
      refine List.map_congr_left fun b hbm => ?_
      obtain ⟨n, -, -, hn⟩ := hb b hbm
      have hbl := hl b hbm
      have h1 : b[k]? = some b[k] := List.getElem?_eq_getElem (by omega)
      have h2 : b[0]? = some b[0] := List.getElem?_eq_getElem (by omega)
      simp only [Function.comp, h1, h2, Option.getD_some]
      rw [hn _ (List.getElem_mem _), hn _ (List.getElem_mem _)]
    rw [e]
    refine ⟨rfl, ?_⟩
    cases bs with
    | nil => exact absurd rfl hne
    | cons b bs =>
      obtain ⟨n, hp, hn0, hn⟩ := hb b (by simp)
      have hbl := hl b (by simp)
      have h2 : b[0]? = some b[0] := List.getElem?_eq_getElem (by omega)
      have := hn _ (List.getElem_mem (l := b) (n := 0) (by omega))
      simp only [List.map_cons, List.sum_cons, h2, Option.getD_some, this]
      omega
  obtain ⟨n, hn⟩ := h0
  have hXne : X ≠ [] := by
    cases bs with
    | nil => exact absurd rfl hne
    | cons b bs =>
      obtain ⟨n, hp, hn0, hn⟩ := hb b (by simp)
      have hbl := hX.1 b (by simp)
      intro e
      rw [e] at hbl
      exact hn0 (List.length_eq_zero_iff.1 hbl)
  have hall : ∀ x ∈ X, x.length = n ∧ 0 < n := by
    intro x hx
    obtain ⟨k, hk⟩ := List.getElem?_of_mem hx
    exact hn k x hk
  obtain ⟨x, hx⟩ := List.exists_mem_of_ne_nil _ hXne
  exact ⟨n, (hall x hx).2, hXne, fun y hy => (hall y hy).1⟩

/-- Per-sample functions commute with joining any number of batches. -/
theorem perSample_join {f : Leaves α → S → Leaves γ × S} (hf : PerSample f) {bs : List (Leaves α)}
    {s s' : S} {ys : List (Leaves γ)} {X : Leaves α} (hne : bs ≠ []) (hb : ∀ b ∈ bs, ∃ n, 0 < n ∧ Uniform n b)
    (h : Runs f bs s ys s') (hX : JoinOf bs X) : JoinOf ys (f X s).1 := by
  induction bs generalizing s s' ys X with
  | nil => exact absurd rfl hne
  | cons b bs ih =>
    cases h with
    | @cons _ _ _ ys _ h =>
    rw [hf.state] at h
    by_cases hbs : bs = []
    · subst hbs
      cases h
      rw [join_single hX]
      exact join_self _
    · obtain ⟨Z, hZl, hZ⟩ := exists_join hbs (w := X.length) (fun t ht => hX.1 t (List.mem_cons_of_mem _ ht))
      have hb' := fun c hc => hb c (List.mem_cons_of_mem _ hc)
      have hXZ : JoinOf [b, Z] X := by
        refine ⟨?_, ?_⟩
        · intro c hc
          simp only [List.mem_cons, List.not_mem_nil, or_false] at hc
          rcases hc with rfl | rfl
          · exact hX.1 _ (by simp)
          · exact hZl
        · intro k x hx
          have hk := (List.getElem?_eq_some_iff.1 hx).1
          rw [hX.2 k x hx, List.map_cons, List.flatten_cons, ← hZ.2 k _ (List.getElem?_eq_getElem (by omega))]
          have h1 : Z[k]? = some Z[k] := List.getElem?_eq_getElem (by omega)
          simp [h1]
      obtain ⟨n, hn, hnu⟩ := hb b (by simp)
      obtain ⟨m, hm, hmu⟩ := join_uniform (k := fun _ => True) hbs hb' hZ
      have hj := hf.join X b Z s n m hn hm hnu hmu hXZ
      have := ih hbs hb' h hZ
      exact join_append (ys := [(f b s).1]) hj (join_self _) this

end Verif.Batch
