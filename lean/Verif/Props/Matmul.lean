import Verif.Lemmas.MatmulTotal

/-! # Properties of `MatMul` -/

namespace Verif.Props
open Tree Einsum EinsumSpec MatmulSpec Matmul
open ForwardSpec (At KeysOk)

variable {K : Type}

theorem lastIndex_matrix {full : List (List Nat)} (h : (full.getLastD []).length = 2) : lastIndex 0 full = [letters.getD full.length 'a'] := by
  rw [lastIndex, if_pos h, Nat.zero_add]

theorem lastIndex_vector {full : List (List Nat)} (h : (full.getLastD []).length ≠ 2) : lastIndex 0 full = [] := by
  rw [lastIndex, if_neg h]

theorem low_letter : ∀ n, 1 ≤ n → n ≤ 25 → 'a' ≤ letters.getD n 'a' ∧ letters.getD n 'a' ≠ 'a' := by
  intro n h1 h2
  have : ∀ n ∈ List.range 26, 1 ≤ n → 'a' ≤ letters.getD n 'a' ∧ letters.getD n 'a' ≠ 'a' := by decide +kernel
  exact this n (List.mem_range.2 (by omega)) h1

theorem high_letter : ∀ n, 26 ≤ n → n ≤ 51 → letters.getD n 'a' ≤ 'a' ∧ letters.getD n 'a' ≠ 'a' := by
  intro n h1 h2
  have : ∀ n ∈ List.range 52, 26 ≤ n → letters.getD n 'a' ≤ 'a' ∧ letters.getD n 'a' ≠ 'a' := by decide +kernel
  exact this n (List.mem_range.2 (by omega)) h1

/-- The requested output shape allows the shape of the product. -/
def OutOk : OutShape → List Nat → Prop
  | .none, _ => True
  | .int n, s => s.head? = some n
  | .dims ds, s => List.Forall₂ (fun d n => d = Option.none ∨ d = some n) ds s

theorem checkOut_ok {out : OutShape} {full : List (List Nat)} (hch : Chain full) (h : checkOut out full = .ok ()) : OutOk out (prodShape full) := by
  have hne := chain_ne hch
  obtain ⟨x, r, rfl⟩ := List.exists_cons_of_ne_nil hne
  have hx := chain_rank hch x (by simp)
  have hz := chain_rank hch _ (List.getLast_mem hne)
  have hlast : (x :: r).getLastD [] = (x :: r).getLast hne := by rw [List.getLastD_eq_getLast?, List.getLast?_eq_some_getLast hne]; rfl
  rw [prodShape, hlast]
  unfold checkOut at h
  rw [List.getLast?_eq_some_getLast hne] at h
  generalize (x :: r).getLast hne = z at hz h
  cases x with
  | nil => simp at hx
  | cons a x =>
    have hinf : (if z.length = 2 then [z.getD 1 0] else []) = z.drop 1 := by
      rcases hz with hz | hz
      · obtain ⟨b, rfl⟩ := List.length_eq_one_iff.1 hz; rfl
      · obtain ⟨b, d, rfl⟩ := List.length_eq_two.1 hz; rfl
    simp only [List.head?_cons, hinf] at h
    simp only [List.headD_cons, List.take_succ_cons, List.take_zero, List.singleton_append]
    cases out with
    | none => trivial
    | int n =>
      by_cases e : n = a
      · subst e; rfl
      · simp [e] at h
    | dims ds =>
      simp only [OutOk]
      by_cases h1 : ds.length = (a :: z.drop 1).length
      · simp only [h1, ne_eq, not_true, if_false] at h
        by_cases h2 : ((ds.zip (a :: z.drop 1)).all fun p => decide (p.1 = Option.none) || decide (p.1 = some p.2)) = true
        · rw [List.forall₂_iff_zip]
          refine ⟨h1, fun {u v} huv => ?_⟩
          simpa using List.all_eq_true.1 h2 _ huv
        · rw [if_neg h2] at h; cases h
      · simp only [ne_eq, h1, not_false_iff, if_true] at h; cases h

/-- C63: once compiled, with at most 25 factors (at most 50 if the last one is a vector), the module multiplies, in every sample, the factors in the order the user asked for: by
default the parameter and then the arrays in their standard order, otherwise the arrays at the given paths with the parameter where `".."` stands. Neighbouring factors have a
common size, a vector can only be the last factor, the declared shape is that of the product, and it is one that the requested output shape allows. -/
theorem C63_matmul [CommSemiring K] {cfg : Cfg} {p : Option (NArr K)} {shapes : Tree (List Nat)} {draw : Nat → List Nat → K} {c : Params K × Str} (hk : KeysOk shapes)
    (hok : OrderOk cfg.sep cfg.pathOrder shapes) (hne : jaxLeaves shapes ≠ []) (h : Matmul.compile draw cfg p shapes = .ok c)
    (hn : (jaxLeaves shapes).length ≤ 24 ∨ ((jaxLeaves shapes).length ≤ 49 ∧
      ∀ full, operands cfg.sep cfg.pathOrder (c.1.arrays.head?.map NArr.shape) shapes = some full → (full.getLastD []).length = 1)) :
    ∃ full, operands cfg.sep cfg.pathOrder (c.1.arrays.head?.map NArr.shape) shapes = some full ∧ Chain full ∧ Matmul.outputShape cfg p shapes = .ok (prodShape full) ∧ OutOk cfg.outShape (prodShape full) ∧
      (∀ x, p = some x → c.1.arrays = [x]) ∧ (p = Option.none → cfg.trainable = false → c.1.arrays = []) ∧
      ∀ B (data : Tree (NArr K)), KeysOk data → sameStruct data.norm shapes.norm = true → (jaxLeaves data).map NArr.shape = (jaxLeaves shapes).map (B :: ·) →
        ∃ y, Matmul.call c shapes data = .ok y ∧ y.shape = B :: prodShape full ∧ ∀ b, ∃ O, operands cfg.sep cfg.pathOrder c.1.arrays.head? (map (sampleOf b) data) = some O ∧
          ∀ i, i.length = (prodShape full).length → y.val (b :: i) = prodEntry O i := by
  obtain ⟨full, cs, out, f, h1, h2, h3, h4, h5, h6, hnumE, hone, hchk, h7, h8, h9, -, h10⟩ := core hk hok hne (by omega) h
  have hps : prodShape full = f 'a' :: (lastIndex 0 full).map f := by
    conv_lhs => rw [h3]
    exact chain_prodShape
  have hfpos : 1 ≤ full.length := by
    cases full with
    | nil => simp at h2
    | cons _ _ => simp
  have hnum : full.length ≤ (jaxLeaves shapes).length + 1 := by
    omega
  have hout : out = 'a' :: lastIndex 0 full := by
    by_cases hl : (full.getLastD []).length = 2
    · rw [lastIndex_matrix hl] at h5 ⊢
      have hlt := low_letter full.length hfpos (by
        rcases hn with hn | ⟨_, hn⟩
        · omega
        · have := hn full h1; omega)
      exact h5.eq_of_pairwise (fun a b _ _ h1 h2 => Char.le_antisymm h1 h2) h4 (by simpa using hlt.1)
    · rw [lastIndex_vector hl] at h5 ⊢
      exact List.perm_singleton.1 h5
  have hmap : out.map f = prodShape full := by rw [hout, hps]; rfl
  have hE : (lastIndex 0 full).length ≤ 1 := by
    rw [lastIndex]
    split <;> simp
  have hch : Chain full := by
    rw [h3]
    exact chain_shapes hE
  refine ⟨full, h1, hch, by rw [h7, hmap], checkOut_ok hch hchk, h8, h9, ?_⟩
  · intro B data hkd hsd hdsh
    obtain ⟨y, hy1, hy2, hy3⟩ := h10 B data hkd hsd hdsh
    refine ⟨y, hy1, by rw [hy2, hmap], fun b => ?_⟩
    obtain ⟨O, hO1, hO2⟩ := hy3 b
    refine ⟨O, hO1, fun i hi => ?_⟩
    rw [hps] at hi
    rw [hO2 i (by rw [hi, hout]; simp), hout]
    congr 1
    by_cases hl : (full.getLastD []).length = 2
    · have hlt := low_letter full.length hfpos (by
        rcases hn with hn | ⟨_, hn⟩
        · omega
        · have := hn full h1; omega)
      rw [lastIndex_matrix hl] at hi ⊢
      obtain ⟨r, k, rfl⟩ := List.length_eq_two.1 (show i.length = 2 from hi)
      simp only [assign, List.map_cons, List.map_nil, Function.update_self, Function.update_of_ne hlt.2]
    · rw [lastIndex_vector hl] at hi ⊢
      obtain ⟨r, rfl⟩ := List.length_eq_one_iff.1 (show i.length = 1 from hi)
      simp [assign]

/-- The requested output shape determines the shape of a new parameter at place `k` of the product with these factors: as the first factor it is a matrix and the number of rows must
be given; as the last factor it is a matrix if both sizes of the output are given, and a vector if none or one number is given; in the middle it is a matrix. -/
def Determined (out : OutShape) (full : List (List Nat)) (k : Nat) : Prop :=
  if k = 0 then 1 < full.length ∧ ((∃ n, out = .int n) ∨ ∃ n l, out = .dims (some n :: l))
  else if k + 1 = full.length then
    ((out = .none ∨ ∃ n, out = .int n) ∧ (full.getLastD []).length = 1) ∨ ((∃ m n, out = .dims [some m, some n]) ∧ (full.getLastD []).length = 2)
  else True

theorem dimAt_full {sl : List (Option (List Nat))} {j c : Nat} {x : List Nat} {d : Nat} (h : sl[j]? = some (some x)) (hc : x[c]? = some d) : dimAt sl j c = .ok d := by
  unfold dimAt
  rw [h]
  simp only [hc]

theorem paramShape_full {out : OutShape} {sl : List (Option (List Nat))} {full : List (List Nat)} {k : Nat} {sh : List Nat} (hl : sl.length = full.length)
    (hs : ∀ j, j ≠ k → j < full.length → sl[j]? = some full[j]?) (hk : full[k]? = some sh) (hch : Chain full) (hout : OutOk out (prodShape full)) (hd : Determined out full k) :
    paramShape out sl k = .ok sh := by
  have hkl : k < full.length := (List.getElem?_eq_some_iff.1 hk).1
  have hget : ∀ j, j < full.length → ∃ x, full[j]? = some x ∧ (x.length = 1 ∨ x.length = 2) := fun j hj =>
    ⟨full[j], List.getElem?_eq_getElem hj, chain_rank hch _ (List.getElem_mem hj)⟩
  have h0 : ∀ x : List Nat, (x.length = 1 ∨ x.length = 2) → x[0]? = some (x.getD 0 0) := by
    intro x hx
    rw [List.getD_eq_getElem?_getD, List.getElem?_eq_getElem (by omega)]
    rfl
  have h1 : ∀ x : List Nat, x.length = 2 → x[1]? = some (x.getD 1 0) := by
    intro x hx
    rw [List.getD_eq_getElem?_getD, List.getElem?_eq_getElem (by omega)]
    rfl
  have hne := chain_ne hch
  have hhead : ∀ x, full[0]? = some x → prodShape full = x.getD 0 0 :: (full.getLastD []).drop 1 := by
    intro x hx
    cases full with
    | nil => cases hx
    | cons y r =>
      cases hx
      have := chain_rank hch x (by simp)
      rw [prodShape, List.headD_cons]
      cases x with
      | nil => simp at this
      | cons a x => rfl
  have hlast : ∀ x, full[full.length - 1]? = some x → full.getLastD [] = x := by
    intro x hx
    rw [List.getLastD_eq_getLast?, List.getLast?_eq_getElem?, hx]
    rfl
  unfold paramShape
  unfold Determined at hd
  split at hd
  · next hk0 =>
    subst hk0
    obtain ⟨hlt, hd⟩ := hd
    rw [if_pos rfl]
    obtain ⟨x, hx, hx2⟩ := hget 1 hlt
    have hdim : dimAt sl 1 0 = .ok (x.getD 0 0) := dimAt_full (by rw [hs 1 (by omega) hlt, hx]) (h0 x hx2)
    obtain ⟨hr, hc⟩ := chain_get hch hk hx
    have hsh : sh = [sh.getD 0 0, x.getD 0 0] := by
      obtain ⟨a, b, rfl⟩ := List.length_eq_two.1 hr
      rw [← hc]
      rfl
    rw [hhead sh hk] at hout
    rcases hd with ⟨n, rfl⟩ | ⟨n, l, rfl⟩
    · simp only [OutOk, List.head?_cons, Option.some.injEq] at hout
      simp only [hdim, ← hout]
      exact congrArg Except.ok hsh.symm
    · cases hout with
      | cons h _ =>
        rcases h with h | h
        · cases h
        · cases h
          simp only [hdim]
          exact congrArg Except.ok hsh.symm
  · next hk0 =>
    rw [if_neg hk0]
    obtain ⟨y, hy, hy2⟩ := hget 0 (by omega)
    have hdim0 : dimAt sl 0 0 = .ok (y.getD 0 0) := dimAt_full (by rw [hs 0 (by omega) (by omega), hy]) (h0 y hy2)
    obtain ⟨z, hz, hz2⟩ := hget (k - 1) (by omega)
    have hkk : k - 1 + 1 = k := by omega
    have hzc := chain_get hch hz (t := sh) (by rw [hkk]; exact hk)
    have hdimz : dimAt sl (k - 1) 1 = .ok (sh.getD 0 0) := by
      rw [← hzc.2]
      exact dimAt_full (by rw [hs _ (by omega) (by omega), hz]) (h1 z hzc.1)
    rw [hhead y hy] at hout
    split at hd
    · next hkl' =>
      rw [if_pos (by omega), show sl.length - 2 = k - 1 by omega]
      rw [hlast sh (by rw [← hk]; congr 1; omega)] at hd hout
      rcases hd with ⟨hd, hr⟩ | ⟨⟨m, n, rfl⟩, hr⟩
      · obtain ⟨a, rfl⟩ := List.length_eq_one_iff.1 hr
        rcases hd with rfl | ⟨n, rfl⟩
        · simp only [hdimz]
          rfl
        · simp only [OutOk, List.head?_cons, Option.some.injEq] at hout
          simp only [hdim0, hdimz, hout, ne_eq, not_true, if_false]
          rfl
      · obtain ⟨a, b, rfl⟩ := List.length_eq_two.1 hr
        cases hout with
        | cons h h' =>
          cases h' with
          | cons h'' _ =>
            rcases h with h | h
            · cases h
            · cases h
              rcases h'' with h | h
              · cases h
              · cases h
                simp only [hdim0, hdimz, ne_eq, not_true, if_false]
                rfl
    · next hkl' =>
      rw [if_neg (by omega)]
      obtain ⟨x, hx, hx2⟩ := hget (k + 1) (by omega)
      obtain ⟨hr, hc⟩ := chain_get hch hk hx
      have hdimx : dimAt sl (k + 1) 0 = .ok (sh.getD 1 0) := by
        rw [hc]
        exact dimAt_full (by rw [hs _ (by omega) (by omega), hx]) (h0 x hx2)
      simp only [hdimz, hdimx]
      obtain ⟨a, b, rfl⟩ := List.length_eq_two.1 hr
      rfl

theorem checkOut_full {out : OutShape} {full : List (List Nat)} (hch : Chain full) (hout : OutOk out (prodShape full)) : checkOut out full = .ok () := by
  have hne := chain_ne hch
  obtain ⟨x, r, rfl⟩ := List.exists_cons_of_ne_nil hne
  have hx := chain_rank hch x (by simp)
  have hz := chain_rank hch _ (List.getLast_mem hne)
  have hlast : (x :: r).getLastD [] = (x :: r).getLast hne := by rw [List.getLastD_eq_getLast?, List.getLast?_eq_some_getLast hne]; rfl
  rw [prodShape, hlast] at hout
  unfold checkOut
  rw [List.getLast?_eq_some_getLast hne]
  generalize (x :: r).getLast hne = z at hz hout
  cases x with
  | nil => simp at hx
  | cons a x =>
    have hinf : (if z.length = 2 then [z.getD 1 0] else []) = z.drop 1 := by
      rcases hz with hz | hz
      · obtain ⟨b, rfl⟩ := List.length_eq_one_iff.1 hz; rfl
      · obtain ⟨b, d, rfl⟩ := List.length_eq_two.1 hz; rfl
    simp only [List.head?_cons, hinf]
    simp only [List.headD_cons, List.take_succ_cons, List.take_zero, List.singleton_append] at hout
    cases out with
    | none => rfl
    | int n =>
      simp only [OutOk, List.head?_cons, Option.some.injEq] at hout
      simp [hout]
    | dims ds =>
      simp only [OutOk] at hout
      have h2 := List.forall₂_iff_zip.1 hout
      simp only [h2.1, ne_eq, not_true, if_false]
      rw [if_pos]
      rw [List.all_eq_true]
      intro p hp
      have h3 : ∀ {a b}, (a, b) ∈ ds.zip _ → a = Option.none ∨ a = some b := h2.2
      have := h3 (a := p.1) (b := p.2) hp
      simpa using this

/-- C63: the module compiles whenever the factors, in the order the user asked for, can be multiplied: a path order has to name every array once and the parameter where there is
one, a new parameter has to be determined by the requested output shape, that shape has to allow the product, and there are at most 50 factors. -/
theorem C63_compile {cfg : Cfg} {p : Option (NArr K)} {shapes : Tree (List Nat)} (draw : Nat → List Nat → K) (hk : KeysOk shapes) (hok : OrderOk cfg.sep cfg.pathOrder shapes)
    (hne : jaxLeaves shapes ≠ []) {psh : Option (List Nat)} {full : List (List Nat)} (hops : operands cfg.sep cfg.pathOrder psh shapes = some full)
    (hord : ∀ po, cfg.pathOrder = some po → po.Nodup ∧ (psh.isSome = true → [cfg.sep, cfg.sep] ∈ po)) (hlen : full.length = psh.toList.length + (jaxLeaves shapes).length)
    (hch : Chain full) (hmax : full.length ≤ 50) (hout : OutOk cfg.outShape (prodShape full))
    (hp : (p.map NArr.shape = psh ∧ (cfg.trainable = true → psh.isSome = true)) ∨
      (p = Option.none ∧ cfg.trainable = true ∧ psh.isSome = true ∧ Determined cfg.outShape full (paramPlace cfg.sep cfg.pathOrder))) :
    ∃ c, Matmul.compile draw cfg p shapes = .ok c ∧ c.1.arrays.head?.map NArr.shape = psh := by
  have hhp : (cfg.trainable || (p.map NArr.shape).isSome) = psh.isSome := by
    rcases hp with ⟨h1, h2⟩ | ⟨_, h2, h3, _⟩
    · rw [h1]
      cases ht : cfg.trainable with
      | true => rw [h2 ht]; rfl
      | false => rfl
    · rw [h2, h3]; rfl
  obtain ⟨sl, hsl, hsll, hnone, hsome⟩ := shapeList_total hops hord hlen hhp
  have hmem : psh.isSome = true → Option.none ∈ sl := fun h => List.mem_of_getElem? ((hnone (paramPlace cfg.sep cfg.pathOrder)).2 ⟨h, rfl⟩)
  have hidx : psh.isSome = true → sl.idxOf Option.none = paramPlace cfg.sep cfg.pathOrder := by
    intro h
    exact ((hnone _).1 (List.getElem?_idxOf (hmem h))).2
  have hpos : PosOk sl (psh.map fun sh => (paramPlace cfg.sep cfg.pathOrder, sh)) := by
    cases hps : psh with
    | none =>
      intro hm
      obtain ⟨j, hj⟩ := List.mem_iff_getElem?.1 hm
      have := ((hnone j).1 hj).1
      rw [hps] at this
      cases this
    | some sh =>
      rw [hps] at hmem hidx
      exact ⟨hmem rfl, (hidx rfl).symm⟩
  have hfill : fillShapes sl (psh.map fun sh => (paramPlace cfg.sep cfg.pathOrder, sh)) = full := by
    have := fill_operands hsl hpos
    rw [Option.map_map, show (Prod.snd ∘ fun sh : List Nat => (paramPlace cfg.sep cfg.pathOrder, sh)) = id from rfl, Option.map_id, id, hops] at this
    exact (Option.some.inj this).symm
  have hpp : paramPos cfg (p.map NArr.shape) sl = .ok (psh.map fun sh => (paramPlace cfg.sep cfg.pathOrder, sh)) := by
    unfold paramPos
    rcases hp with ⟨h1, h2⟩ | ⟨h1, h2, h3, h4⟩
    · rw [h1]
      cases hps : psh with
      | none =>
        rw [hps] at h2 hpos
        have ht : cfg.trainable = false := by
          cases ht : cfg.trainable with
          | true => cases h2 ht
          | false => rfl
        simp only [ht, Bool.false_eq_true, if_false]
        rw [if_neg hpos]
        rfl
      | some sh =>
        rw [hps] at hmem hidx
        simp only
        rw [if_pos (hmem rfl), hidx rfl]
        rfl
    · subst h1
      obtain ⟨sh, hps⟩ := Option.isSome_iff_exists.1 h3
      have hk0 := (hnone (paramPlace cfg.sep cfg.pathOrder)).2 ⟨h3, rfl⟩
      have hkl : paramPlace cfg.sep cfg.pathOrder < sl.length := (List.getElem?_eq_some_iff.1 hk0).1
      have hfk : full[paramPlace cfg.sep cfg.pathOrder]? = some sh := by
        rw [← hfill, hps]
        simp only [Option.map_some, fillShapes]
        rw [List.getElem?_map, List.getElem?_set_self hkl]
        rfl
      have hps' := paramShape_full (out := cfg.outShape) hsll (fun j hj hjl => by
        have hjl' : j < sl.length := by omega
        cases hs : sl[j] with
        | none =>
          have := ((hnone j).1 (by rw [List.getElem?_eq_getElem hjl', hs])).2
          exact absurd this hj
        | some x =>
          have h5 : sl[j]? = some (some x) := by rw [List.getElem?_eq_getElem hjl', hs]
          rw [h5, hsome j x h5]) hfk hch hout h4
      simp only [Option.map_none, h2, if_true]
      rw [if_pos (hmem h3), hidx h3, hps', hps]
      rfl
  obtain ⟨c, hc1, hc2⟩ := compile_total draw hk hok hne hsl hpp (by rw [hfill]; exact hch) (by rw [hfill]; exact hmax) (by rw [hfill]; exact checkOut_full hch hout)
  refine ⟨c, hc1, ?_⟩
  rw [hc2, Option.map_map, show (Prod.snd ∘ fun sh : List Nat => (paramPlace cfg.sep cfg.pathOrder, sh)) = id from rfl, Option.map_id, id]

/-- C63 fails for long products: with 26 factors or more, the last one a matrix, the module declares and computes the transpose of the product. The subscripts of the rows and of the
columns are `a` and a capital letter, and the output indices are sorted. -/
theorem C63_transposed_refuted [CommSemiring K] {cfg : Cfg} {p : Option (NArr K)} {shapes : Tree (List Nat)} {draw : Nat → List Nat → K} {c : Params K × Str} (hk : KeysOk shapes)
    (hok : OrderOk cfg.sep cfg.pathOrder shapes) (h : Matmul.compile draw cfg p shapes = .ok c) (hn : 26 ≤ (jaxLeaves shapes).length) (hn' : (jaxLeaves shapes).length ≤ 49)
    (hl : ∀ full, operands cfg.sep cfg.pathOrder (c.1.arrays.head?.map NArr.shape) shapes = some full → (full.getLastD []).length = 2) :
    ∃ full, operands cfg.sep cfg.pathOrder (c.1.arrays.head?.map NArr.shape) shapes = some full ∧ Matmul.outputShape cfg p shapes = .ok (prodShape full).reverse ∧
      ∀ B (data : Tree (NArr K)), KeysOk data → sameStruct data.norm shapes.norm = true → (jaxLeaves data).map NArr.shape = (jaxLeaves shapes).map (B :: ·) →
        ∃ y, Matmul.call c shapes data = .ok y ∧ y.shape = B :: (prodShape full).reverse ∧ ∀ b, ∃ O, operands cfg.sep cfg.pathOrder c.1.arrays.head? (map (sampleOf b) data) = some O ∧
          ∀ i, i.length = 2 → y.val (b :: i) = prodEntry O i.reverse := by
  obtain ⟨full, cs, out, f, h1, h2, h3, h4, h5, h6, hnumE, hone, hchk, h7, h8, h9, -, h10⟩ := core hk hok (by rintro e; rw [e] at hn; simp at hn) hn' h
  have hl := hl full h1
  have hps : prodShape full = f 'a' :: (lastIndex 0 full).map f := by
    conv_lhs => rw [h3]
    exact chain_prodShape
  have hlt := high_letter full.length (by omega) (by omega)
  rw [lastIndex_matrix hl] at h5 hps h10
  have hout : out = [letters.getD full.length 'a', 'a'] :=
    (h5.trans (List.Perm.swap _ _ _)).eq_of_pairwise (fun a b _ _ h1 h2 => Char.le_antisymm h1 h2) h4 (by simpa using hlt.1)
  have hmap : out.map f = (prodShape full).reverse := by rw [hout, hps]; rfl
  refine ⟨full, h1, by rw [h7, hmap], fun B data hkd hsd hdsh => ?_⟩
  obtain ⟨y, hy1, hy2, hy3⟩ := h10 B data hkd hsd hdsh
  refine ⟨y, hy1, by rw [hy2, hmap], fun b => ?_⟩
  obtain ⟨O, hO1, hO2⟩ := hy3 b
  refine ⟨O, hO1, fun i hi => ?_⟩
  rw [hO2 i (by rw [hi, hout]; rfl), hout]
  obtain ⟨r, k, rfl⟩ := List.length_eq_two.1 hi
  have hne : 'a' ≠ letters.getD full.length 'a' := fun e => hlt.2 e.symm
  congr 1
  simp only [assign, List.map_cons, List.map_nil, Function.update_self, Function.update_of_ne hne, Function.update_of_ne hlt.2, List.reverse_cons, List.reverse_nil, List.nil_append,
    List.singleton_append]

instance decidableChain : (l : List (List Nat)) → Decidable (Chain l)
  | [] => .isFalse id
  | [s] => inferInstanceAs (Decidable (s.length = 1 ∨ s.length = 2))
  | s :: t :: l => have := decidableChain (t :: l); inferInstanceAs (Decidable (s.length = 2 ∧ s.getD 1 0 = t.getD 0 0 ∧ Chain (t :: l)))

/-- A product `W · A · v` with a new matrix `W`. -/
def matDemoCfg : Cfg := ⟨.int 2, some ["..".toList, "A".toList, "v".toList], true, '.'⟩

/-- Shapes of `A` and `v`. -/
def matDemoShapes : Tree (List Nat) := .dict [("v".toList, .leaf [4]), ("A".toList, .leaf [3, 4])]

theorem matDemo_order : OrderOk matDemoCfg.sep matDemoCfg.pathOrder matDemoShapes := by
  rintro po h
  cases h
  constructor
  · unfold PathSpec.Canonical
    decide +kernel
  · rintro q g k hq hm
    cases hq with
    | dict h1 h2 =>
      simp only [List.mem_cons, Prod.mk.injEq, List.not_mem_nil, or_false] at h1
      rcases h1 with ⟨rfl, rfl⟩ | ⟨rfl, rfl⟩ <;> cases h2 <;> simp only [List.mem_singleton, ForwardSpec.Step.key.injEq] at hm <;> subst hm <;> decide +kernel

theorem matDemo_keys : KeysOk matDemoShapes := ⟨by decide +kernel, trivial, trivial, trivial⟩

/-- The hypotheses of `C63_compile` and `C63_matmul` hold for `W · A · v`. -/
example (draw : Nat → List Nat → ℤ) : ∃ c, Matmul.compile draw matDemoCfg Option.none matDemoShapes = .ok c ∧ Matmul.outputShape matDemoCfg (Option.none : Option (NArr ℤ)) matDemoShapes = .ok [2] := by
  obtain ⟨c, h1, h2⟩ := C63_compile (cfg := matDemoCfg) (p := Option.none) draw matDemo_keys matDemo_order (by decide +kernel) (psh := some [2, 3]) (full := [[2, 3], [3, 4], [4]])
    (by decide +kernel) (by rintro po h; cases h; decide +kernel) (by decide +kernel) (by decide +kernel) (by decide) rfl
    (.inr ⟨rfl, rfl, rfl, by
      have : paramPlace matDemoCfg.sep matDemoCfg.pathOrder = 0 := by decide +kernel
      rw [this]
      exact ⟨by decide, .inl ⟨2, rfl⟩⟩⟩)
  refine ⟨c, h1, ?_⟩
  obtain ⟨full, h3, _, h4, _⟩ := C63_matmul matDemo_keys matDemo_order (by decide +kernel) h1 (.inl (by decide +kernel))
  rw [h2, show operands matDemoCfg.sep matDemoCfg.pathOrder (some [2, 3]) matDemoShapes = some [[2, 3], [3, 4], [4]] by decide +kernel] at h3
  cases h3
  exact h4

/-- The shapes of 26 matrices whose product has two rows and five columns. -/
def longShapes : Tree (List Nat) := .list (.leaf [2, 3] :: (List.replicate 24 (.leaf [3, 3]) ++ [.leaf [3, 5]]))

theorem long_leaves : jaxLeaves longShapes = [2, 3] :: (List.replicate 24 [3, 3] ++ [[3, 5]]) := by decide +kernel

theorem long_keys : KeysOk longShapes := by simp [longShapes, KeysOk, ForwardSpec.KeysOkL, List.replicate]

/-- The product of 26 matrices whose product has two rows and five columns: the declared shape is `(5, 2)`. -/
example (draw : Nat → List Nat → ℤ) : ∃ c, Matmul.compile draw ⟨.none, Option.none, false, '.'⟩ Option.none longShapes = .ok c ∧
    Matmul.outputShape ⟨.none, Option.none, false, '.'⟩ (Option.none : Option (NArr ℤ)) longShapes = .ok [5, 2] := by
  have hok : OrderOk '.' Option.none longShapes := fun po h => by cases h
  obtain ⟨c, h1, h2⟩ := C63_compile (cfg := ⟨.none, Option.none, false, '.'⟩) (p := Option.none) draw long_keys hok (by rw [long_leaves]; simp) (psh := Option.none)
    (full := jaxLeaves longShapes) rfl (by rintro po h; cases h) (by simp) (by rw [long_leaves]; decide +kernel) (by rw [long_leaves]; decide +kernel) trivial (.inl ⟨rfl, by simp⟩)
  obtain ⟨full, h3, h4, _⟩ := C63_transposed_refuted long_keys hok h1 (by rw [long_leaves]; decide +kernel) (by rw [long_leaves]; decide +kernel) (by
    intro full h3
    rw [h2] at h3
    cases h3
    decide +kernel)
  refine ⟨c, h1, ?_⟩
  rw [h2] at h3
  cases h3
  rw [h4]
  decide +kernel

/-- C63 fails for products of many matrices: from 52 factors on the subscripts run out of letters and compiling raises `IndexError`. -/
theorem C63_many_refuted {n d : Nat} (hn : 52 ≤ n) (draw : Nat → List Nat → K) (sep : Char) :
    Chain (List.replicate n [d, d]) ∧ Matmul.compile draw ⟨.none, Option.none, false, sep⟩ Option.none (.list (List.replicate n (.leaf [d, d]))) = .error .indexError := by
  have hch : ∀ m, Chain (List.replicate (m + 1) [d, d]) := by
    intro m
    induction m with
    | zero => exact .inr rfl
    | succ m ih => exact ⟨rfl, rfl, ih⟩
  obtain ⟨m, rfl⟩ : ∃ m, n = m + 1 := ⟨n - 1, by omega⟩
  refine ⟨hch m, ?_⟩
  have hleaves : jaxLeaves (.list (List.replicate (m + 1) (.leaf [d, d]))) = List.replicate (m + 1) [d, d] := by
    rw [jaxLeaves, Tree.norm]
    clear hn hch
    have h1 : ∀ k, normL (List.replicate k (.leaf [d, d])) = List.replicate k (.leaf [d, d]) := by
      intro k
      induction k with
      | zero => rfl
      | succ k ih => rw [List.replicate_succ, normL, ih]; rfl
    have h2 : ∀ k, flatL (List.replicate k (.leaf [d, d])) = List.replicate k [d, d] := by
      intro k
      induction k with
      | zero => rfl
      | succ k ih => rw [List.replicate_succ, flatL, ih]; rfl
    rw [h1, flat, h2]
  have hterms : ∀ k i, i ≤ 51 → 52 ≤ i + k → terms i (List.replicate k [d, d]) = .error .indexError := by
    intro k
    induction k with
    | zero => intro i h1 h2; omega
    | succ k ih =>
      intro i h1 h2
      rw [List.replicate_succ, terms]
      by_cases hi : i = 51
      · subst hi
        rfl
      · have : ∃ t, term i [d, d] = .ok t := by
          unfold term
          rw [if_pos (show [d, d].length = 2 from rfl), List.getElem?_eq_getElem (by rw [letters_length]; omega), List.getElem?_eq_getElem (by rw [letters_length]; omega)]
          exact ⟨_, rfl⟩
        obtain ⟨t, ht⟩ := this
        rw [ht]
        simp only
        rw [ih (i + 1) (by omega) (by omega)]
  unfold Matmul.compile plan
  rw [hleaves]
  have hcount : (List.replicate (m + 1) [d, d]).countP (fun s => s.length = 1) = 0 := by
    rw [List.countP_eq_zero]
    intro a ha
    rw [List.eq_of_mem_replicate ha]
    simp
  have hall : ((List.replicate (m + 1) [d, d]).all fun s => decide (s.length = 1) || decide (s.length = 2)) = true := by
    rw [List.all_eq_true]
    intro a ha
    rw [List.eq_of_mem_replicate ha]
    rfl
  have hnn : Option.none ∉ (List.replicate (m + 1) [d, d]).map some := by simp
  have hfill : fillShapes ((List.replicate (m + 1) [d, d]).map some) Option.none = List.replicate (m + 1) [d, d] := by
    simp [fillShapes]
  have hout : checkOut .none (List.replicate (m + 1) [d, d]) = .ok () := checkOut_full (hch m) trivial
  simp only [hall, hcount, shapeList, hleaves, paramPos, Option.map_none, Option.isSome_none, Bool.or_self, Bool.not_true, Bool.false_eq_true, if_false, List.nil_append, hnn, hfill,
    chain_vectorsLast (hch m), hout, hterms (m + 1) 0 (by omega) (by omega), Nat.not_lt_zero]

/-- C63 fails when the parameter is the last factor: the documented `output_shape=(None, n)` is refused, although the message of the error says that `None` is allowed and the number
of rows is known. -/
theorem C63_none_last_refuted (draw : Nat → List Nat → K) (r d n : Nat) :
    Chain [[r, d], [d, n]] ∧ Matmul.compile draw ⟨.dims [Option.none, some n], some ["A".toList, "..".toList], true, '.'⟩ Option.none (.dict [("A".toList, .leaf [r, d])]) = .error .valueError :=
  ⟨⟨rfl, rfl, .inr rfl⟩, rfl⟩

/-- C63 fails for bare arrays with a path order: there is no path that names a bare array. -/
theorem C63_bare_refuted (draw : Nat → List Nat → K) (r d : Nat) (path : Str) (hp : path ≠ "..".toList) (x : NArr K) :
    ∃ e, Matmul.compile draw ⟨.none, some [path, "..".toList], false, '.'⟩ (some x) (.leaf [r, d]) = .error e := by
  unfold Matmul.compile
  have : ∃ e, plan ⟨.none, some [path, "..".toList], false, '.'⟩ ((some x).map NArr.shape) (.leaf [r, d]) = .error e := by
    by_cases h0 : path = []
    · subst h0
      have hperm : ∀ pos n, perm ⟨.none, some [[], "..".toList], false, '.'⟩ pos n = .error .keyError := fun _ _ => rfl
      unfold plan
      split
      · exact ⟨_, rfl⟩
      · split
        · exact ⟨_, rfl⟩
        · split
          · exact ⟨_, rfl⟩
          · split
            · exact ⟨_, rfl⟩
            · simp only
              split
              · exact ⟨_, rfl⟩
              · split
                · exact ⟨_, rfl⟩
                · split
                  · exact ⟨_, rfl⟩
                  · simp only [hperm]
                    exact ⟨_, rfl⟩
    · have hget : Tree.get (.leaf [r, d]) (splitOn '.' path) = .error .typeError := by
        cases hs : splitOn '.' path with
        | nil => exact absurd hs (splitOn_ne_nil _ _)
        | cons k ks =>
          have : ¬ (k = [] ∧ ks = []) := by
            rintro ⟨rfl, rfl⟩
            have := joinWith_splitOn '.' path
            rw [hs] at this
            exact h0 this.symm
          simp [Tree.get, getPath, this]
      have hat : shapeAt ⟨.none, some [path, "..".toList], false, '.'⟩ (.leaf [r, d]) path = .error .typeError := by
        unfold shapeAt
        have hp' : path ≠ Cfg.param ⟨.none, some [path, "..".toList], false, '.'⟩ := hp
        rw [if_neg hp']
        simp only [hget]
      have hsl : ∃ e, shapeList ⟨.none, some [path, "..".toList], false, '.'⟩ ((some x).map NArr.shape).isSome (.leaf [r, d]) = .error e := by
        unfold shapeList
        simp only
        split
        · exact ⟨_, rfl⟩
        · rw [List.mapM_cons, hat]
          exact ⟨_, rfl⟩
      obtain ⟨e, he⟩ := hsl
      unfold plan
      rw [he]
      exact ⟨e, rfl⟩
  obtain ⟨e, he⟩ := this
  rw [he]
  exact ⟨e, rfl⟩

example (x : NArr ℤ) : ∃ e, Matmul.compile (fun _ _ => 0) ⟨.none, some ["0".toList, "..".toList], false, '.'⟩ (some x) (.leaf [2, 3]) = .error e :=
  C63_bare_refuted _ 2 3 _ (by decide +kernel) x

/-- C63 fails for dictionaries whose keys are numbers: the path order is applied as if the keys were sorted as numbers. Here the order is `"9"`, `"10"` and the product is computed in
the other order. -/
theorem C63_digit_keys_refuted : ∃ (c : Params ℤ × Str) (a b y : NArr ℤ),
    Matmul.compile (fun _ _ => 0) ⟨.none, some ["9".toList, "10".toList], false, '.'⟩ Option.none (.dict [("9".toList, .leaf [2, 2]), ("10".toList, .leaf [2, 2])]) = .ok c ∧
    Matmul.call c (.dict [("9".toList, .leaf [2, 2]), ("10".toList, .leaf [2, 2])]) (.dict [("9".toList, .leaf a), ("10".toList, .leaf b)]) = .ok y ∧
    operands '.' (some ["9".toList, "10".toList]) Option.none (map (sampleOf 0) (.dict [("9".toList, .leaf a), ("10".toList, .leaf b)])) = some [sampleOf 0 a, sampleOf 0 b] ∧
    y.val [0, 0, 0] = 0 ∧ prodEntry [sampleOf 0 a, sampleOf 0 b] [0, 0] = 1 :=
  ⟨_, ⟨[1, 2, 2], fun i => if i = [0, 0, 1] then 1 else 0⟩, ⟨[1, 2, 2], fun i => if i = [0, 1, 0] then 1 else 0⟩, _, rfl, rfl, rfl, by decide +kernel, by decide +kernel⟩

end Verif.Props
