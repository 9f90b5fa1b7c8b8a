import Verif.Lemmas.EinsumCall
import Verif.Lemmas.TreeDec

/-!
# Einsum (C62)
-/

namespace Verif.Props
open Tree Einsum EinsumSpec
open ForwardSpec (At KeysOk)

variable {K : Type}

/-- `spec` stands for the given subscripts, with a fresh batch index. -/
def Concretises (spec : Tree Str) (shapes : Tree (List Nat)) (ls is : List Str) (out : Str) : Prop :=
  ∀ hp : Bool, (hp = true → ls ≠ []) → ∃ b, concretise spec hp shapes = .ok ⟨ls, is, out, b⟩ ∧ b.isAlpha = true ∧ b ∉ (ls ++ is).flatten ∧ b ∉ out

theorem isOutput_inferred (ls is : List Str) (h : ∀ s ∈ ls ++ is, ',' ∉ s) : IsOutput ls is Option.none (inferOutput (joinWith ',' (ls ++ is))) := by
  obtain ⟨h1, h2, h3⟩ := inferOutput_spec (s := joinWith ',' (ls ++ is))
  refine ⟨h1, h2, fun c => ?_⟩
  rw [h3]
  constructor
  · rintro ⟨hc, h⟩
    rwa [count_joinWith hc] at h
  · intro hc
    have hne : c ≠ ',' := by
      rintro rfl
      have : ',' ∈ (ls ++ is).flatten := List.count_pos_iff.1 (by omega)
      obtain ⟨s, hs, hc⟩ := List.mem_flatten.1 this
      exact h s hs hc
    exact ⟨hne, by rwa [count_joinWith hne]⟩

theorem isOutput_output {ls is : List Str} {o : Option Str} (h : Subscripts ls is o) {out : Str} (ho : IsOutput ls is o out) : Einsum.output ls is o = out := by
  unfold Einsum.output
  cases o with
  | some s => exact ho.symm
  | none =>
    obtain ⟨a1, a2, a3⟩ := isOutput_inferred ls is fun s hs hc => (letters_not (mem_letters.2 ((List.mem_append.1 hs).elim (fun hs => h.leading s hs _ hc) fun hs => h.inputs s hs _ hc))).1 rfl
    obtain ⟨b1, b2, b3⟩ := ho
    exact ((List.perm_ext_iff_of_nodup a2 b2).2 fun c => by rw [a3, b3]).eq_of_pairwise (fun a b _ _ h1 h2 => Char.le_antisymm h1 h2) a1 b1

/-- C62: a subscript string `"l1,…,i1,…->o"` (or without output) with one subscript per parameter array and per input array, each as long as its array has axes, is taken to mean
exactly this: the last ones belong to the inputs, the others to the parameters, and the batch index is a letter that is not used elsewhere. Without output, the output consists of
the indices that occur once, sorted. -/
theorem C62_string {ls is : List Str} {o : Option Str} {out : Str} (h : Subscripts ls is o) (ho : IsOutput ls is o out) {shapes : Tree (List Nat)}
    (hr : List.Forall₂ (fun s sh => s.length = sh.length) is (jaxLeaves shapes)) (hfree : ∃ c : Char, c.isAlpha = true ∧ c ∉ (ls ++ is).flatten ∧ c ∉ out) :
    Concretises (.leaf (text (ls ++ is) o)) shapes ls is out := by
  obtain ⟨c, hc, h1, h2⟩ := hfree
  have e := isOutput_output h ho
  intro hp hpar
  obtain ⟨b, hb, hl, hb1, hb2⟩ := concretise_text h hr hpar ⟨c, mem_letters.2 hc, h1, by rwa [e]⟩
  rw [e] at hb hb2
  exact ⟨b, hb, mem_letters.1 hl, hb1, hb2⟩

/-- A free letter exists if there are fewer than 52 different indices. -/
theorem free_letter {s : Str} (h : s.dedup.length < 52) : ∃ c : Char, c.isAlpha = true ∧ c ∉ s := by
  by_contra hc
  simp only [not_exists, not_and, not_not] at hc
  have : letters ⊆ s.dedup := fun c hc' => List.mem_dedup.2 (hc c (mem_letters.1 hc'))
  have := (List.Nodup.subperm (by decide +kernel) this).length_le
  have hl : letters.length = 52 := by decide +kernel
  omega

/-- C62: a tree of strings with the structure of the input gives every input array the string at its place. -/
theorem C62_tree {spec : Tree Str} {shapes : Tree (List Nat)} (hks : KeysOk spec) (hkh : KeysOk shapes) (hs : sameStruct spec.norm shapes.norm = true)
    (hnl : ∀ s, spec ≠ .leaf s) (hne : jaxLeaves spec ≠ [])
    (hv : ∀ s ∈ jaxLeaves spec, s ≠ [] ∧ ∀ c ∈ s, c.isAlpha = true) (hr : List.Forall₂ (fun s sh => s.length = sh.length) (jaxLeaves spec) (jaxLeaves shapes))
    {out : Str} (ho : IsOutput [] (jaxLeaves spec) Option.none out) (hfree : ∃ c : Char, c.isAlpha = true ∧ c ∉ (jaxLeaves spec).flatten ∧ c ∉ out) :
    Concretises spec shapes [] (jaxLeaves spec) out := by
  intro hp hpar
  have hpf : hp = false := by
    cases hp
    · rfl
    · exact absurd rfl (hpar rfl)
  subst hpf
  set l := jaxLeaves spec with hl
  have hhead : l.headD [] ≠ [] := by
    cases hl' : l with
    | nil => exact absurd hl' hne
    | cons a l' => exact (hv a (by rw [hl']; simp)).1
  have hcomma : ∀ s ∈ l, ',' ∉ s := fun s hs hc => (letters_not (mem_letters.2 ((hv s hs).2 _ hc))).1 rfl
  have hred : reduceInputs l = joinWith ',' l := reduceInputs_eq (.inr hhead)
  have hparts : parts spec shapes = .ok (Option.none, spec, Option.none, true) := by
    unfold parts
    rw [if_pos hs]
  obtain ⟨r, hr1, hr2⟩ := second_leaves hkh hks (by rw [sameStruct_iff] at hs ⊢; exact hs.symm)
  have hin : inputList spec shapes true = .ok l := by
    have hall : l.all (fun s => !s.isEmpty && s.all fun c => decide (c ∈ letters)) = true := by
      rw [List.all_eq_true]
      intro s hs
      obtain ⟨h1, h2⟩ := hv s hs
      rw [Bool.and_eq_true, List.all_eq_true]
      refine ⟨by cases s <;> simp_all, fun c hc => ?_⟩
      rw [decide_eq_true_eq]
      exact mem_letters.2 (h2 c hc)
    unfold inputList
    split
    · next s => exact absurd rfl (hnl s)
    · rw [if_neg (by rw [hall]; simp), hr1]
      simp only
      rw [hr2]
  have hsplit : splitOutput spec Option.none = .ok (spec, Option.none) := by
    unfold splitOutput
    split
    · exact absurd rfl (hnl _)
    · rfl
  have hlead : splitLeading Option.none spec (jaxLeaves shapes).length = (Option.none, spec) := by
    unfold splitLeading
    split
    · exact absurd rfl (hnl _)
    · rfl
  have hout : inferOutput (joinWith ',' l) = out := by
    obtain ⟨a1, a2, a3⟩ := isOutput_inferred [] l (by simpa using hcomma)
    obtain ⟨b1, b2, b3⟩ := ho
    rw [List.nil_append] at a1 a2 a3
    exact ((List.perm_ext_iff_of_nodup a2 b2).2 fun c => by rw [a3, b3]; rfl).eq_of_pairwise (fun a b _ _ h1 h2 => Char.le_antisymm h1 h2) a1 b1
  have hmem : ∀ c, c ∈ joinWith ',' l ++ out → c = ',' ∨ c ∈ l.flatten ∨ c ∈ out := by
    intro c hc
    rcases List.mem_append.1 hc with hc | hc
    · rcases mem_joinWith hc with hc | ⟨w, hw, hc⟩
      · exact .inl hc
      · exact .inr (.inl (List.mem_flatten.2 ⟨w, hw, hc⟩))
    · exact .inr (.inr hc)
  have hfind : ∃ b, letters.find? (fun c => !(joinWith ',' l ++ out).contains c) = some b := by
    obtain ⟨c, hc, h1, h2⟩ := hfree
    rw [← Option.isSome_iff_exists, List.find?_isSome]
    refine ⟨c, mem_letters.2 hc, ?_⟩
    rw [Bool.not_eq_true', List.contains_eq_mem, decide_eq_false_iff_not]
    intro h
    rcases hmem c h with h | h | h
    · exact (letters_not (mem_letters.2 hc)).1 h
    · exact h1 h
    · exact h2 h
  obtain ⟨b, hb⟩ := hfind
  have hbl := List.mem_of_find?_eq_some hb
  have hbf := List.find?_some hb
  rw [Bool.not_eq_true', List.contains_eq_mem, decide_eq_false_iff_not, List.mem_append, not_or] at hbf
  refine ⟨b, ?_, mem_letters.1 hbl, fun h => hbf.1 ?_, hbf.2⟩
  · have hz : ((l.zip (jaxLeaves shapes)).all fun p => decide (p.1.length = p.2.length)) = true := by
      rw [List.all_eq_true]
      intro p hp
      rw [decide_eq_true_eq]
      exact (List.forall₂_iff_zip.1 hr).2 hp
    unfold concretise
    rw [hparts]
    simp only [hsplit, hlead, hin]
    rw [if_neg (by simp), if_neg (by simp), if_neg (by simp [validChars])]
    simp only [hred, Option.getD_none, List.nil_append, hout, hb]
    rw [splitOn_joinWith _ _ hne hcomma, if_pos hz]
    rfl
  · obtain ⟨s, hs, hc⟩ := List.mem_flatten.1 h
    exact mem_joinWith_of ⟨s, by simpa using hs, hc⟩

/-! ### Sizes, shapes and values -/


/-- C62_tree is not vacuous: two arrays in a dictionary. -/
theorem concretises_demo : Concretises (.dict [("y".toList, .leaf "b".toList), ("x".toList, .leaf "ab".toList)]) (.dict [("y".toList, .leaf [3]), ("x".toList, .leaf [2, 3])]) []
    ["ab".toList, "b".toList] "a".toList := by
  have e : jaxLeaves (.dict [("y".toList, .leaf "b".toList), ("x".toList, .leaf "ab".toList)] : Tree Str) = ["ab".toList, "b".toList] := by decide +kernel
  have e2 : jaxLeaves (.dict [("y".toList, .leaf [3]), ("x".toList, .leaf [2, 3])] : Tree (List Nat)) = [[2, 3], [3]] := by decide +kernel
  have := C62_tree (spec := .dict [("y".toList, .leaf "b".toList), ("x".toList, .leaf "ab".toList)]) (shapes := .dict [("y".toList, .leaf [3]), ("x".toList, .leaf [2, 3])])
    (out := "a".toList) ⟨by decide +kernel, trivial, trivial, trivial⟩ ⟨by decide +kernel, trivial, trivial, trivial⟩ (by decide +kernel) (by simp) (by rw [e]; simp)
    (by rw [e]; decide +kernel) (by rw [e, e2]; exact .cons rfl (.cons rfl .nil))
    (by
      rw [e]
      refine ⟨by decide +kernel, by decide +kernel, fun c => ?_⟩
      by_cases ha : c = 'a'
      · subst ha; decide +kernel
      · by_cases hb : c = 'b'
        · subst hb; decide +kernel
        · simp [ha, hb, Ne.symm ha, Ne.symm hb, List.count_cons])
    (by rw [e]; exact ⟨'z', by decide +kernel, by decide +kernel, by decide +kernel⟩)
  rw [e] at this
  exact this

/-- What compiling needs to know of the parameters: none yet, or one array. -/
def Fitting (q : Params K) (ls : List Str) (f : Char → Nat) : Prop := q = .none ∨ ∃ x l, q = .arr x ∧ ls = [l] ∧ x.shape = l.map f

theorem zip_shapes {is : List Str} {f : Char → Nat} : ∀ p ∈ is.zip (is.map fun s => s.map f), p.2 = p.1.map f := by
  intro p hp
  rw [List.zip_map_right, List.mem_map] at hp
  obtain ⟨q, hq, rfl⟩ := hp
  obtain ⟨i, hi, e⟩ := List.getElem_of_mem hq
  rw [List.getElem_zip] at e
  rw [← e]
  rfl

theorem dimMap_total {ls is : List Str} {out : Str} {b : Char} {shapes : List (List Nat)} {f : Char → Nat} (hne : is ≠ []) (hsh : shapes = is.map fun s => s.map f)
    {user : List (Char × Nat)} (hu : ∀ c d, user.lookup c = some d → d = f c) {q : Params K} (hq : Fitting q ls f)
    (hcov : ∀ c ∈ ls.flatten ++ out, c ∈ is.flatten ∨ (user.lookup c).isSome = true ∨ ((∃ x, q = .arr x) ∧ c ∈ ls.flatten)) :
    ∃ m, dimMap user ⟨ls, is, out, b⟩ shapes q = .ok m ∧ ∀ c ∈ (ls ++ is).flatten ++ out, dim m c = f c := by
  have hlen : shapes.length = is.length := by rw [hsh]; simp
  have hpos : shapes.length ≠ 0 := by rw [hlen]; simpa using hne
  obtain ⟨m1, h1, h1f⟩ := recordAll_total (l := is.zip shapes) (f := f) (by rw [hsh]; exact zip_shapes) hu
  obtain ⟨h1u, h1s⟩ := recordAll_ok h1
  have his : ∀ c ∈ is.flatten, (m1.lookup c).isSome = true := by
    intro c hc
    obtain ⟨s, hs, hc⟩ := List.mem_flatten.1 hc
    obtain ⟨k, hk, rfl⟩ := List.getElem_of_mem hs
    refine (h1s (is[k], shapes[k]'(by omega)) ?_).2 c hc
    rw [List.mem_iff_getElem]
    exact ⟨k, by rw [List.length_zip, hlen, Nat.min_self]; exact hk, by rw [List.getElem_zip]⟩
  obtain ⟨m2, h2, h2f, h21, h2p⟩ : ∃ m2, recordParams m1 ls q = .ok m2 ∧ (∀ c d, m2.lookup c = some d → d = f c) ∧ (∀ c d, m1.lookup c = some d → m2.lookup c = some d) ∧
      ((∃ x, q = .arr x) → ∀ c ∈ ls.flatten, (m2.lookup c).isSome = true) := by
    rcases hq with rfl | ⟨x, l, rfl, rfl, hx⟩
    · exact ⟨m1, rfl, h1f, fun _ _ h => h, fun ⟨x, e⟩ => by cases e⟩
    · obtain ⟨m2, h2, h2f⟩ := recordAll_total (l := [l].zip [x.shape]) (f := f) (by simpa using hx) h1f
      obtain ⟨h2u, h2s⟩ := recordAll_ok h2
      refine ⟨m2, by simpa [recordParams] using h2, h2f, h2u, fun _ c hc => ?_⟩
      exact (h2s (l, x.shape) (by simp)).2 c (by simpa using hc)
  have hall : ∀ c ∈ (ls ++ is).flatten ++ out, (m2.lookup c).isSome = true := by
    have up : ∀ c, (m1.lookup c).isSome = true → (m2.lookup c).isSome = true := by
      intro c hc
      obtain ⟨d, hd⟩ := Option.isSome_iff_exists.1 hc
      rw [h21 c d hd]
      rfl
    have hl : ∀ c ∈ ls.flatten ++ out, (m2.lookup c).isSome = true := by
      intro c hc
      rcases hcov c hc with h | h | ⟨hx, h⟩
      · exact up c (his c h)
      · obtain ⟨d, hd⟩ := Option.isSome_iff_exists.1 h
        exact up c (by rw [h1u c d hd]; rfl)
      · exact h2p hx c h
    intro c hc
    rcases List.mem_append.1 hc with hc | hc
    · rw [List.flatten_append] at hc
      rcases List.mem_append.1 hc with hc | hc
      · exact hl c (by simp [hc])
      · exact up c (his c hc)
    · exact hl c (by simp [hc])
  refine ⟨m2, ?_, fun c hc => ?_⟩
  · unfold dimMap
    simp only
    rw [if_neg hpos, hlen, List.length_append, Nat.add_sub_cancel, List.drop_left, List.take_left, h1]
    simp only [h2]
    rw [if_pos (List.all_eq_true.2 hall)]
  · obtain ⟨d, hd⟩ := Option.isSome_iff_exists.1 (hall c hc)
    unfold dim
    rw [hd]
    exact h2f c d hd

theorem dimMap_ok {ls is : List Str} {out : Str} {b : Char} {shapes : List (List Nat)} (hne : is ≠ []) (hlen : is.length = shapes.length)
    {user m : List (Char × Nat)} {q : Params K} (h : dimMap user ⟨ls, is, out, b⟩ shapes q = .ok m) :
    shapes = is.map (fun s => s.map (dim m)) ∧ (∀ c d, user.lookup c = some d → d = dim m c) ∧ (Fitting q ls (dim m) ∨ (q = .tuple [] ∧ ls = [])) := by
  have hpos : shapes.length ≠ 0 := by rw [← hlen]; simpa using hne
  unfold dimMap at h
  simp only at h
  rw [if_neg hpos, ← hlen, List.length_append, Nat.add_sub_cancel, List.drop_left, List.take_left] at h
  cases h1 : recordAll user (is.zip shapes) with
  | error e => rw [h1] at h; cases h
  | ok m1 =>
    rw [h1] at h
    simp only at h
    cases h2 : recordParams m1 ls q with
    | error e => rw [h2] at h; cases h
    | ok m2 =>
      rw [h2] at h
      simp only at h
      split at h
      · cases h
        obtain ⟨a1, a2⟩ := recordAll_ok h1
        have hm : ∀ c d, m1.lookup c = some d → m.lookup c = some d := by
          intro c d hc
          cases q with
          | none => cases h2; exact hc
          | arr x =>
            simp only [recordParams] at h2
            split at h2
            · cases h2
            · exact (recordAll_ok h2).1 c d hc
          | tuple xs =>
            simp only [recordParams] at h2
            split at h2
            · cases h2
            · split at h2
              · cases h2; exact hc
              · split at h2 <;> cases h2
        have hdim : ∀ c, (m1.lookup c).isSome = true → dim m1 c = dim m c := by
          intro c hc
          obtain ⟨d, hd⟩ := Option.isSome_iff_exists.1 hc
          unfold dim
          rw [hd, hm c d hd]
        refine ⟨?_, fun c d hc => ?_, ?_⟩
        · refine List.ext_getElem (by simp [hlen]) fun k h1' h2' => ?_
          rw [List.getElem_map]
          have hk : k < is.length := by omega
          have hmem : (is[k], shapes[k]) ∈ is.zip shapes := by
            rw [List.mem_iff_getElem]
            exact ⟨k, by rw [List.length_zip, hlen, Nat.min_self]; exact h1', by rw [List.getElem_zip]⟩
          obtain ⟨b1, b2⟩ := a2 _ hmem
          refine b1.trans (List.map_congr_left fun c hc => hdim c (b2 c hc))
        · unfold dim
          rw [hm c d (a1 c d hc)]
          rfl
        · cases q with
          | none => exact .inl (.inl rfl)
          | arr x =>
            simp only [recordParams] at h2
            split at h2
            · cases h2
            · next hl =>
              rw [not_not] at hl
              obtain ⟨l, rfl⟩ := List.length_eq_one_iff.1 hl
              exact .inl (.inr ⟨x, l, rfl, rfl, ((recordAll_ok h2).2 (l, x.shape) (by simp)).1⟩)
          | tuple xs =>
            simp only [recordParams] at h2
            split at h2
            · cases h2
            · next hl =>
              split at h2
              · next e => subst e; rw [not_not] at hl; exact .inr ⟨rfl, by simpa using hl⟩
              · split at h2 <;> cases h2
      · cases h

theorem outputShape_eq {spec : Tree Str} {shapes : Tree (List Nat)} {q : Params K} {c : Concrete} (hc : concretise spec (!q.absent) shapes = .ok c)
    {user m : List (Char × Nat)} (hm : dimMap user c (jaxLeaves shapes) q = .ok m) : Einsum.outputShape spec user q shapes = .ok (c.out.map (dim m)) := by
  unfold Einsum.outputShape
  rw [hc]
  simp only [hm]

theorem compile_ok {draw : Nat → List Nat → K} {spec : Tree Str} {user : List (Char × Nat)} {tr : Bool} {q p : Params K} {shapes : Tree (List Nat)} {ls is : List Str} {out : Str} {b : Char}
    (hc : concretise spec (!q.absent) shapes = .ok ⟨ls, is, out, b⟩) (hne : is ≠ []) (hlen : is.length = (jaxLeaves shapes).length)
    {m : List (Char × Nat)} (hm : dimMap user ⟨ls, is, out, b⟩ (jaxLeaves shapes) q = .ok m) :
    Einsum.compile draw spec user tr q shapes = .ok p ↔
      match q with
      | .none => if ls = [] then p = .none else tr = true ∧ p = match ls.map fun s => s.map (dim m) with
          | [sh] => .arr ⟨sh, draw 0⟩
          | shs => .tuple ((List.range shs.length).map fun k => ⟨shs.getD k [], draw k⟩)
      | q => q.arrays.map NArr.shape = ls.map (fun s => s.map (dim m)) ∧ p = q := by
  have hpos : (jaxLeaves shapes).length ≠ 0 := by rw [← hlen]; simpa using hne
  unfold Einsum.compile
  rw [hc]
  simp only [hm]
  rw [if_neg hpos, ← hlen, List.length_append, Nat.add_sub_cancel, List.take_left]
  cases q with
  | none =>
    simp only
    by_cases hl : ls = []
    · simp [hl, eq_comm]
    · simp only [hl, if_false]
      cases tr with
      | false => simp
      | true =>
        simp only [Bool.not_true, Bool.false_eq_true, if_false, true_and]
        generalize ls.map (fun s => s.map (dim m)) = shs
        rcases shs with _ | ⟨sh, _ | ⟨sh', shs⟩⟩ <;> simp [eq_comm]
  | arr x =>
    simp only
    split
    · next e => rw [e]; simp [eq_comm]
    · next e => simp [eq_comm, e]
  | tuple xs =>
    simp only
    split
    · next e => rw [e]; simp [eq_comm]
    · next e => simp [eq_comm, e]

theorem drawn_shapes (shs : List (List Nat)) (draw : Nat → List Nat → K) :
    (match shs with
      | [sh] => Params.arr ⟨sh, draw 0⟩
      | shs => .tuple ((List.range shs.length).map fun k => ⟨shs.getD k [], draw k⟩)).arrays.map NArr.shape = shs := by
  have : ∀ shs : List (List Nat), ((List.range shs.length).map fun k => (⟨shs.getD k [], draw k⟩ : NArr K)).map NArr.shape = shs := by
    intro shs
    rw [List.map_map]
    refine List.ext_getElem (by simp) fun k h1 h2 => ?_
    rw [List.getElem_map, List.getElem_range]
    show shs.getD k [] = _
    rw [List.getD_eq_getElem?_getD, List.getElem?_eq_getElem h2]
    rfl
  rcases shs with _ | ⟨sh, _ | ⟨sh', shs⟩⟩
  · rfl
  · rfl
  · exact this _

/-- C62: the module compiles when every index has one size: the arrays, the given sizes and a given parameter array agree on it, and it is known for the indices of the
parameters and of the output. The parameters get the shapes of their subscripts, and the declared shape is that of the output subscript. -/
theorem C62_compile {spec : Tree Str} {shapes : Tree (List Nat)} {ls is : List Str} {out : Str} (hc : Concretises spec shapes ls is out) (hne : is ≠ [])
    {f : Char → Nat} (hsh : jaxLeaves shapes = is.map fun s => s.map f) {user : List (Char × Nat)} (hu : ∀ c d, user.lookup c = some d → d = f c)
    {q : Params K} (hq : Fitting q ls f)
    (hcov : ∀ c ∈ ls.flatten ++ out, c ∈ is.flatten ∨ (user.lookup c).isSome = true ∨ ((∃ x, q = .arr x) ∧ c ∈ ls.flatten))
    {tr : Bool} (ht : tr = true ∨ ls = [] ∨ ∃ x, q = .arr x) (draw : Nat → List Nat → K) :
    ∃ p, Einsum.compile draw spec user tr q shapes = .ok p ∧ p.arrays.map NArr.shape = ls.map (fun s => s.map f) ∧ (∀ x, q = .arr x → p = q) ∧
      Einsum.outputShape spec user q shapes = .ok (out.map f) := by
  have hhp : (!q.absent) = true → ls ≠ [] := by
    rcases hq with rfl | ⟨x, l, rfl, rfl, -⟩ <;> simp [Params.absent]
  obtain ⟨b, hb, -⟩ := hc (!q.absent) hhp
  have hlen : is.length = (jaxLeaves shapes).length := by rw [hsh]; simp
  obtain ⟨m, hm, hdim⟩ := dimMap_total (b := b) (out := out) hne hsh hu hq hcov
  have hls : ls.map (fun s => s.map (dim m)) = ls.map fun s => s.map f := List.map_congr_left fun s hs => List.map_congr_left fun c hc =>
    hdim c (by
      rw [List.mem_append, List.flatten_append, List.mem_append]
      exact .inl (.inl (List.mem_flatten.2 ⟨s, hs, hc⟩)))
  have hout : out.map (dim m) = out.map f := List.map_congr_left fun c hc => hdim c (by simp [hc])
  have hos := outputShape_eq hb hm
  rw [hout] at hos
  rcases hq with rfl | ⟨x, l, rfl, rfl, hx⟩
  · by_cases hl : ls = []
    · exact ⟨.none, (compile_ok hb hne hlen hm).2 (by simp [hl]), by simp [hl, Params.arrays], fun _ _ => rfl, hos⟩
    · have htr : tr = true := by
        rcases ht with h | h | ⟨x, h⟩
        · exact h
        · exact absurd h hl
        · cases h
      refine ⟨_, (compile_ok hb hne hlen hm).2 (by simp only [hl, if_false]; exact ⟨htr, rfl⟩), ?_, (fun x hx => by cases hx), hos⟩
      rw [drawn_shapes, hls]
  · refine ⟨.arr x, (compile_ok hb hne hlen hm).2 ⟨?_, rfl⟩, ?_, fun _ _ => rfl, hos⟩
    · rw [hls]
      simp [Params.arrays, hx]
    · simp [Params.arrays, hx]

/-- C62: whatever compiles has one size per index: `f` gives the shapes of all input arrays, of the parameters and of the declared output. -/
theorem C62_sizes {spec : Tree Str} {shapes : Tree (List Nat)} {ls is : List Str} {out : Str} (hc : Concretises spec shapes ls is out) (hne : is ≠ [])
    (hlen : is.length = (jaxLeaves shapes).length) {user : List (Char × Nat)} {q p : Params K} (hq : ls = [] → q.arrays = []) {tr : Bool} {draw : Nat → List Nat → K}
    (h : Einsum.compile draw spec user tr q shapes = .ok p) :
    ∃ f, jaxLeaves shapes = is.map (fun s => s.map f) ∧ (∀ c d, user.lookup c = some d → d = f c) ∧ p.arrays.map NArr.shape = ls.map (fun s => s.map f) ∧
      Einsum.outputShape spec user q shapes = .ok (out.map f) := by
  obtain ⟨b, hb, -⟩ := hc (!q.absent) (by
    intro h e
    have := hq e
    cases q <;> simp_all [Params.absent, Params.arrays])
  have hcomp := h
  unfold Einsum.compile at h
  rw [hb] at h
  simp only at h
  cases hm : dimMap user ⟨ls, is, out, b⟩ (jaxLeaves shapes) q with
  | error e => rw [hm] at h; cases h
  | ok m =>
    obtain ⟨h1, h2, h3⟩ := dimMap_ok hne hlen hm
    refine ⟨dim m, h1, h2, ?_, outputShape_eq hb hm⟩
    have := (compile_ok hb hne hlen hm).1 hcomp
    cases q with
    | none =>
      simp only at this
      split at this
      · next e => rw [this, e]; rfl
      · rw [this.2, drawn_shapes]
    | arr x => rw [this.2]; exact this.1
    | tuple xs => rw [this.2]; exact this.1

/-- C62: after compiling, every call with a batch of `B` samples of the declared shapes succeeds. Its result has the declared shape, and its entries for sample `n` are the
contraction of the parameters with the arrays of sample `n`: samples are not mixed. -/
theorem C62_call [CommSemiring K] {spec : Tree Str} {shapes : Tree (List Nat)} {ls is : List Str} {out : Str} (hc : Concretises spec shapes ls is out) (hne : is ≠ [])
    {f : Char → Nat} (hsh : jaxLeaves shapes = is.map fun s => s.map f) {p : Params K} (hp : p.arrays.map NArr.shape = ls.map fun s => s.map f) (hempty : p.absent = false → ls ≠ [])
    (hout : out.Nodup) (hsub : ∀ c ∈ out, c ∈ (ls ++ is).flatten) {B : Nat} {data : Tree (NArr K)} (hd : (jaxLeaves data).map NArr.shape = (jaxLeaves shapes).map (B :: ·)) :
    ∃ y, Einsum.call spec p shapes data = .ok y ∧ y.shape = B :: out.map f ∧ ∀ n i, i.length = out.length →
      y.val (n :: i) = entry f (ls.zip (p.arrays.map NArr.val) ++ is.zip ((jaxLeaves data).map fun x j => x.val (n :: j))) out i := by
  obtain ⟨b, hb, -, hb1, hb2⟩ := hc (!p.absent) (by simpa using hempty)
  obtain ⟨y, h1, h2, h3⟩ := einsum_batch hb1 hb2 hout hsub hne hp (D := jaxLeaves data) (B := B) (by rw [hd, hsh, List.map_map]; rfl)
  refine ⟨y, ?_, h2, h3⟩
  unfold Einsum.call
  rw [hb]
  exact h1

/-- C62 for a subscript string, from the constructor to the result: if the sizes fit, the module compiles, declares the shape of its output subscript, and maps every batch
sample by sample to the contraction the string denotes. -/
theorem C62_einsum [CommSemiring K] {ls is : List Str} {o : Option Str} {out : Str} (h : Subscripts ls is o) (ho : IsOutput ls is o out) (hout : out.Nodup)
    (hsub : ∀ c ∈ out, c ∈ (ls ++ is).flatten) (hfew : (ls ++ is).flatten.dedup.length < 52)
    {shapes : Tree (List Nat)} {f : Char → Nat} (hsh : jaxLeaves shapes = is.map fun s => s.map f) {user : List (Char × Nat)} (hu : ∀ c d, user.lookup c = some d → d = f c)
    (hcov : ∀ c ∈ ls.flatten, c ∈ is.flatten ∨ (user.lookup c).isSome = true) {tr : Bool} (ht : tr = true ∨ ls = []) (draw : Nat → List Nat → K) :
    ∃ p, Einsum.compile draw (.leaf (text (ls ++ is) o)) user tr .none shapes = .ok p ∧ p.arrays.map NArr.shape = ls.map (fun s => s.map f) ∧
      Einsum.outputShape (.leaf (text (ls ++ is) o)) user (.none : Params K) shapes = .ok (out.map f) ∧
      ∀ (B : Nat) (data : Tree (NArr K)), (jaxLeaves data).map NArr.shape = (jaxLeaves shapes).map (B :: ·) →
        ∃ y, Einsum.call (.leaf (text (ls ++ is) o)) p shapes data = .ok y ∧ y.shape = B :: out.map f ∧ ∀ n i, i.length = out.length →
          y.val (n :: i) = entry f (ls.zip (p.arrays.map NArr.val) ++ is.zip ((jaxLeaves data).map fun x j => x.val (n :: j))) out i := by
  have hr : List.Forall₂ (fun s sh => s.length = sh.length) is (jaxLeaves shapes) := by
    rw [hsh, List.forall₂_map_right_iff]
    exact List.forall₂_same.2 fun s _ => by simp
  obtain ⟨c, hc1, hc2⟩ := free_letter hfew
  have hc := C62_string h ho hr ⟨c, hc1, hc2, fun h => hc2 (hsub c h)⟩
  have hcov' : ∀ c ∈ ls.flatten ++ out, c ∈ is.flatten ∨ (user.lookup c).isSome = true ∨ ((∃ x : NArr K, Params.none = .arr x) ∧ c ∈ ls.flatten) := by
    intro c hc
    have : c ∈ ls.flatten ∨ c ∈ is.flatten := by
      rcases List.mem_append.1 hc with h | h
      · exact .inl h
      · have := hsub c h
        rwa [List.flatten_append, List.mem_append] at this
    rcases this with h | h
    · exact (hcov c h).imp id .inl
    · exact .inl h
  obtain ⟨p, h1, h2, -, h4⟩ := C62_compile hc h.nonempty hsh hu (.inl rfl) hcov' (ht.imp id .inl) draw
  refine ⟨p, h1, h2, h4, fun B data hd => C62_call hc h.nonempty hsh h2 (fun he hl => ?_) hout hsub hd⟩
  subst hl
  have : p.arrays = [] := by simpa using h2
  cases p <;> simp_all [Params.absent, Params.arrays]

/-- A non-trivial case: `"ab,bc,c"` with two trainable matrices and a vector of size 5; `a` has size 3 and `b` size 4. -/
def demoSize : Char → Nat := fun c => if c = 'a' then 3 else if c = 'b' then 4 else 5

example : ∃ p, Einsum.compile (fun k _ => (k : ℤ) + 1) (.leaf "ab,bc,c".toList) [('a', 3), ('b', 4)] true .none (.leaf [5]) = .ok p ∧ p.arrays.map NArr.shape = [[3, 4], [4, 5]] ∧
    Einsum.outputShape (.leaf "ab,bc,c".toList) [('a', 3), ('b', 4)] (.none : Params ℤ) (.leaf [5]) = .ok [3] ∧
    ∀ x : NArr ℤ, x.shape = [2, 5] → ∃ y, Einsum.call (.leaf "ab,bc,c".toList) p (.leaf [5]) (.leaf x) = .ok y ∧ y.shape = [2, 3] := by
  obtain ⟨p, h1, h2, h3, h4⟩ := C62_einsum (K := ℤ) (ls := ["ab".toList, "bc".toList]) (is := ["c".toList]) (o := Option.none) (out := "a".toList) (shapes := .leaf [5]) (f := demoSize)
    (user := [('a', 3), ('b', 4)]) (tr := true)
    ⟨by decide +kernel, by decide +kernel, by simp, by simp, by simp⟩
    ⟨by decide +kernel, by decide +kernel, fun c => by
      by_cases ha : c = 'a'
      · subst ha; decide +kernel
      · by_cases hb : c = 'b'
        · subst hb; decide +kernel
        · by_cases hc : c = 'c'
          · subst hc; decide +kernel
          · have e1 : ('a' == c) = false := by simpa using fun e => ha e.symm
            have e2 : ('b' == c) = false := by simpa using fun e => hb e.symm
            have e3 : ('c' == c) = false := by simpa using fun e => hc e.symm
            simp [ha, List.count_cons, e1, e2, e3]⟩
    (by decide +kernel) (by decide +kernel) (by decide +kernel) (by decide +kernel)
    (by
      intro c d h
      by_cases ha : c = 'a'
      · subst ha; simp at h; subst h; rfl
      · by_cases hb : c = 'b'
        · subst hb; simp [List.lookup] at h; subst h; rfl
        · have e1 : (c == 'a') = false := by simpa using ha
          have e2 : (c == 'b') = false := by simpa using hb
          simp [List.lookup, e1, e2] at h)
    (by decide +kernel) (.inl rfl) (fun k _ => (k : ℤ) + 1)
  refine ⟨p, h1, h2, h3, fun x hx => ?_⟩
  obtain ⟨y, hy, hs, -⟩ := h4 2 (.leaf x) (by simp [jaxLeaves, Tree.norm, flat, hx])
  exact ⟨y, hy, hs⟩

/-! ### Defects -/

/-- C62 fails: with fewer subscripts than arrays the module compiles and declares a shape, but every call raises. -/
theorem C62_missing_refuted (draw : Nat → List Nat → ℤ) :
    Einsum.compile draw (.leaf "ij".toList) [] false .none (.list [.leaf [2, 3], .leaf [4]]) = .ok .none ∧
    Einsum.outputShape (.leaf "ij".toList) [] (.none : Params ℤ) (.list [.leaf [2, 3], .leaf [4]]) = .ok [2, 3] ∧
    ∀ x y : NArr ℤ, Einsum.call (.leaf "ij".toList) .none (.list [.leaf [2, 3], .leaf [4]]) (.list [.leaf x, .leaf y]) = .error .valueError := by
  have hc : concretise (.leaf "ij".toList) false (.list [.leaf [2, 3], .leaf [4]]) = .ok ⟨[], ["ij".toList], "ij".toList, 'a'⟩ := by decide +kernel
  refine ⟨by rfl, by decide +kernel, fun x y => ?_⟩
  unfold Einsum.call
  rw [show (!(Params.none : Params ℤ).absent) = false from rfl, hc]
  rfl

/-- C62 fails: repeated output indices are accepted, and every call raises. -/
theorem C62_output_refuted (draw : Nat → List Nat → ℤ) :
    Einsum.compile draw (.leaf "i->ii".toList) [] false .none (.leaf [3]) = .ok .none ∧
    Einsum.outputShape (.leaf "i->ii".toList) [] (.none : Params ℤ) (.leaf [3]) = .ok [3, 3] ∧
    ∀ (x : NArr ℤ), ∃ e, Einsum.call (.leaf "i->ii".toList) .none (.leaf [3]) (.leaf x) = .error e := by
  have hc : concretise (.leaf "i->ii".toList) false (.leaf [3]) = .ok ⟨[], ["i".toList], "ii".toList, 'a'⟩ := by decide +kernel
  refine ⟨by rfl, by decide +kernel, fun x => ?_⟩
  unfold Einsum.call
  rw [show (!(Params.none : Params ℤ).absent) = false from rfl, hc]
  simp only
  unfold einsum
  rw [if_neg (by simp [Params.arrays, jaxLeaves, Tree.norm, flat])]
  split
  · exact ⟨_, rfl⟩
  · rw [if_neg (by decide)]
    exact ⟨_, rfl⟩

/-- C62 fails: a scalar in front is lost, so that valid subscripts are refused. -/
theorem C62_scalar_refuted :
    concretise (.leaf ",i".toList) false (.list [.leaf [], .leaf [3]]) = .error .valueError ∧
    concretise (.leaf "i,".toList) false (.list [.leaf [3], .leaf []]) = .ok ⟨[], ["i".toList, []], "i".toList, 'a'⟩ := by decide +kernel

/-- C62 fails: with two parameter arrays the compiled module no longer declares a shape. -/
theorem C62_tuple_refuted (draw : Nat → List Nat → ℤ) :
    ∃ p, Einsum.compile draw (.leaf "ab,bc,c".toList) [('a', 3), ('b', 4)] true .none (.leaf [5]) = .ok p ∧
      Einsum.outputShape (.leaf "ab,bc,c".toList) [('a', 3), ('b', 4)] (.none : Params ℤ) (.leaf [5]) = .ok [3] ∧
      Einsum.outputShape (.leaf "ab,bc,c".toList) [('a', 3), ('b', 4)] p (.leaf [5]) = .error .valueError ∧
      Einsum.compile draw (.leaf "ab,bc,c".toList) [('a', 3), ('b', 4)] true p (.leaf [5]) = .error .valueError := by
  have hc : concretise (.leaf "ab,bc,c".toList) true (.leaf [5]) = .ok ⟨["ab".toList, "bc".toList], ["c".toList], "a".toList, 'd'⟩ := by decide +kernel
  refine ⟨.tuple [⟨[3, 4], draw 0⟩, ⟨[4, 5], draw 1⟩], by rfl, by decide +kernel, ?_, ?_⟩
  · unfold Einsum.outputShape
    rw [show (!(Params.tuple [(⟨[3, 4], draw 0⟩ : NArr ℤ), ⟨[4, 5], draw 1⟩]).absent) = true from rfl, hc]
    rfl
  · unfold Einsum.compile
    rw [show (!(Params.tuple [(⟨[3, 4], draw 0⟩ : NArr ℤ), ⟨[4, 5], draw 1⟩]).absent) = true from rfl, hc]
    rfl

end Verif.Props
