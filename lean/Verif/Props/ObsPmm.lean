import Verif.Model.ObsPmm
import Verif.Props.Elementwise

/-!
# C88: compiling an observable model
-/

namespace Verif.Props
open Reshape ReshapeSpec Tree ForwardSpec NArr NdSpec Elementwise AffineTensor ObsPmm

variable {V : Type}

mutual
theorem shapeLeaves_map (g : List Nat → List Nat) : ∀ t : Tree (List Nat), Option.none ∉ shapeLeaves t → some [] ∉ shapeLeaves t → shapeLeaves (map g t) = (shapeLeaves t).map (Option.map g)
  | .leaf _, _, _ => rfl
  | .none, h, _ => by simp [shapeLeaves] at h
  | .list ts, h, h' => shapeLeavesL_map g ts h h'
  | .tuple [], _, h => by simp [shapeLeaves] at h
  | .tuple (t :: ts), h, h' => shapeLeavesL_map g (t :: ts) h h'
  | .dict ts, h, h' => shapeLeavesD_map g ts h h'
theorem shapeLeavesL_map (g : List Nat → List Nat) : ∀ ts : List (Tree (List Nat)), Option.none ∉ shapeLeavesL ts → some [] ∉ shapeLeavesL ts → shapeLeavesL (mapL g ts) = (shapeLeavesL ts).map (Option.map g)
  | [], _, _ => rfl
  | t :: ts, h, h' => by
    simp only [shapeLeavesL, List.mem_append, not_or] at h h'
    simp only [mapL, shapeLeavesL, List.map_append, shapeLeaves_map g t h.1 h'.1, shapeLeavesL_map g ts h.2 h'.2]
theorem shapeLeavesD_map (g : List Nat → List Nat) : ∀ ts : List (Str × Tree (List Nat)), Option.none ∉ shapeLeavesD ts → some [] ∉ shapeLeavesD ts → shapeLeavesD (mapD g ts) = (shapeLeavesD ts).map (Option.map g)
  | [], _, _ => rfl
  | (k, t) :: ts, h, h' => by
    simp only [shapeLeavesD, List.mem_append, not_or] at h h'
    simp only [mapD, shapeLeavesD, List.map_append, shapeLeaves_map g t h.1 h'.1, shapeLeavesD_map g ts h.2 h'.2]
end

theorem single_map {s : Tree (List Nat)} (hk : KeysOk s) {a : List Nat} (ha : a ≠ []) (h : treeFlattenShape s = [some a]) (g : List Nat → List Nat) :
    treeFlattenShape (map g s.norm) = [some (g a)] := by
  unfold treeFlattenShape at h ⊢
  rw [Tree.norm_map, norm_norm hk, shapeLeaves_map g _ (by simp [h]) (by simp [h, ha.symm]), h]
  rfl

theorem affineNew_ok {herm : NArr V → Bool} {size : Option Nat} {b : Bool} {Ms : Option (NArr V)} {a : Md V} :
    affineNew herm size b Ms = .ok a ↔ size ≠ some 0 ∧ ((Ms = Option.none ∧ a = .affine size b Option.none) ∨
      ∃ M p n, Ms = some M ∧ M.shape = [p, n, n] ∧ herm M = true ∧ (size = Option.none ∨ size = some n) ∧ a = .affine (some n) b (some M)) := by
  unfold affineNew
  by_cases h0 : size = some 0
  · simp [h0]
  · simp only [h0, if_false, ne_eq, not_false_eq_true, true_and]
    cases Ms with
    | none => simpa using eq_comm
    | some M =>
      simp only [Option.some.injEq, reduceCtorEq, false_and, false_or]
      constructor
      · intro h
        split at h
        · cases h
        · cases h
        · rename_i p n r hs
          split at h
          · rename_i he
            split at h
            · rename_i hh; cases h; exact ⟨M, p, n, rfl, hs.trans he, hh, .inl rfl, rfl⟩
            · cases h
          · cases h
        · cases h
        · rename_i n p r hs
          split at h
          · rename_i he
            split at h
            · rename_i hh; cases h; exact ⟨M, p, n, rfl, hs.trans he, hh, .inr rfl, rfl⟩
            · cases h
          · cases h
      · rintro ⟨M', p, n, rfl, hs, hh, hsz, rfl⟩
        rcases hsz with rfl | rfl
        · simp [hs, hh]
        · simp [hs, hh]

theorem eigNew_ok {k : Option Nat} {w : Bool} {e : Md V} : eigNew k w = .ok e ↔ k ≠ some 0 ∧ w = true ∧ e = .eig k := by
  unfold eigNew
  by_cases h0 : k = some 0
  · simp [h0]
  · cases w <;> simp [h0, eq_comm]

theorem obsNew_ok {herm : NArr V → Bool} {ex : Bool} {l q : Option Nat} {Ds : Option (NArr V)} {o : Md V} :
    obsNew herm ex l q Ds = .ok o ↔ (Ds = Option.none ∧ o = .obs ex l q Option.none) ∨
      ∃ D a b c, Ds = some D ∧ D.shape = [a, b, c, c] ∧ herm D = true ∧ (l = Option.none ∨ l = some b) ∧ (q = Option.none ∨ q = some a) ∧ o = .obs ex (some b) (some a) (some D) := by
  unfold obsNew
  cases Ds with
  | none => simpa using eq_comm
  | some D =>
    simp only [Option.some.injEq, reduceCtorEq, false_and, false_or]
    constructor
    · intro h
      split at h
      · rename_i a b c d hs
        split at h
        · cases h
        · rename_i h1
          split at h
          · cases h
          · rename_i h2
            split at h
            · cases h
            · rename_i h3
              split at h
              · cases h
              · rename_i h4
                cases h
                simp only [ne_eq, not_not] at h1
                subst h1
                refine ⟨D, a, b, c, rfl, hs, by simpa using h2, ?_, ?_, rfl⟩
                · cases l <;> simp_all
                · cases q <;> simp_all
      · cases h
    · rintro ⟨D', a, b, c, rfl, hs, hh, hl, hq, rfl⟩
      rw [hs]
      simp only [ne_eq, not_true_eq_false, if_false, hh]
      rcases hl with rfl | rfl <;> rcases hq with rfl | rfl <;> simp

theorem singleLeaf_ok {k : Nat} {s : Tree (List Nat)} {sh : List Nat} : singleLeaf k s = .ok (some sh) ↔ treeFlattenShape s = [some sh] ∧ sh.length = k := by
  unfold singleLeaf
  split
  · rename_i sh' h
    simp only [h, Except.ok.injEq, List.cons.injEq, Option.some.injEq, and_true]
    split
    · rename_i hl; simp only [Option.some.injEq]; constructor
      · rintro rfl; exact ⟨rfl, hl⟩
      · exact fun x => x.1
    · rename_i hl; simp only [reduceCtorEq, false_iff]; rintro ⟨rfl, h⟩; exact hl h
  · rename_i h; simp [h]
  · rename_i h1 h2
    simp only [Except.ok.injEq, reduceCtorEq, false_iff]
    rintro ⟨h, -⟩
    exact h1 _ h

theorem affine_compile {draw : Nat → List Nat → List Nat → V} {i : Nat} {sz : Option Nat} {b : Bool} {Ms : Option (NArr V)} {s : Tree (List Nat)} {a : Md V} :
    Md.compile draw i (.affine sz b Ms) s = .ok a ↔ ∃ f, treeFlattenShape s = [some [f]] ∧ ((∃ M, Ms = some M ∧ M.shape.headD 0 = f + b.toNat ∧ a = .affine sz b Ms) ∨
      (Ms = Option.none ∧ ∃ n, sz = some n ∧ a = .affine sz b (some ⟨[f + b.toNat, n, n], draw i [f + b.toNat, n, n]⟩))) := by
  have hp : ∀ f, (if b = true then f + 1 else f) = f + b.toNat := by intro f; cases b <;> rfl
  simp only [Md.compile]
  split
  · rename_i e h
    simp only [reduceCtorEq, false_iff]
    rintro ⟨f, hf, -⟩
    have : singleLeaf 1 s = .ok (some [f]) := singleLeaf_ok.2 ⟨hf, rfl⟩
    rw [h] at this; cases this
  · rename_i h
    simp only [reduceCtorEq, false_iff]
    rintro ⟨f, hf, -⟩
    have : singleLeaf 1 s = .ok (some [f]) := singleLeaf_ok.2 ⟨hf, rfl⟩
    rw [h] at this; cases this
  · rename_i sh h
    obtain ⟨h1, h2⟩ := singleLeaf_ok.1 h
    obtain ⟨f, rfl⟩ := List.length_eq_one_iff.1 h2
    simp only [List.headD_cons, hp, h1, List.cons.injEq, Option.some.injEq, and_true]
    cases Ms with
    | some M =>
      by_cases hM : M.shape.headD 0 = f + b.toNat
      · simp only [hM, if_true]; simp [eq_comm (a := a)]
        exact fun _ => by simpa using hM
      · simp only [hM, if_false]; simp
        exact fun h' => absurd (by simpa using h') hM
    | none => cases sz with
      | none => simp
      | some n => simp [eq_comm (a := a)]

theorem eig_compile {draw : Nat → List Nat → List Nat → V} {i : Nat} {k : Option Nat} {s : Tree (List Nat)} {n : Nat} (h : treeFlattenShape s = [some [n, n]]) {e : Md V} :
    Md.compile draw i (.eig k) s = .ok e ↔ k.getD 0 ≤ n ∧ e = .eig k := by
  by_cases hk : k.getD 0 ≤ n
  · simp [Md.compile, h, hk, eq_comm (a := e)]
  · simp [Md.compile, h, hk]

theorem obs_compile {draw : Nat → List Nat → List Nat → V} {i : Nat} {ex : Bool} {l q : Option Nat} {Ds : Option (NArr V)} {s : Tree (List Nat)} {n k : Nat} (h : treeFlattenShape s = [some [n, k]]) {o : Md V} :
    Md.compile draw i (.obs ex l q Ds) s = .ok o ↔ ∃ l' q', l = some l' ∧ q = some q' ∧ ((∃ D, Ds = some D ∧ D.shape.getD 2 0 = n ∧ D.shape.getD 3 0 = n ∧ o = .obs ex l q Ds) ∨
      (Ds = Option.none ∧ o = .obs ex l q (some ⟨[q', l', n, n], draw i [q', l', n, n]⟩))) := by
  have hs : singleLeaf 2 s = .ok (some [n, k]) := singleLeaf_ok.2 ⟨h, rfl⟩
  simp only [Md.compile]
  cases l with
  | none => simp
  | some l' => cases q with
    | none => simp
    | some q' =>
      simp only [hs, List.headD_cons]
      cases Ds with
      | none => simp [eq_comm (a := o)]
      | some D =>
        by_cases hD : D.shape.getD 2 0 = n ∧ D.shape.getD 3 0 = n
        · simp only [hD, and_self, if_true, Except.ok.injEq]
          constructor
          · rintro rfl; exact ⟨_, _, rfl, rfl, .inl ⟨D, rfl, hD.1, hD.2, rfl⟩⟩
          · rintro ⟨_, _, -, -, ⟨D', h1, h2, h3, h4⟩ | ⟨h1, -⟩⟩
            · exact h4.symm
            · cases h1
        · simp only [hD, if_false, reduceCtorEq, false_iff]
          rintro ⟨_, _, -, -, ⟨D', h1, h2, h3, -⟩ | ⟨h1, -⟩⟩
          · cases h1; exact hD ⟨h2, h3⟩
          · cases h1

/-- The arguments describe a model for samples of `f` numbers: matrices of size `n`, `q` outputs, each a sum over `l` matrices. What is given agrees, and what is needed is given. -/
structure ObsGood (herm : NArr V → Bool) (h : Hyper V) (f n q l : Nat) : Prop where
  size : h.size = some n ∨ h.size = Option.none ∧ h.Ms ≠ Option.none
  pos : h.size ≠ some 0
  which : h.whichOk = true
  num : ∀ k, h.numEig = some k → 0 < k ∧ k ≤ n
  Ms : ∀ M, h.Ms = some M → M.shape = [f + h.affineBias.toNat, n, n] ∧ herm M = true
  Ds : ∀ D, h.Ds = some D → D.shape = [q, l, n, n] ∧ herm D = true
  out : ∀ q', h.out = some q' → q' = q
  secondaries : ∀ l', h.secondaries = some l' → l' = l
  known : h.Ds = Option.none → h.out ≠ Option.none ∧ h.secondaries ≠ Option.none

/-- The modules that belong to such arguments: matrices, eigenvectors, observables and, if asked for, a bias. -/
def obsModules (h : Hyper V) (n q l : Nat) (M D : NArr V) (b : BiasParam V) : List (Md V) :=
  .affine (some n) h.affineBias (some M) :: .eig h.numEig :: .obs h.expect (some l) (some q) (some D) :: if h.biasTerm then [.bias (some b)] else []

theorem subCompile_cons {draw : Nat → List Nat → List Nat → V} {i : Nat} {m : Md V} {ms r : List (Md V)} {s o : Tree (List Nat)} :
    subCompile draw i (m :: ms) s = (r, .ok o) ↔ ∃ m' r', m.compile draw i s = .ok m' ∧ subCompile draw (i + 1) ms (m'.shape s) = (r', .ok o) ∧ r = m' :: r' := by
  rw [subCompile]
  cases h : m.compile draw i s with
  | error e => simp
  | ok m' =>
    simp only [Prod.mk.injEq, Except.ok.injEq, exists_eq_left']
    constructor
    · rintro ⟨rfl, h2⟩
      exact ⟨m', _, rfl, Prod.ext rfl h2, rfl⟩
    · rintro ⟨_, r', rfl, h2, rfl⟩
      rw [h2]; exact ⟨rfl, rfl⟩

theorem sub_ok {herm : NArr V → Bool} {draw : Nat → List Nat → List Nat → V} {h : Hyper V} {ms ms' : List (Md V)} {s o : Tree (List Nat)} (hk : KeysOk s)
    (hb : build herm h = (some ms, Option.none)) (hc : subCompile draw 0 ms s = (ms', .ok o)) : ∃ f n q l, treeFlattenShape s = [some [f]] ∧ ObsGood herm h f n q l := by
  unfold build at hb
  split at hb
  · cases hb
  · rename_i a ha
    split at hb
    · cases hb
    · rename_i e he
      split at hb
      · cases hb
      · rename_i ob ho
        have hms : ms = a :: e :: ob :: (if h.biasTerm then [.bias Option.none] else []) := by
          simp only [Prod.mk.injEq, Option.some.injEq, and_true] at hb
          rw [← hb]; split <;> rfl
        rw [hms] at hc
        obtain ⟨a', r, ha', hc, -⟩ := subCompile_cons.1 hc
        · obtain ⟨ha0, haN⟩ := affineNew_ok.1 ha
          obtain ⟨he1, he2, rfl⟩ := eigNew_ok.1 he
          obtain ⟨f, n, hf, has, hMs, hsz⟩ : ∃ f n, treeFlattenShape s = [some [f]] ∧ (∃ M, a' = .affine (some n) h.affineBias (some M)) ∧
              (∀ M, h.Ms = some M → M.shape = [f + h.affineBias.toNat, n, n] ∧ herm M = true) ∧ (h.size = some n ∨ h.size = Option.none ∧ h.Ms ≠ Option.none) := by
            rcases haN with ⟨hN, rfl⟩ | ⟨M, p, n, hM, hMs, hh, hsz, rfl⟩
            · obtain ⟨f, hf, ⟨M, h1, -⟩ | ⟨-, n, h2, rfl⟩⟩ := affine_compile.1 ha'
              · cases h1
              · exact ⟨f, n, hf, ⟨_, by rw [h2]⟩, (fun M hM => by rw [hN] at hM; cases hM), .inl h2⟩
            · obtain ⟨f, hf, ⟨M', h1, h2, rfl⟩ | ⟨h1, -⟩⟩ := affine_compile.1 ha'
              · cases h1
                refine ⟨f, n, hf, ⟨_, rfl⟩, fun M' hM' => ?_, ?_⟩
                · rw [hM] at hM'; cases hM'
                  rw [hMs] at h2 ⊢
                  exact ⟨by rw [← h2]; rfl, hh⟩
                · rcases hsz with h' | h'
                  · exact .inr ⟨h', by simp [hM]⟩
                  · exact .inl h'
              · cases h1
          obtain ⟨M, rfl⟩ := has
          have t1 := single_map hk (by simp) hf (fun _ => [n, n])
          have t2 : treeFlattenShape (map (fun sh => [sh.headD 0, h.numEig.getD (sh.headD 0)]) (map (fun _ => [n, n]) s.norm).norm) = [some [n, h.numEig.getD n]] := by
            rw [Tree.norm_map, norm_norm hk, Tree.map_map]
            exact single_map hk (by simp) hf _
          simp only [Md.shape, Option.getD_some] at hc
          obtain ⟨e', r', he', hc, -⟩ := subCompile_cons.1 hc
          · obtain ⟨hkn, rfl⟩ := (eig_compile t1).1 he'
            simp only [Md.shape] at hc
            obtain ⟨o', r', ho', hc, -⟩ := subCompile_cons.1 hc
            · obtain ⟨l', q', hl, hq, ho1⟩ : ∃ l' q', True ∧ True ∧ (∀ D, h.Ds = some D → D.shape = [q', l', n, n] ∧ herm D = true) ∧ (∀ x, h.out = some x → x = q') ∧ (∀ x, h.secondaries = some x → x = l') ∧
                  (h.Ds = Option.none → h.out ≠ Option.none ∧ h.secondaries ≠ Option.none) := by
                rcases obsNew_ok.1 ho with ⟨hD, rfl⟩ | ⟨D, a, b, c, hD, hs, hh, hl, hq, rfl⟩
                · obtain ⟨l', q', h1, h2, -⟩ := (obs_compile t2).1 ho'
                  exact ⟨l', q', trivial, trivial, (fun D h' => by rw [hD] at h'; cases h'), (fun x hx => by rw [h2] at hx; cases hx; rfl), (fun x hx => by rw [h1] at hx; cases hx; rfl),
                    fun _ => ⟨by simp [h2], by simp [h1]⟩⟩
                · obtain ⟨l', q', h1, h2, ⟨D', h3, h4, h5, -⟩ | ⟨h3, -⟩⟩ := (obs_compile t2).1 ho'
                  · cases h1; cases h2; cases h3
                    refine ⟨b, a, trivial, trivial, (fun D' h' => ?_), (fun x hx => ?_), (fun x hx => ?_), (fun h' => by rw [hD] at h'; cases h')⟩
                    · rw [hD] at h'; cases h'
                      rw [hs] at h4 ⊢
                      simp only [List.getD_cons_succ, List.getD_cons_zero] at h4
                      exact ⟨by rw [h4], hh⟩
                    · rw [hx] at hq; rcases hq with hq | hq <;> cases hq; rfl
                    · rw [hx] at hl; rcases hl with hl | hl <;> cases hl; rfl
                  · cases h3
              refine ⟨f, n, q', l', hf, hsz, ha0, he2, fun k hk' => ?_, hMs, ho1.1, ho1.2.1, ho1.2.2.1, ho1.2.2.2⟩
              rw [hk'] at hkn he1
              exact ⟨Nat.pos_of_ne_zero fun h0 => he1 (by rw [h0]), hkn⟩

theorem good_build {herm : NArr V → Bool} {h : Hyper V} {f n q l : Nat} (g : ObsGood herm h f n q l) :
    build herm h = (some (.affine (h.Ms.elim h.size fun _ => some n) h.affineBias h.Ms :: .eig h.numEig :: .obs h.expect (some l) (some q) h.Ds :: if h.biasTerm then [.bias Option.none] else []), Option.none) := by
  have ha : affineNew herm h.size h.affineBias h.Ms = .ok (.affine (h.Ms.elim h.size fun _ => some n) h.affineBias h.Ms) := by
    refine affineNew_ok.2 ⟨g.pos, ?_⟩
    cases hM : h.Ms with
    | none => exact .inl ⟨rfl, rfl⟩
    | some M => exact .inr ⟨M, _, n, rfl, (g.Ms M hM).1, (g.Ms M hM).2, g.size.elim .inr fun x => .inl x.1, rfl⟩
  have he : eigNew (V := V) h.numEig h.whichOk = .ok (.eig h.numEig) :=
    eigNew_ok.2 ⟨fun h0 => absurd (g.num 0 h0).1 (by simp), g.which, rfl⟩
  have ho : obsNew herm h.expect h.secondaries h.out h.Ds = .ok (.obs h.expect (some l) (some q) h.Ds) := by
    have h1 : ∀ {o : Option Nat} {x : Nat}, (∀ y, o = some y → y = x) → o = Option.none ∨ o = some x := by
      intro o x h; cases o with
      | none => exact .inl rfl
      | some y => rw [h y rfl]; exact .inr rfl
    refine obsNew_ok.2 ?_
    cases hD : h.Ds with
    | none =>
      obtain ⟨k1, k2⟩ := g.known hD
      rw [(h1 g.out).resolve_left k1, (h1 g.secondaries).resolve_left k2]
      exact .inl ⟨rfl, rfl⟩
    | some D => exact .inr ⟨D, q, l, n, rfl, (g.Ds D hD).1, (g.Ds D hD).2, h1 g.secondaries, h1 g.out, rfl⟩
  unfold build
  rw [ha, he, ho]
  cases h.biasTerm <;> rfl

/-- A model with modules of these shapes, whatever the parameters are, compiles to the same modules. -/
theorem kept_compile {draw : Nat → List Nat → List Nat → V} {h : Hyper V} {f n q l : Nat} {M D : NArr V} {b : BiasParam V} {s : Tree (List Nat)} (hk : KeysOk s)
    (hs : treeFlattenShape s = [some [f]]) (hM : M.shape = [f + h.affineBias.toNat, n, n]) (hD : D.shape = [q, l, n, n]) (hn : h.numEig.getD 0 ≤ n)
    (hb : biasCheck b (map (fun _ => [q]) s.norm) = .ok ()) :
    subCompile draw 0 (obsModules h n q l M D b) s = (obsModules h n q l M D b, .ok (map (fun _ => [q]) s.norm)) := by
  have t1 := single_map hk (by simp) hs (fun _ => [n, n])
  have t2 : treeFlattenShape (map (fun sh => [sh.headD 0, h.numEig.getD (sh.headD 0)]) (map (fun _ => [n, n]) s.norm).norm) = [some [n, h.numEig.getD n]] := by
    rw [Tree.norm_map, norm_norm hk, Tree.map_map]
    exact single_map hk (by simp) hs _
  have t3 : map (fun _ => [q]) (map (fun sh => [sh.headD 0, h.numEig.getD (sh.headD 0)]) (map (fun _ => [n, n]) s.norm).norm).norm = map (fun _ => [q]) s.norm := by
    simp only [Tree.norm_map, norm_norm hk, Tree.map_map]
  unfold obsModules
  refine subCompile_cons.2 ⟨_, _, affine_compile.2 ⟨f, hs, .inl ⟨M, rfl, by rw [hM]; rfl, rfl⟩⟩, ?_, rfl⟩
  refine subCompile_cons.2 ⟨_, _, (eig_compile t1).2 ⟨hn, rfl⟩, ?_, rfl⟩
  refine subCompile_cons.2 ⟨_, _, (obs_compile t2).2 ⟨l, q, rfl, rfl, .inl ⟨D, rfl, by rw [hD]; rfl, by rw [hD]; rfl, rfl⟩⟩, ?_, rfl⟩
  simp only [Md.shape, Option.getD_some, t3]
  cases h.biasTerm
  · rfl
  · exact subCompile_cons.2 ⟨_, _, (by simp only [Md.compile, hb]), rfl, rfl⟩

theorem fresh_compile {herm : NArr V → Bool} {draw : Nat → List Nat → List Nat → V} {h : Hyper V} {f n q l : Nat} {s : Tree (List Nat)} (hk : KeysOk s)
    (hs : treeFlattenShape s = [some [f]]) (g : ObsGood herm h f n q l) :
    subCompile draw 0 (.affine (h.Ms.elim h.size fun _ => some n) h.affineBias h.Ms :: .eig h.numEig :: .obs h.expect (some l) (some q) h.Ds :: if h.biasTerm then [.bias Option.none] else []) s =
      (obsModules h n q l (h.Ms.getD ⟨[f + h.affineBias.toNat, n, n], draw 0 [f + h.affineBias.toNat, n, n]⟩) (h.Ds.getD ⟨[q, l, n, n], draw 2 [q, l, n, n]⟩)
        (biasInit (draw 3) false (map (fun _ => [q]) s.norm)), .ok (map (fun _ => [q]) s.norm)) := by
  have t1 := single_map hk (by simp) hs (fun _ => [n, n])
  have t2 : treeFlattenShape (map (fun sh => [sh.headD 0, h.numEig.getD (sh.headD 0)]) (map (fun _ => [n, n]) s.norm).norm) = [some [n, h.numEig.getD n]] := by
    rw [Tree.norm_map, norm_norm hk, Tree.map_map]
    exact single_map hk (by simp) hs _
  have t3 : map (fun _ => [q]) (map (fun sh => [sh.headD 0, h.numEig.getD (sh.headD 0)]) (map (fun _ => [n, n]) s.norm).norm).norm = map (fun _ => [q]) s.norm := by
    simp only [Tree.norm_map, norm_norm hk, Tree.map_map]
  have hn : h.numEig.getD 0 ≤ n := by
    cases hn : h.numEig with
    | none => exact Nat.zero_le _
    | some k => exact (g.num k hn).2
  have hA : Md.compile draw 0 (.affine (h.Ms.elim h.size fun _ => some n) h.affineBias h.Ms) s =
      .ok (.affine (some n) h.affineBias (some (h.Ms.getD ⟨[f + h.affineBias.toNat, n, n], draw 0 [f + h.affineBias.toNat, n, n]⟩))) := by
    refine affine_compile.2 ⟨f, hs, ?_⟩
    cases hM : h.Ms with
    | none =>
      have := g.size.resolve_right (fun x => x.2 hM)
      exact .inr ⟨rfl, n, this, by rw [← this]; rfl⟩
    | some M => exact .inl ⟨M, rfl, by rw [(g.Ms M hM).1]; rfl, rfl⟩
  unfold obsModules
  refine subCompile_cons.2 ⟨_, _, hA, ?_, rfl⟩
  refine subCompile_cons.2 ⟨_, _, (eig_compile t1).2 ⟨hn, rfl⟩, ?_, rfl⟩
  have hO : Md.compile draw (0 + 1 + 1) (.obs h.expect (some l) (some q) h.Ds) (map (fun sh => [sh.headD 0, h.numEig.getD (sh.headD 0)]) (map (fun _ => [n, n]) s.norm).norm) =
      .ok (.obs h.expect (some l) (some q) (some (h.Ds.getD ⟨[q, l, n, n], draw 2 [q, l, n, n]⟩))) := by
    refine (obs_compile t2).2 ⟨l, q, rfl, rfl, ?_⟩
    cases hD : h.Ds with
    | none => exact .inr ⟨rfl, rfl⟩
    | some D => exact .inl ⟨D, rfl, by rw [(g.Ds D hD).1]; rfl, by rw [(g.Ds D hD).1]; rfl, rfl⟩
  refine subCompile_cons.2 ⟨_, _, hO, ?_, rfl⟩
  simp only [Md.shape, Option.getD_some, t3]
  cases h.biasTerm
  · rfl
  · exact subCompile_cons.2 ⟨_, _, (by simp only [Md.compile]), rfl, rfl⟩

/-- **C88 (when an observable model compiles).** For an input shape that it was not compiled for last, whatever happened before, an observable model compiles exactly if the input is a single vector per sample and the arguments
are consistent: the given matrices are Hermitian and fit the number of features, the size and each other, and what is not given can be read off what is. -/
theorem C88_compiles_iff (herm : NArr V → Bool) (draw : Nat → List Nat → List Nat → V) (m : Mdl V) (s : Tree (List Nat)) (hk : KeysOk s) (hn : m.inShape.map norm ≠ some s.norm) :
    (ObsPmm.compile herm draw m s).2 = Option.none ↔ ∃ f n q l, treeFlattenShape s = [some [f]] ∧ ObsGood herm m.hyper f n q l := by
  constructor
  · intro h
    unfold ObsPmm.compile at h
    split at h
    · cases h
    · split at h
      · cases h
      · rename_i ms hb
        have : ∃ ms', ms = some ms' := by
          unfold build at hb
          split at hb
          · cases hb
          · split at hb
            · cases hb
            · split at hb
              · cases hb
              · cases hb; exact ⟨_, rfl⟩
        obtain ⟨ms', rfl⟩ := this
        simp only [Option.getD_some, superCompile] at h
        split at h
        · cases h
        · rename_i r o hc
          exact sub_ok hk hb hc
  · rintro ⟨f, n, q, l, hs, g⟩
    unfold ObsPmm.compile
    simp only [hs, List.length_singleton, ne_eq, not_true_eq_false, if_false, hn, good_build g, Option.getD_some, superCompile, fresh_compile hk hs g]

/-- **C88 (what an observable model compiles to).** Then it has the modules that its arguments say: the given matrices are kept and the missing ones are drawn with the right shapes, there is a bias exactly if it was asked for,
with one number per output; the declared output of a sample is a vector of the `q` outputs, in place of the input, and `get_output_shape` gives the same if the number of outputs was given. -/
theorem C88_compiled (herm : NArr V → Bool) (draw : Nat → List Nat → List Nat → V) (m : Mdl V) (s : Tree (List Nat)) (hk : KeysOk s) (hn : m.inShape.map norm ≠ some s.norm) (f n q l : Nat)
    (hs : treeFlattenShape s = [some [f]]) (g : ObsGood herm m.hyper f n q l) :
    ∃ M D b, (ObsPmm.compile herm draw m s).1 = ⟨m.hyper, obsModules m.hyper n q l M D b, some s, some (map (fun _ => [q]) s.norm)⟩ ∧
      M.shape = [f + m.hyper.affineBias.toNat, n, n] ∧ D.shape = [q, l, n, n] ∧ (∀ M', m.hyper.Ms = some M' → M = M') ∧ (∀ D', m.hyper.Ds = some D' → D = D') ∧
      biasCheck b (map (fun _ => [q]) s.norm) = .ok () ∧
      (m.hyper.out ≠ Option.none → ObsPmm.outputShape (ObsPmm.compile herm draw m s).1 s = .ok (map (fun _ => [q]) s.norm)) := by
  have e : (ObsPmm.compile herm draw m s).1 = ⟨m.hyper, obsModules m.hyper n q l (m.hyper.Ms.getD ⟨[f + m.hyper.affineBias.toNat, n, n], draw 0 [f + m.hyper.affineBias.toNat, n, n]⟩)
      (m.hyper.Ds.getD ⟨[q, l, n, n], draw 2 [q, l, n, n]⟩) (biasInit (draw 3) false (map (fun _ => [q]) s.norm)), some s, some (map (fun _ => [q]) s.norm)⟩ := by
    unfold ObsPmm.compile
    simp only [hs, List.length_singleton, ne_eq, not_true_eq_false, if_false, hn, good_build g, Option.getD_some, superCompile, fresh_compile hk hs g]
  refine ⟨_, _, _, e, ?_, ?_, fun M' h => by rw [h]; rfl, fun D' h => by rw [h]; rfl, ?_, fun ho => ?_⟩
  · cases hM : m.hyper.Ms with
    | none => rfl
    | some M => exact (g.Ms M hM).1
  · cases hD : m.hyper.Ds with
    | none => rfl
    | some D => exact (g.Ds D hD).1
  · have hb := C64_bias_fresh (draw 3) false (map (fun _ => [q]) s.norm) ((keysOk_map _ _).2 (keysOk_norm' hk))
    exact hb.1
  · rw [e]
    unfold ObsPmm.outputShape
    cases hq : m.hyper.out with
    | none => exact absurd hq ho
    | some q' => simp [hs, g.out q' hq]

/-- **C88 (recompiling keeps the parameters).** Compiling such a model again for the same shape changes nothing (but the order in which dictionaries of the shape are written), whatever values of these shapes its parameters were given in between. -/
theorem C88_recompile (herm : NArr V → Bool) (draw : Nat → List Nat → List Nat → V) (h : Hyper V) (s s₀ : Tree (List Nat)) (hk : KeysOk s) (h₀ : s₀.norm = s.norm) (f n q l : Nat)
    (hs : treeFlattenShape s = [some [f]]) (g : ObsGood herm h f n q l) (M D : NArr V) (b : BiasParam V) (hM : M.shape = [f + h.affineBias.toNat, n, n]) (hD : D.shape = [q, l, n, n])
    (hb : biasCheck b (map (fun _ => [q]) s.norm) = .ok ()) :
    ObsPmm.compile herm draw ⟨h, obsModules h n q l M D b, some s₀, some (map (fun _ => [q]) s₀.norm)⟩ s = (⟨h, obsModules h n q l M D b, some s, some (map (fun _ => [q]) s.norm)⟩, Option.none) := by
  have hn : h.numEig.getD 0 ≤ n := by
    cases hn : h.numEig with
    | none => exact Nat.zero_le _
    | some k => exact (g.num k hn).2
  unfold ObsPmm.compile
  simp only [hs, List.length_singleton, ne_eq, not_true_eq_false, if_false, if_true, Option.map_some, h₀, superCompile, kept_compile hk hs hM hD hn hb]

/-- A model for samples of two numbers: matrices of size 3, two eigenvectors, four outputs, each a sum over two given observables. -/
def demoObs : Hyper Int := ⟨some 3, some 2, true, true, Option.none, Option.none, true, true, Option.none, some ⟨[4, 2, 3, 3], fun _ => 1⟩⟩

theorem demoObs_good : ObsGood (fun _ => true) demoObs 2 3 4 2 where
  size := .inl rfl
  pos := by decide
  which := rfl
  num := by rintro _ ⟨⟩; decide
  Ms := by rintro _ ⟨⟩
  Ds := by rintro _ ⟨⟩; exact ⟨rfl, rfl⟩
  out := by rintro _ ⟨⟩
  secondaries := by rintro _ ⟨⟩
  known := by rintro ⟨⟩

example : (ObsPmm.compile (fun _ => true) (fun _ _ _ => 0) ⟨demoObs, [], Option.none, Option.none⟩ (.dict [("x".toList, .leaf [2])])).2 = Option.none :=
  (C88_compiles_iff _ _ _ _ (by simp [KeysOk, KeysOkD]) (by decide +kernel)).2 ⟨2, 3, 4, 2, by decide +kernel, demoObs_good⟩

example : ∃ M D b, (ObsPmm.compile (fun _ => true) (fun _ _ _ => 0) ⟨demoObs, [], Option.none, Option.none⟩ (.leaf [2])).1 =
    ⟨demoObs, obsModules demoObs 3 4 2 M D b, some (.leaf [2]), some (.leaf [4])⟩ ∧ M.shape = [3, 3, 3] := by
  obtain ⟨M, D, b, h1, h2, -⟩ := C88_compiled (fun _ => true) (fun _ _ _ => 0) ⟨demoObs, [], Option.none, Option.none⟩ (.leaf [2]) trivial (by decide) 2 3 4 2 rfl demoObs_good
  exact ⟨M, D, b, h1, h2⟩

example : ObsPmm.compile (fun _ => true) (fun _ _ _ => 0) ⟨demoObs, obsModules demoObs 3 4 2 ⟨[3, 3, 3], fun _ => 7⟩ ⟨[4, 2, 3, 3], fun _ => 8⟩ (.arr ⟨[4], fun _ => 9⟩), some (.leaf [2]), some (.leaf [4])⟩ (.leaf [2]) =
    (⟨demoObs, obsModules demoObs 3 4 2 ⟨[3, 3, 3], fun _ => 7⟩ ⟨[4, 2, 3, 3], fun _ => 8⟩ (.arr ⟨[4], fun _ => 9⟩), some (.leaf [2]), some (.leaf [4])⟩, Option.none) :=
  C88_recompile (fun _ => true) (fun _ _ _ => 0) demoObs (.leaf [2]) (.leaf [2]) trivial rfl 2 3 4 2 rfl demoObs_good _ _ _ rfl rfl (by decide +kernel)

/-- **C88 (refuted).** A model whose number of outputs is read off the given observables compiles and has a declared output shape, but `get_output_shape` raises, so that a model that contains it cannot be compiled. -/
theorem C88_no_output_size_refuted (herm : NArr V → Bool) (draw : Nat → List Nat → List Nat → V) (m : Mdl V) (s : Tree (List Nat)) (hk : KeysOk s) (hn : m.inShape.map norm ≠ some s.norm) (f n q l : Nat)
    (hs : treeFlattenShape s = [some [f]]) (g : ObsGood herm m.hyper f n q l) (ho : m.hyper.out = Option.none) :
    (ObsPmm.compile herm draw m s).2 = Option.none ∧ (ObsPmm.compile herm draw m s).1.outShape = some (map (fun _ => [q]) s.norm) ∧
      ∀ s', ObsPmm.outputShape (ObsPmm.compile herm draw m s).1 s' = .error .valueError := by
  obtain ⟨M, D, b, h, -⟩ := C88_compiled herm draw m s hk hn f n q l hs g
  refine ⟨(C88_compiles_iff herm draw m s hk hn).2 ⟨f, n, q, l, hs, g⟩, by rw [h], fun s' => ?_⟩
  rw [h]
  simp only [ObsPmm.outputShape, ho]

example : ∀ s', ObsPmm.outputShape (ObsPmm.compile (fun _ => true) (fun _ _ _ => 0) ⟨demoObs, [], Option.none, Option.none⟩ (.leaf [2])).1 s' = .error .valueError :=
  (C88_no_output_size_refuted (fun _ => true) (fun _ _ _ => 0) ⟨demoObs, [], Option.none, Option.none⟩ (.leaf [2]) trivial (by decide) 2 3 4 2 rfl demoObs_good rfl).2.2

/-- **C88 (refuted).** `compile` is not atomic: if it is called for another shape while the observables do not fit the other arguments, it raises but leaves a model that consists of the matrices and eigenvectors only. Whatever
the arguments are corrected to, compiling for the old shape then succeeds, and the model returns eigenvectors instead of observables. -/
theorem C88_partial_refuted (herm : NArr V → Bool) (draw : Nat → List Nat → List Nat → V) (h h' : Hyper V) (ms : List (Md V)) (o : Option (Tree (List Nat))) (f f' n : Nat) (hf : f ≠ f') (hn : 0 < n)
    (h1 : h.size = some n) (h2 : h.Ms = Option.none) (h3 : h.whichOk = true) (h4 : h.numEig = Option.none) (D : NArr V) (h5 : h.Ds = some D) (h6 : D.shape.length ≠ 4) :
    (ObsPmm.compile herm draw ⟨h, ms, some (.leaf [f]), o⟩ (.leaf [f'])).2 = some .valueError ∧
      ∃ ms', ObsPmm.compile herm draw { (ObsPmm.compile herm draw ⟨h, ms, some (.leaf [f]), o⟩ (.leaf [f'])).1 with hyper := h' } (.leaf [f]) = (⟨h', ms', some (.leaf [f]), some (.leaf [n, n])⟩, Option.none) := by
  have hb : build herm h = (some [.affine (some n) h.affineBias Option.none, .eig Option.none], some .valueError) := by
    have e1 : affineNew herm h.size h.affineBias h.Ms = .ok (.affine (some n) h.affineBias Option.none) := by
      refine affineNew_ok.2 ⟨by rw [h1]; simpa using hn.ne', .inl ⟨h2, by rw [h1]⟩⟩
    have e2 : obsNew herm h.expect h.secondaries h.out h.Ds = .error .valueError := by
      unfold obsNew
      rw [h5]
      simp only
      split
      · rename_i hs; rw [hs] at h6; exact absurd rfl h6
      · rfl
    have e3 : eigNew (V := V) h.numEig h.whichOk = .ok (.eig Option.none) := by simp [eigNew, h3, h4]
    unfold build
    rw [e1, e2, e3]
  have hne : (some (Tree.leaf [f])).map norm ≠ some (Tree.leaf [f']).norm := by simpa [Tree.norm] using hf
  have hc : ObsPmm.compile herm draw ⟨h, ms, some (.leaf [f]), o⟩ (.leaf [f']) = (⟨h, [.affine (some n) h.affineBias Option.none, .eig Option.none], some (.leaf [f]), o⟩, some .valueError) := by
    unfold ObsPmm.compile
    simp only [hne, if_false, hb, Option.getD_some]
    rfl
  rw [hc]
  refine ⟨rfl, [.affine (some n) h.affineBias (some ⟨[f + h.affineBias.toNat, n, n], draw 0 [f + h.affineBias.toNat, n, n]⟩), .eig Option.none], ?_⟩
  have hs : subCompile draw 0 [.affine (some n) h.affineBias Option.none, .eig Option.none] (.leaf [f]) =
      ([.affine (some n) h.affineBias (some ⟨[f + h.affineBias.toNat, n, n], draw 0 [f + h.affineBias.toNat, n, n]⟩), .eig Option.none], .ok (.leaf [n, n])) := by
    refine subCompile_cons.2 ⟨_, _, affine_compile.2 ⟨f, rfl, .inr ⟨rfl, n, rfl, rfl⟩⟩, ?_, rfl⟩
    exact subCompile_cons.2 ⟨_, _, (eig_compile (n := n) rfl).2 ⟨Nat.zero_le _, rfl⟩, rfl, rfl⟩
  unfold ObsPmm.compile
  simp only [Option.map_some, if_true, superCompile, hs]
  rfl

example : ∃ h : Hyper Int, h.size = some 3 ∧ h.Ms = Option.none ∧ h.whichOk = true ∧ h.numEig = Option.none ∧ ∃ D, h.Ds = some D ∧ D.shape.length ≠ 4 :=
  ⟨⟨some 3, Option.none, true, true, some 1, some 1, false, true, Option.none, some ⟨[3, 3], fun _ => 0⟩⟩, rfl, rfl, rfl, rfl, _, rfl, by decide⟩

end Verif.Props
