import Verif.Lemmas.Str
import Verif.Lemmas.TreeExtend
import Verif.Lemmas.JaxTree
import Mathlib.Data.List.Pairwise

/-!
# Properties of PyTree access by string paths (C09-C13, C65)

`Tree.get` / `Tree.set` are `getitem_by_strpath` / `setitem_by_strpath` on the components of the string path; C65 ties
components to strings.
-/

namespace Verif.Props

open Verif.TreeSpec

variable {β : Type}

/-- `{"a": [1, 2, {"b": 3}], "c": (4,)}` -/
def demoTree : Tree Nat :=
  .dict [("a".toList, .list [.leaf 1, .leaf 2, .dict [("b".toList, .leaf 3)]]), ("c".toList, .tuple [.leaf 4])]

/-- **C65** Splitting a joined path gives the components back. -/
theorem C65_split_join (sep : Char) (parts : List Str) (hne : parts ≠ []) (h : ∀ w ∈ parts, sep ∉ w) :
    splitOn sep (joinWith sep parts) = parts := splitOn_joinWith sep parts hne h

example : ("a" :: ["", "b2"]).map String.toList ≠ [] ∧ ∀ w ∈ ["a", "", "b2"].map String.toList, '.' ∉ w := by decide

/-- **C65** Joining a split string gives the string back, and no component contains the separator. -/
theorem C65_join_split (sep : Char) (s : Str) :
    joinWith sep (splitOn sep s) = s ∧ ∀ w ∈ splitOn sep s, sep ∉ w :=
  ⟨joinWith_splitOn sep s, splitOn_mem_noSep sep s⟩

example : splitOn '.' "a..b.".toList = ["a", "", "b", ""].map String.toList := by decide

/-- **C09** What was stored at a path is read back at that path (for any leaf predicate used while storing). -/
theorem C09_get_after_set (isLeaf : Tree β → Bool) (t t' v : Tree β) (p : List Str)
    (h : Tree.setPath isLeaf v t p = .ok t') : Tree.get t' p = .ok v := Tree.get_set h

example : ∃ t', Tree.set demoTree (splitOn '.' "a.2.b".toList) (.leaf 9) = .ok t' ∧
    Tree.get t' (splitOn '.' "a.2.b".toList) = .ok (.leaf 9) := ⟨_, rfl, rfl⟩

/-- **C10** Storing at `p` does not change what is read at a path that diverges from `p`, whether that read succeeds or
raises. -/
theorem C10_set_frame (isLeaf : Tree β → Bool) (t t' v : Tree β) (p q : List Str)
    (h : Tree.setPath isLeaf v t p = .ok t') (hd : Diverge p q) (hq : Proper q) : Tree.get t' q = Tree.get t q := by
  obtain ⟨c, k1, r1, k2, r2, rfl, rfl, hk⟩ := hd
  exact Tree.get_set_diverge h hk hq

example : Diverge (splitOn '.' "a.2.b".toList) (splitOn '.' "a.1".toList) ∧ Proper (splitOn '.' "a.1".toList) :=
  ⟨⟨["a".toList], "2".toList, ["b".toList], "1".toList, [], by decide, by decide, by decide⟩, by decide⟩

/-- **C10, why `Diverge` compares numbers**: `"1"` and `"01"` are the same index, so storing at one changes the other. -/
theorem C10_leading_zero_alias :
    Tree.set (.list [.leaf 1, .leaf 2]) ["01".toList] (.leaf 9) = .ok (.list [.leaf 1, .leaf (9 : Nat)]) ∧
    Tree.get (.list [.leaf 1, .leaf (9 : Nat)]) ["1".toList] = .ok (.leaf 9) := ⟨rfl, rfl⟩

/-- **C09** Writing back what was read leaves the tree as it is. -/
theorem C09_write_back (t t' v : Tree β) (p : List Str) (hg : Tree.get t p = .ok v) (hs : Tree.set t p v = .ok t') : t' = t :=
  Tree.set_self hg hs

example : Tree.get demoTree (splitOn '.' "a.2.b".toList) = .ok (.leaf 3) ∧
    Tree.set demoTree (splitOn '.' "a.2.b".toList) (.leaf 3) = .ok demoTree := ⟨rfl, rfl⟩

/-- **C13** Early return splits the path: the consumed part reads the returned node, consumed part and remainder make up
the path, and something remains only when the node cannot be entered. -/
theorem C13_early_return (isLeaf : Tree β → Bool) (t n : Tree β) (p rem : List Str) (hp : Proper p)
    (h : Tree.getPath isLeaf true t p = .ok (n, rem)) :
    ∃ consumed, p = consumed ++ rem ∧ Tree.getPath isLeaf false t consumed = .ok (n, []) ∧
      (rem ≠ [] → isLeaf n = true ∨ (∃ b, n = .leaf b) ∨ n = .none) :=
  Tree.getPath_split isLeaf t p hp n rem h

example : Tree.getPath (fun _ => false) true demoTree (splitOn '.' "a.1.b.0.c".toList)
    = .ok (.leaf 2, splitOn '.' "b.0.c".toList) := rfl

/-- **C13** The same for strings: path = consumed + separator + remainder, when both are nonempty. -/
theorem C13_early_return_string (isLeaf : Tree β → Bool) (sep : Char) (t n : Tree β) (path : Str) (rem : List Str)
    (hp : Proper (splitOn sep path)) (h : Tree.getPath isLeaf true t (splitOn sep path) = .ok (n, rem))
    (hrem : rem ≠ []) (hn : rem ≠ splitOn sep path) :
    ∃ consumed : Str, path = consumed ++ sep :: joinWith sep rem ∧
      Tree.getPath isLeaf false t (splitOn sep consumed) = .ok (n, []) := by
  obtain ⟨c, e1, e2, _⟩ := Tree.getPath_split isLeaf t _ hp n rem h
  have hc : c ≠ [] := by rintro rfl; exact hn (by simpa using e1.symm)
  refine ⟨joinWith sep c, ?_, ?_⟩
  · rw [← joinWith_append sep c rem hc hrem, ← e1, joinWith_splitOn]
  · rw [splitOn_joinWith sep c hc]
    · exact e2
    · intro w hw
      exact splitOn_mem_noSep sep path w (by rw [e1]; exact List.mem_append_left _ hw)

/-- **C13, necessity of `Proper`**: with an empty component the split is not exact: reading `".x"` in `{"": 7}` returns
the leaf with remainder `"x"`, although reading the consumed part `""` returns the whole dictionary. -/
theorem C13_needs_proper :
    Tree.getPath (fun _ => false) true (.dict [([], .leaf 7)] : Tree Nat) (splitOn '.' ".x".toList)
      = .ok (.leaf 7, ["x".toList]) ∧
    Tree.getPath (fun _ => false) false (.dict [([], .leaf 7)] : Tree Nat) (splitOn '.' "".toList)
      = .ok (.dict [([], .leaf 7)], []) := ⟨rfl, rfl⟩

/-- **C12** `make_mutable` ends and replaces exactly the tuples, at every depth. -/
theorem C12_make_mutable_eq (t : Tree β) : Tree.makeMutable t = some (detuple t) := Tree.makeMutable_eq t

/-- **C12** Consequences in user terms: no tuple is left, the leaves are unchanged and in the same order, doing it again
changes nothing, and every path reads what it read before (made mutable). -/
theorem C12_make_mutable (t : Tree β) :
    ∃ m, Tree.makeMutable t = some m ∧ hasTuple m = false ∧ leaves m = leaves t ∧ Tree.makeMutable m = some m ∧
      (∀ p b, Tree.get t p = .ok (.leaf b) → Tree.get m p = .ok (.leaf b)) ∧
      (∀ p, Tree.get m p = (Tree.get t p).map detuple) := by
  refine ⟨detuple t, Tree.makeMutable_eq t, Tree.hasTuple_detuple t, Tree.leaves_detuple t, ?_, ?_,
    fun p => Tree.get_detuple t p⟩
  · rw [Tree.makeMutable_eq, Tree.detuple_of_noTuple _ (Tree.hasTuple_detuple t)]
  · intro p b h
    rw [Tree.get_detuple, h]; rfl

example : Tree.makeMutable (.tuple [.leaf 1, .tuple [.none, .leaf (2 : Nat)]])
    = some (.list [.leaf 1, .list [.none, .leaf 2]]) := rfl

/-- Python's `==` on the trees of the examples. -/
def demoEq : Tree Nat → Tree Nat → Bool
  | .leaf a, .leaf b => a == b
  | .none, .none => true
  | _, _ => false

/-- **C11** After a successful extension with pairwise diverging paths, each requested path reads its fill value (or a
value that was there before and equals it; a `None` fill accepts whatever was there). -/
theorem C11_extend_reads_fill (eqv : Tree β → Tree β → Bool) (base t : Tree β) (pfs : List (List Str × Tree β))
    (h : Tree.extend eqv base pfs = .ok t) (hne : ∀ pf ∈ pfs, pf.1 ≠ [] ∧ Proper pf.1)
    (hdiv : pfs.Pairwise fun a b => Diverge a.1 b.1) :
    ∀ pf ∈ pfs, ∃ v, Tree.get t pf.1 = .ok v ∧ (v = pf.2 ∨ eqv v pf.2 = true ∨ pf.2 = .none) := by
  obtain ⟨b, t1, rec, t2, h1, h2, h3, _, _⟩ := Tree.extend_run h
  intro pf hpf
  obtain ⟨v, hv, hv'⟩ := Tree.extendAll_read h1 hne hdiv pf hpf
  refine ⟨v, ?_, hv'⟩
  have hp := hne pf hpf
  rw [h3 _ hp.1 hp.2, Tree.restore_read hp.2 h2, hv]
  intro r hr
  obtain ⟨pf', hm, k, ks, e⟩ := Tree.extendAll_rec h1 r hr
  by_cases heq : pf' = pf
  · subst heq; exact .inr ⟨k, ks, e⟩
  · have hd : Diverge pf'.1 pf.1 := by
      have hsym : ∀ a ∈ pfs, ∀ b ∈ pfs, a ≠ b → Diverge a.1 b.1 := by
        intro a ha b hb hab
        haveI : Std.Symm (fun a b : List Str × Tree β => Diverge a.1 b.1) := ⟨fun _ _ h => Tree.diverge_symm h⟩
        exact hdiv.forall ha hb hab
      exact hsym pf' hm pf hpf heq
    exact Tree.diverge_prefix hd e

/-- **C11** Leaves of the base stay where they are. -/
theorem C11_extend_keeps_leaves (eqv : Tree β → Tree β → Bool) (base t : Tree β) (pfs : List (List Str × Tree β))
    (h : Tree.extend eqv base pfs = .ok t) (q : List Str) (b : β) (hq : q ≠ []) (hqp : Proper q)
    (hread : Tree.get base q = .ok (.leaf b)) : Tree.get t q = .ok (.leaf b) := by
  obtain ⟨b', t1, rec, t2, h1, h2, h3, _, h5⟩ := Tree.extend_run h
  have hb : base ≠ .none := by
    rintro rfl
    cases q with
    | nil => exact hq rfl
    | cons k ks => rw [Tree.get_cons _ _ _ (Tree.headD_cons_ne hqp)] at hread; simp [Tree.child] at hread
  rw [h3 q hq hqp]
  have : Tree.get b' q = .ok (.leaf b) := by rw [(h5 hb).1 q hq hqp]; exact hread
  exact Tree.get_leaf_of_detuple (Tree.detuple_restore h2) (Tree.extendAll_leaf h1 this)

/-- **C11** A different value already stored at a requested path makes the extension raise. -/
theorem C11_extend_conflict_raises (eqv : Tree β → Tree β → Bool) (base fill : Tree β) (p : List Str) (b : β)
    (pfs : List (List Str × Tree β)) (hne : ∀ pf ∈ pfs, pf.1 ≠ [] ∧ Proper pf.1)
    (hdiv : pfs.Pairwise fun a b => Diverge a.1 b.1) (hm : (p, fill) ∈ pfs)
    (hread : Tree.get base p = .ok (.leaf b)) (hdiff : eqv (.leaf b) fill = false) (hne' : fill ≠ .leaf b)
    (hfill : fill ≠ .none) : ∃ e, Tree.extend eqv base pfs = .error e := by
  cases h : Tree.extend eqv base pfs with
  | error e => exact ⟨e, rfl⟩
  | ok t =>
    exfalso
    obtain ⟨v, hv, hv'⟩ := C11_extend_reads_fill eqv base t pfs h hne hdiv _ hm
    have := C11_extend_keeps_leaves eqv base t pfs h p b (hne _ hm).1 (hne _ hm).2 hread
    simp only at hv
    rw [this] at hv
    simp only [Except.ok.injEq] at hv
    subst hv
    rcases hv' with h1 | h1 | h1
    · exact hne' h1.symm
    · simp only at h1; rw [hdiff] at h1; simp at h1
    · exact hfill h1

/-- The documentation's example, `extend([], ['0.a', '1.1.2'], fill_values=[10, 20])`. -/
example : Tree.extend demoEq (.list []) [(splitOn '.' "0.a".toList, .leaf 10), (splitOn '.' "1.1.2".toList, .leaf 20)]
    = .ok (.list [.dict [("a".toList, .leaf 10)], .list [.none, .list [.none, .none, .leaf 20]]]) := rfl

example : [(splitOn '.' "0.a".toList, Tree.leaf 10), (splitOn '.' "1.1.2".toList, .leaf (20 : Nat))].Pairwise
    fun a b => Diverge a.1 b.1 := by
  refine List.Pairwise.cons ?_ (List.Pairwise.cons (by simp) List.Pairwise.nil)
  intro b hb
  simp only [List.mem_singleton] at hb
  subst hb
  exact ⟨[], "0".toList, ["a".toList], "1".toList, ["1".toList, "2".toList], by decide, by decide, by decide⟩

/-- **C11, defect**: nested tuples cannot be extended. The code turns the outer list back into a tuple first and then
fails to store the inner tuple in it: `extend({"a": ((1,),)}, ["a.0.1"], fill_values=2)` raises `TypeError`, although
nothing is in the way. -/
theorem C11_nested_tuple_fails :
    Tree.extend demoEq (.dict [("a".toList, .tuple [.tuple [.leaf 1]])]) [(splitOn '.' "a.0.1".toList, .leaf 2)]
      = .error .typeError := rfl

end Verif.Props
