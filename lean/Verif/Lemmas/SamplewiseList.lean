import Verif.Lemmas.ModelFile
import Verif.Lemmas.Samplewise

/-!
# Batches as lists of samples
-/

namespace Verif
namespace Samplewise
open Tree

variable {A B C : Type}

theorem mapM_length {F : A → Except PyErr B} : ∀ {l : List A} {r : List B}, l.mapM F = .ok r → r.length = l.length ∧ ∀ (i : Nat) a, l[i]? = some a → ∃ b, F a = .ok b ∧ r[i]? = some b
  | [], r, h => by cases h; exact ⟨rfl, fun i a h => by simp at h⟩
  | a :: l, r, h => by
    rw [List.mapM_cons] at h
    cases h1 : F a with
    | error e => rw [h1] at h; cases h
    | ok c =>
      rw [h1] at h
      cases h2 : l.mapM F with
      | error e => rw [h2] at h; cases h
      | ok cs =>
        rw [h2] at h
        cases h
        obtain ⟨h3, h4⟩ := mapM_length h2
        refine ⟨by simp [h3], fun i a' ha' => ?_⟩
        cases i with
        | zero =>
          simp only [List.getElem?_cons_zero, Option.some.injEq] at ha'
          subst ha'
          exact ⟨c, h1, rfl⟩
        | succ i => exact h4 i a' (by simpa using ha')

theorem mapM_ok_of {F : A → Except PyErr B} : ∀ {l : List A}, (∀ a ∈ l, ∃ b, F a = .ok b) → ∃ r, l.mapM F = .ok r
  | [], _ => ⟨[], rfl⟩
  | a :: l, h => by
    obtain ⟨b, hb⟩ := h a (List.mem_cons_self ..)
    obtain ⟨r, hr⟩ := mapM_ok_of fun a ha => h a (List.mem_cons_of_mem _ ha)
    exact ⟨b :: r, by rw [List.mapM_cons, hb, hr]; rfl⟩

/-- A function of one sample on a batch. -/
theorem mapM_chosen {F : A → Except PyErr B} {f : Nat → Nat} {n m : Nat} (hs : Selection f n m) {xs ys : List A} (h : Chosen f n m xs ys) {r : List B}
    (hr : xs.mapM F = .ok r) : ∃ r', ys.mapM F = .ok r' ∧ Chosen f n m r r' := by
  obtain ⟨hx, hy, hv⟩ := h
  obtain ⟨hl, hm⟩ := mapM_length hr
  have hat : ∀ i < m, ∃ a, ys[i]? = some a ∧ xs[f i]? = some a := fun i hi => by
    have hfi := hs.valid i hi
    refine ⟨xs[f i]'(by rw [hx]; exact hfi), ?_, ?_⟩
    · rw [hv i hi]; exact List.getElem?_eq_getElem _
    · exact List.getElem?_eq_getElem _
  obtain ⟨r', hr'⟩ := mapM_ok_of (F := F) (l := ys) fun a ha => by
    obtain ⟨i, hi, rfl⟩ := List.getElem_of_mem ha
    obtain ⟨a, h1, h2⟩ := hat i (by rw [← hy]; exact hi)
    obtain ⟨b, hb, -⟩ := hm (f i) a h2
    rw [List.getElem?_eq_getElem hi] at h1
    cases h1
    exact ⟨b, hb⟩
  obtain ⟨hl', hm'⟩ := mapM_length hr'
  refine ⟨r', hr', by rw [hl, hx], by rw [hl', hy], fun i hi => ?_⟩
  obtain ⟨a, h1, h2⟩ := hat i hi
  obtain ⟨b, hb, e1⟩ := hm (f i) a h2
  obtain ⟨b', hb', e2⟩ := hm' i a h1
  rw [hb] at hb'
  cases hb'
  rw [e1, e2]

theorem map_chosen {F : A → B} {f : Nat → Nat} {n m : Nat} {xs ys : List A} (h : Chosen f n m xs ys) : Chosen f n m (xs.map F) (ys.map F) :=
  ⟨by rw [List.length_map]; exact h.1, by rw [List.length_map]; exact h.2.1, fun i hi => by rw [List.getElem?_map, List.getElem?_map, h.2.2 i hi]⟩

theorem map_lists (g : A → B) {f : Nat → Nat} {n m : Nat} {t u : Tree (List A)} (h : Related (Chosen f n m) t u) :
    Related (Chosen f n m) (map (fun xs => xs.map g) t) (map (fun xs => xs.map g) u) :=
  map_related (R := Chosen f n m) (Q := Chosen f n m) (fun _ _ h => map_chosen h) h

theorem agree_ok {R : A → B → Prop} {x : Except PyErr (Tree A)} {y : Except PyErr (Tree B)} (h : Agree (Related R) x y) {w : Tree A} (hw : x = .ok w) :
    ∃ w', y = .ok w' ∧ Related R w w' := by
  subst hw
  cases y with
  | error e => exact h.elim
  | ok w' => exact ⟨w', rfl, h⟩

/-- A function of the leaves that respects the relation whenever it gives a result. -/
theorem mapM_lists {R : A → A → Prop} {Q : B → B → Prop} {F : A → Except PyErr (Tree B)} (h : ∀ a b w, R a b → F a = .ok w → ∃ w', F b = .ok w' ∧ Related Q w w')
    {t u : Tree A} (htu : Related R t u) {out : Tree B} (ho : Tree.mapM F t = .ok out) : ∃ out', Tree.mapM F u = .ok out' ∧ Related Q out out' := by
  obtain ⟨z, rfl, rfl⟩ := htu
  refine agree_ok (mapM_related_mem fun p hp => ?_) ho
  obtain ⟨w, hw⟩ := mapM_ok_mem _ ho p.1.1 (by rw [flat_map']; exact List.mem_map_of_mem hp)
  obtain ⟨w', h1, h2⟩ := h _ _ w p.2 hw
  rw [hw, h1]
  exact h2

/-- The same exception for all samples with the property `D`, or for none. -/
def Uniform (D : A → Prop) (F : A → Except PyErr B) : Prop := ∀ a b, D a → D b → ∀ e, F a = .error e → F b = .error e

theorem mapM_error_mem {F : A → Except PyErr B} : ∀ {l : List A} {e : PyErr}, l.mapM F = .error e → ∃ a ∈ l, F a = .error e
  | [], e, h => by cases h
  | a :: l, e, h => by
    rw [List.mapM_cons] at h
    cases h1 : F a with
    | error e' => rw [h1] at h; cases h; exact ⟨a, List.mem_cons_self .., h1⟩
    | ok c =>
      rw [h1] at h
      cases h2 : l.mapM F with
      | error e' =>
        rw [h2] at h
        cases h
        obtain ⟨b, hb, hF⟩ := mapM_error_mem h2
        exact ⟨b, List.mem_cons_of_mem _ hb, hF⟩
      | ok cs => rw [h2] at h; cases h

theorem chosen_mem {f : Nat → Nat} {n m : Nat} {xs ys : List A} (h : Chosen f n m xs ys) {y : A} (hy : y ∈ ys) : y ∈ xs := by
  obtain ⟨i, hi, rfl⟩ := List.getElem_of_mem hy
  have e := h.2.2 i (h.2.1 ▸ hi)
  rw [List.getElem?_eq_getElem hi] at e
  exact List.mem_of_getElem? e.symm

theorem mapM_agree {D : A → Prop} {F : A → Except PyErr B} (hu : Uniform D F) {f : Nat → Nat} {n m : Nat} (hs : Selection f n m) {xs ys : List A} (hD : ∀ x ∈ xs, D x)
    (h : Chosen f n m xs ys) : Agree (Chosen f n m) (xs.mapM F) (ys.mapM F) := by
  cases hx : xs.mapM F with
  | ok r =>
    obtain ⟨r', h1, h2⟩ := mapM_chosen hs h hx
    rw [h1]
    exact h2
  | error e =>
    obtain ⟨a, ha, he⟩ := mapM_error_mem hx
    have hm := hs.target
    match ys, h.2.1, h with
    | [], h0, _ => rw [← h0] at hm; simp at hm
    | y :: l, _, h =>
      rw [List.mapM_cons, hu a y (hD a ha) (hD y (chosen_mem h (List.mem_cons_self ..))) e he]
      rfl

theorem samples_agree {D : A → Prop} {F : A → Except PyErr B} (hu : Uniform D F) {G : List A → Except PyErr (Tree (List C))} {H : List B → List C}
    (hH : ∀ f n m r r', Chosen f n m r r' → Chosen f n m (H r) (H r'))
    (h1 : ∀ xs r, xs.mapM F = .ok r → G xs = .ok (.leaf (H r))) (h2 : ∀ xs e, xs.mapM F = .error e → G xs = .error e) :
    SamplewiseLists D fun d : Tree (List A) => Tree.mapM G d.norm := by
  intro f n m hs d d' hd h
  have hd' : ∀ xs ∈ d.norm.flat, ∀ x ∈ xs, D x := fun xs hxs => hd xs (mem_flat_norm.1 hxs)
  obtain ⟨z, hz, hz'⟩ := norm_related h
  simp only [hz, hz'] at hd' ⊢
  refine mapM_related_mem fun p hp => ?_
  have ha := mapM_agree hu hs (hd' p.1.1 (by rw [flat_map']; exact List.mem_map_of_mem hp)) p.2
  cases hx : p.1.1.mapM F with
  | ok r =>
    cases hy : p.1.2.mapM F with
    | ok r' => rw [hx, hy] at ha; rw [h1 _ _ hx, h1 _ _ hy]; exact related_leaf (hH _ _ _ _ _ ha)
    | error e => rw [hx, hy] at ha; exact ha.elim
  | error e =>
    cases hy : p.1.2.mapM F with
    | ok r' => rw [hx, hy] at ha; exact ha.elim
    | error e' => rw [hx, hy] at ha; rw [h2 _ _ hx, h2 _ _ hy]; exact ha

/-- One after the other. -/
theorem agree_comp {D : A → Prop} {call : Tree (List A) → Except PyErr (Tree (List B))} {next : Tree (List B) → Except PyErr (Tree (List C))} (h : SamplewiseLists D call)
    (hn : SamplewiseLists (fun _ => True) next) : SamplewiseLists D fun d => match call d with | .ok r => next r | .error e => .error e := by
  intro f n m hs d d' hd hr
  have ha := h f n m hs d d' hd hr
  show Agree _ (match call d with | .ok r => next r | .error e => .error e) (match call d' with | .ok r => next r | .error e => .error e)
  cases hx : call d with
  | ok r =>
    cases hy : call d' with
    | ok r' => rw [hx, hy] at ha; exact hn f n m hs r r' (fun _ _ _ _ => trivial) ha
    | error e => rw [hx, hy] at ha; exact ha.elim
  | error e =>
    cases hy : call d' with
    | ok r' => rw [hx, hy] at ha; exact ha.elim
    | error e' => rw [hx, hy] at ha; exact ha

end Samplewise
end Verif
