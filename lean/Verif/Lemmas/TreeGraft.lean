import Verif.Lemmas.TreeBack

/-! # Cutting a tree along the tree it was grown from -/

namespace Verif.Tree
open Verif.ForwardSpec

variable {α β γ δ : Type}

mutual
theorem graft (f : γ → Except PyErr (Tree β)) : ∀ (r : Tree γ) {Y : Tree β}, KeysOk r → mapM f r = .ok Y →
    ∃ z : Tree (γ × Tree β), zipPre r Y = .ok z ∧ ∀ x ∈ flat z, f x.1 = .ok x.2
  | .leaf a, Y, _, h => ⟨.leaf (a, Y), by cases Y <;> rfl, by simpa [flat, mapM] using h⟩
  | .none, Y, _, h => by
    cases h; exact ⟨.none, rfl, by simp [flat]⟩
  | .list ts, Y, hk, h => by
    unfold mapM at h
    split at h
    · rename_i us hus
      cases h
      obtain ⟨z, h1, h2⟩ := graftL f ts hk hus
      exact ⟨.list z, by unfold zipPre; rw [h1], h2⟩
    · cases h
  | .tuple ts, Y, hk, h => by
    unfold mapM at h
    split at h
    · rename_i us hus
      cases h
      obtain ⟨z, h1, h2⟩ := graftL f ts hk hus
      exact ⟨.tuple z, by unfold zipPre; rw [h1], h2⟩
    · cases h
  | .dict ts, Y, hk, h => by
    unfold mapM at h
    split at h
    · rename_i us hus
      cases h
      have hkeys := mapMD_keys f ts hus
      obtain ⟨z, h1, h2⟩ := graftD f ts us us hk.2 hus (fun k u hm => lookup_of_mem (by rw [hkeys]; exact hk.1) hm)
      have hl : ts.length = us.length := by
        have := congrArg List.length hkeys
        simpa using this.symm
      exact ⟨.dict z, by unfold zipPre; rw [if_neg (by simpa using hl), h1], h2⟩
    · cases h
theorem graftL (f : γ → Except PyErr (Tree β)) : ∀ (ts : List (Tree γ)) {us : List (Tree β)}, KeysOkL ts → mapML f ts = .ok us →
    ∃ z : List (Tree (γ × Tree β)), zipPreL ts us = .ok z ∧ ∀ x ∈ flatL z, f x.1 = .ok x.2
  | [], us, _, h => by cases h; exact ⟨[], rfl, by simp [flatL]⟩
  | t :: ts, us, hk, h => by
    unfold mapML at h
    split at h
    · cases h
    · rename_i u hu
      split at h
      · cases h
      · rename_i us' hus
        cases h
        obtain ⟨z, h1, h2⟩ := graft f t hk.1 hu
        obtain ⟨zs, h3, h4⟩ := graftL f ts hk.2 hus
        refine ⟨z :: zs, by unfold zipPreL; rw [h1, h3], fun x hx => ?_⟩
        rw [flatL, List.mem_append] at hx
        exact hx.elim (h2 x) (h4 x)
theorem graftD (f : γ → Except PyErr (Tree β)) : ∀ (ts : List (Str × Tree γ)) (us us' : List (Str × Tree β)), KeysOkD ts →
    mapMD f ts = .ok us' → (∀ k u, (k, u) ∈ us' → us.lookup k = some u) →
    ∃ z : List (Str × Tree (γ × Tree β)), zipPreD ts us = .ok z ∧ ∀ x ∈ flatD z, f x.1 = .ok x.2
  | [], us, us', _, h, _ => ⟨[], rfl, by simp [flatD]⟩
  | (k, t) :: ts, us, us', hk, h, hl => by
    unfold mapMD at h
    split at h
    · cases h
    · rename_i u hu
      split at h
      · cases h
      · rename_i us'' hus
        cases h
        obtain ⟨z, h1, h2⟩ := graft f t hk.1 hu
        obtain ⟨zs, h3, h4⟩ := graftD f ts us us'' hk.2 hus (fun k u hm => hl k u (List.mem_cons_of_mem _ hm))
        refine ⟨(k, z) :: zs, ?_, fun x hx => ?_⟩
        · unfold zipPreD
          rw [hl k u List.mem_cons_self]
          simp only [h1, h3]
        rw [flatD, List.mem_append] at hx
        exact hx.elim (h2 x) (h4 x)
theorem mapMD_keys (f : γ → Except PyErr (Tree β)) : ∀ (ts : List (Str × Tree γ)) {us : List (Str × Tree β)}, mapMD f ts = .ok us →
    us.map Prod.fst = ts.map Prod.fst
  | [], us, h => by cases h; rfl
  | (k, t) :: ts, us, h => by
    unfold mapMD at h
    split at h
    · cases h
    · split at h
      · cases h
      · rename_i us'' hus
        cases h
        rw [List.map_cons, List.map_cons, mapMD_keys f ts hus]
end

end Verif.Tree

namespace Verif.Tree
open Verif.ForwardSpec

variable {α β γ δ : Type}

theorem mapML_src (f : γ → Except PyErr (Tree β)) : ∀ (ts : List (Tree γ)) {us : List (Tree β)}, mapML f ts = .ok us → ∀ {i : Nat} {u},
    us[i]? = some u → ∃ t, ts[i]? = some t ∧ mapM f t = .ok u
  | [], us, h, i, u, hi => by cases h; simp at hi
  | t :: ts, us, h, i, u, hi => by
    unfold mapML at h
    split at h
    · cases h
    · rename_i u' hu
      split at h
      · cases h
      · rename_i us' hus
        cases h
        cases i with
        | zero => simp at hi; subst hi; exact ⟨t, rfl, hu⟩
        | succ i => exact mapML_src f ts hus (by simpa using hi)
theorem mapMD_src (f : γ → Except PyErr (Tree β)) : ∀ (ts : List (Str × Tree γ)) {us : List (Str × Tree β)}, mapMD f ts = .ok us →
    ∀ {k : Str} {u}, (k, u) ∈ us → ∃ t, (k, t) ∈ ts ∧ mapM f t = .ok u
  | [], us, h, k, u, hi => by cases h; simp at hi
  | (k', t) :: ts, us, h, k, u, hi => by
    unfold mapMD at h
    split at h
    · cases h
    · rename_i u' hu
      split at h
      · cases h
      · rename_i us' hus
        cases h
        rcases List.mem_cons.1 hi with h' | h'
        · cases h'; exact ⟨t, List.mem_cons_self, hu⟩
        · obtain ⟨t', h1, h2⟩ := mapMD_src f ts hus h'
          exact ⟨t', List.mem_cons_of_mem _ h1, h2⟩

/-- Everything in a grown tree was grown from a leaf. -/
theorem mapM_cover (f : γ → Except PyErr (Tree β)) {q : List ForwardSpec.Step} {b : β} : ∀ (r : Tree γ) {Y : Tree β}, mapM f r = .ok Y →
    At Y q b → ∃ p c q' w, At r p c ∧ f c = .ok w ∧ At w q' b ∧ q = p ++ q' := by
  induction q with
  | nil =>
    intro r Y h hb
    cases hb
    cases r with
    | leaf a => exact ⟨[], a, [], _, .leaf _, by simpa [mapM] using h, .leaf _, rfl⟩
    | none => cases h
    | list ts => unfold mapM at h; split at h <;> cases h
    | tuple ts => unfold mapM at h; split at h <;> cases h
    | dict ts => unfold mapM at h; split at h <;> cases h
  | cons s q ih =>
    intro r Y h hb
    cases r with
    | leaf a => exact ⟨[], a, s :: q, Y, .leaf _, by simpa [mapM] using h, hb, rfl⟩
    | none => cases h; cases hb
    | list ts =>
      unfold mapM at h
      split at h
      · rename_i us hus
        cases h
        cases hb with
        | list hi hb =>
          obtain ⟨t, ht, hm⟩ := mapML_src f ts hus hi
          obtain ⟨p, c, q', w, h1, h2, h3, rfl⟩ := ih t hm hb
          exact ⟨_ :: p, c, q', w, .list ht h1, h2, h3, rfl⟩
      · cases h
    | tuple ts =>
      unfold mapM at h
      split at h
      · rename_i us hus
        cases h
        cases hb with
        | tuple hi hb =>
          obtain ⟨t, ht, hm⟩ := mapML_src f ts hus hi
          obtain ⟨p, c, q', w, h1, h2, h3, rfl⟩ := ih t hm hb
          exact ⟨_ :: p, c, q', w, .tuple ht h1, h2, h3, rfl⟩
      · cases h
    | dict ts =>
      unfold mapM at h
      split at h
      · rename_i us hus
        cases h
        cases hb with
        | dict hi hb =>
          obtain ⟨t, ht, hm⟩ := mapMD_src f ts hus hi
          obtain ⟨p, c, q', w, h1, h2, h3, rfl⟩ := ih t hm hb
          exact ⟨_ :: p, c, q', w, .dict ht h1, h2, h3, rfl⟩
      · cases h

theorem sub_at {t u : Tree α} {p q : List ForwardSpec.Step} {a : α} (h : Sub t p u) (h' : At u q a) : At t (p ++ q) a := by
  induction h with
  | here t => exact h'
  | list hi _ ih => exact .list hi (ih h')
  | tuple hi _ ih => exact .tuple hi (ih h')
  | dict hi _ ih => exact .dict hi (ih h')

end Verif.Tree
