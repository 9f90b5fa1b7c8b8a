import Verif.Lemmas.LoadedTrain
import Verif.Lemmas.ModelTrain
import Verif.Props.ModelTrain

/-! # Lemmas about the parameters that a trained model holds -/

namespace Verif
namespace Loaded
open Tree Ser ModelSer ModelSpec Forward Props LoadedSpec
open ForwardSpec (KeysOk)

variable {σ D A P S K X : Type}

theorem bind_agree {α β : Type} {f g : α → Tree β} {t : Tree α} (hk : KeysOk t) (h : Tree.bind f t = Tree.bind g t) : ∀ a ∈ t.flat, f a = g a := by
  have h1 := zipPre_bind id f t hk
  rw [h, zipPre_bind id g t hk] at h1
  intro a ha
  exact (congrArg Prod.snd ((map_congr_iff _ _ t).1 (Except.ok.inj h1) a ha)).symm

/-- Setting the parts of `p` in the modules of `t`: the modules hold `p` afterwards. -/
theorem set_get {f : σ → PyVal → Except PyErr σ} {get : σ → PyVal} {G : σ → Prop}
    (law : ∀ m p m', G m → KeysOk p → map (fun _ => ()) p.norm = map (fun _ => ()) (get m).norm → f m p = .ok m' → (get m').norm = p.norm) {t t' : Tree σ} (hk : KeysOk t) (hg : ∀ m ∈ t.flat, G m)
    {p : PyVal} (hp : KeysOk p) (hs : map (fun _ => ()) p.norm = map (fun _ => ()) (Tree.bind get t.norm).norm) (h : jaxMap (onModule f) t [p] = .ok t') :
    (Tree.bind get t'.norm).norm = p.norm := by
  obtain ⟨z, h1, h2, h3, h4⟩ := jaxMap_graph (fun a vs w h => let ⟨x, _, e, _⟩ := onModule_leaf a vs w h; ⟨x, e⟩) h
  have hz : Tree.norm z = z := by
    have hs := sorted_norm t hk
    rw [← h2] at hs
    exact norm_of_sorted _ ((sorted_map _ z).1 hs)
  have hkz : KeysOk z := by
    have : KeysOk (map (fun x => x.1.1) z) := by rw [h2]; exact keysOk_norm' hk
    exact (keysOk_map _ _).1 this
  simp only [zipAll] at h1
  rw [zipPre_map] at h1
  cases hr : zipPre t.norm p with
  | error e => rw [hr] at h1; cases h1
  | ok r =>
    rw [hr] at h1
    simp only [Except.map, map_map, List.nil_append, Except.ok.injEq] at h1
    have hrz : r = map (fun x => (x.1.1, x.1.2.headD .none)) z := by
      have := congrArg (map fun y : σ × List PyVal => (y.1, y.2.headD .none)) h1
      rw [map_map, map_map] at this
      rw [← this, ← Tree.map_id r, map_map]
      rfl
    have hback := zipPre_back _ _ (keysOk_norm' hk) hp hr
    rw [hrz, Tree.bind_map, norm_bind, hz] at hback
    have hpart : ∀ x ∈ z.flat, KeysOk (x.1.2.headD .none) := by
      intro x hx
      have hm : (x.1.1, x.1.2.headD .none) ∈ r.flat := by
        rw [hrz, Props.flat_map]
        exact List.mem_map_of_mem hx
      obtain ⟨q, -, hq⟩ := (zipPre_mem hk hp hr).1 hm
      exact keysOk_sub hp hq
    have hstr : ∀ x ∈ z.flat, map (fun _ => ()) (x.1.2.headD .none).norm = map (fun _ => ()) (get x.1.1).norm := by
      rw [← hback, ← h2, Tree.bind_map, norm_bind, hz, Tree.map_bind, Tree.map_bind] at hs
      exact bind_agree hkz hs
    rw [← hback, ← h3, Tree.norm_map, hz, Tree.bind_map, norm_bind, hz]
    refine Tree.bind_congr fun x hx => ?_
    obtain ⟨y, q, e1, e2, e3⟩ := onModule_leaf _ _ _ (h4 x hx)
    cases e1
    have e4 : x.1.2.headD .none = q := by rw [e2]; rfl
    rw [e4]
    refine law x.1.1 q x.2 (hg _ (mem_flat_norm.1 ?_)) (e4 ▸ hpart x hx) (e4 ▸ hstr x hx) e3
    rw [← h2, Props.flat_map]
    exact List.mem_map_of_mem hx

/-- Setting something that leaves `get` alone. -/
theorem set_other {f : σ → PyVal → Except PyErr σ} {get : σ → PyVal} {G : σ → Prop} (law : ∀ m p m', G m → f m p = .ok m' → get m' = get m) {t t' : Tree σ} (hk : KeysOk t) (hg : ∀ m ∈ t.flat, G m)
    {p : PyVal} (h : jaxMap (onModule f) t [p] = .ok t') : Tree.bind get t'.norm = Tree.bind get t.norm := by
  obtain ⟨z, -, h2, h3, h4⟩ := jaxMap_graph (fun a vs w h => let ⟨x, _, e, _⟩ := onModule_leaf a vs w h; ⟨x, e⟩) h
  have hz : Tree.norm z = z := by
    have hs := sorted_norm t hk
    rw [← h2] at hs
    exact norm_of_sorted _ ((sorted_map _ z).1 hs)
  rw [← h2, ← h3, Tree.norm_map, hz, Tree.bind_map, Tree.bind_map]
  refine Tree.bind_congr fun x hx => ?_
  obtain ⟨y, q, e1, e2, e3⟩ := onModule_leaf _ _ _ (h4 x hx)
  cases e1
  refine law x.1.1 q x.2 (hg _ (mem_flat_norm.1 ?_)) e3
  rw [← h2, Props.flat_map]
  exact List.mem_map_of_mem hx

/-- The laws of setting parameters and states. -/
structure Holds (ops : Ops σ D) (G : σ → Prop) : Prop where
  setP : ∀ m p m', G m → KeysOk p → map (fun _ => ()) p.norm = map (fun _ => ()) (ops.getParams m).norm → ops.setParams m p = .ok m' → (ops.getParams m').norm = p.norm
  setS : ∀ m s m', G m → ops.setState m s = .ok m' → ops.getParams m' = ops.getParams m

theorem holds_setP {ops : Ops σ D} {G : σ → Prop} (h : Holds ops G) (M : Mdl σ A) (hM : KeysOk M.modules ∧ ∀ m ∈ M.modules.flat, G m) {p : PyVal} (hp : KeysOk p)
    (hs : map (fun _ => ()) p.norm = map (fun _ => ()) (ModelSer.getParams ops M).norm) {M' : Mdl σ A} (h1 : ModelSer.setParams ops M p = .ok M') : (ModelSer.getParams ops M').norm = p.norm := by
  unfold ModelSer.setParams at h1
  cases ht : jaxMap (onModule ops.setParams) M.modules [p] with
  | error e => rw [ht] at h1; cases h1
  | ok t =>
    rw [ht] at h1
    cases h1
    exact set_get h.setP hM.1 hM.2 hp hs ht

theorem holds_setS {ops : Ops σ D} {G : σ → Prop} (h : Holds ops G) (M : Mdl σ A) (hM : KeysOk M.modules ∧ ∀ m ∈ M.modules.flat, G m) {p : PyVal} {M' : Mdl σ A}
    (h1 : ModelSer.setState ops M p = .ok M') : ModelSer.getParams ops M' = ModelSer.getParams ops M := by
  unfold ModelSer.setState at h1
  split at h1
  · cases h1; rfl
  · cases ht : jaxMap (onModule ops.setState) M.modules [p] with
    | error e => rw [ht] at h1; cases h1
    | ok t =>
      rw [ht] at h1
      cases h1
      exact set_other h.setS hM.1 hM.2 ht

theorem holds_at {ops : Ops σ D} (h : Holds ops fun _ => True) (w r : Str) : ∀ n, Holds (opsAt ops w r n : Ops (Obj σ A n) (Dat D A n)) (KeysAt n)
  | 0 => ⟨fun m p m' _ => h.setP m p m' trivial, fun m s m' _ => h.setS m s m' trivial⟩
  | n + 1 => by
    have hn := holds_at h w r n
    constructor
    · rintro (m | M) p m' hm hp hs h1
      · change (ops.setParams m p).map Sum.inl = .ok m' at h1
        cases ht : ops.setParams m p with
        | error e => rw [ht] at h1; cases h1
        | ok y => rw [ht] at h1; cases h1; exact h.setP m p y trivial hp hs ht
      · change (ModelSer.setParams (opsAt ops w r n) M p).map Sum.inr = .ok m' at h1
        cases ht : ModelSer.setParams (opsAt ops w r n) M p with
        | error e => rw [ht] at h1; cases h1
        | ok y => rw [ht] at h1; cases h1; exact holds_setP hn M hm hp hs ht
    · rintro (m | M) s m' hm h1
      · change (ops.setState m s).map Sum.inl = .ok m' at h1
        cases ht : ops.setState m s with
        | error e => rw [ht] at h1; cases h1
        | ok y => rw [ht] at h1; cases h1; exact h.setS m s y trivial ht
      · change (ModelSer.setState (opsAt ops w r n) M s).map Sum.inr = .ok m' at h1
        cases ht : ModelSer.setState (opsAt ops w r n) M s with
        | error e => rw [ht] at h1; cases h1
        | ok y => rw [ht] at h1; cases h1; exact holds_setS hn M hm ht

theorem holds_lib (w r : Str) : Holds (libOps w r) fun _ => True where
  setP m p m' _ _ hs h := by
    have h1 := (C85_library).setP (m, true) p hs
    change (m.1.cls.setParams m.2.attrs p).map _ = .ok m' at h
    have h2 : Params.libSet m p = (m', Option.none) := by
      unfold Params.libSet
      cases ht : m.1.cls.setParams m.2.attrs p with
      | error e => rw [ht] at h; cases h
      | ok a => rw [ht] at h; cases h; rfl
    have h3 := h1 (by show (Params.libSet m p).2 = _; rw [h2])
    change (Params.libGet (Params.libSet m p).1).norm = p.norm at h3
    rw [h2] at h3
    exact h3
  setS m s m' _ h := by
    change (m.1.cls.setState m.2.attrs s).map _ = .ok m' at h
    have h2 : m.1.cls.setState m.2.attrs s = .ok m.2.attrs := by obtain ⟨l, o⟩ := m; cases l <;> rfl
    rw [h2] at h
    cases h
    rfl

end Loaded
end Verif
