import Verif.Lemmas.Rename

/-! Graph models that differ in modules that do not lead to the output. -/

namespace Verif.Forward
open TreeSpec ConnSpec PathSpec ForwardSpec DataflowSpec RenameSpec Conn Tree Relation

variable {M P S K A : Type} {sep : Char} {modules modules' : Tree M} {conn conn' : List (Str × List Str)}

theorem isModule_same {m : List Str} (h : IsModule (nsCfg sep) modules m) (e : get modules' m = get modules m) : IsModule (nsCfg sep) modules' m := by
  obtain ⟨h1, h2, h3, b, hb⟩ := h
  exact ⟨h1, h2, h3, b, by rw [e, hb]⟩

/-- A module that leads to the output of the second model is one of the first and leads there too. -/
theorem leads_back (h : Names sep modules conn) (hM : ∀ m, IsModule (nsCfg sep) modules m → Leads (nsCfg sep) modules conn m → get modules' m = get modules m)
    (hback : ∀ e ∈ edges conn', Used (nsCfg sep) modules' conn' e → e ∈ edges conn) {m' : List Str} (hl : Leads (nsCfg sep) modules' conn' m') :
    Leads (nsCfg sep) modules conn m' ∧ (m' = [(nsCfg sep).outKey] ∨ m' = [(nsCfg sep).inKey] ∨
      IsModule (nsCfg sep) modules m' ∧ IsModule (nsCfg sep) modules' m') := by
  induction hl using ReflTransGen.head_induction_on with
  | refl => exact ⟨.refl, .inl rfl⟩
  | @head a' b' hf hl ih =>
    obtain ⟨i1, i2⟩ := ih
    obtain ⟨e, he, r, s, k1, k2⟩ := hf
    have hc := hback e he ⟨b', s, k2, hl⟩
    have hb : b' = [(nsCfg sep).outKey] ∨ IsModule (nsCfg sep) modules b' := by
      rcases i2 with i2 | i2 | i2
      · exact .inl i2
      · subst i2
        rcases k2.2.2 with k | k
        · exact .inl k
        · exact absurd rfl k.2.1
      · exact .inr i2.1
    have ht : Target (nsCfg sep) modules e.2 b' s := ⟨k2.1, k2.2.1, hb⟩
    obtain ⟨kv, hkv, e1, e2⟩ := mem_edges_key hc
    obtain ⟨a, ra, hs⟩ := h.wf.source kv hkv
    rw [e1] at hs
    have hla : Leads (nsCfg sep) modules conn a := .head ⟨e, hc, ra, s, hs, ht⟩ i1
    rcases hs.2.2 with rfl | hm
    · obtain ⟨rfl, -⟩ := source_unique k1 (⟨hs.1, hs.2.1, .inl rfl⟩ : Source (nsCfg sep) modules' e.1 [(nsCfg sep).inKey] ra)
      exact ⟨hla, .inr (.inl rfl)⟩
    · have hm' := isModule_same hm (hM a hm hla)
      obtain ⟨rfl, -⟩ := source_unique k1 (⟨hs.1, hs.2.1, .inr hm'⟩ : Source (nsCfg sep) modules' e.1 a ra)
      exact ⟨hla, .inr (.inr ⟨hm, hm'⟩)⟩

/-- The modules that count. -/
def Counts (sep : Char) (modules modules' : Tree M) (conn : List (Str × List Str)) (a b : List Str) : Prop :=
  a = b ∧ (a = [(nsCfg sep).inKey] ∨ a = [(nsCfg sep).outKey] ∨
    IsModule (nsCfg sep) modules a ∧ IsModule (nsCfg sep) modules' a ∧ Leads (nsCfg sep) modules conn a)

theorem unused_renames (h : Names sep modules conn) (h' : Names sep modules' conn')
    (hM : ∀ m, IsModule (nsCfg sep) modules m → Leads (nsCfg sep) modules conn m → get modules' m = get modules m)
    (hforth : ∀ e ∈ edges conn, Used (nsCfg sep) modules conn e → e ∈ edges conn')
    (hback : ∀ e ∈ edges conn', Used (nsCfg sep) modules' conn' e → e ∈ edges conn) :
    Renames (nsCfg sep) modules modules' conn conn' (Counts sep modules modules' conn) := by
  refine ⟨⟨rfl, .inl rfl⟩, ⟨rfl, .inr (.inl rfl)⟩, fun a b c h1 h2 => h1.1.trans h2.1.symm, fun a b c h1 h2 => h1.1.symm.trans h2.1, ?_, ?_, ?_⟩
  · rintro a b ⟨rfl, h1 | h1 | ⟨h1, h2, -⟩⟩
    · subst h1; exact ⟨fun h => absurd rfl h.2.1, fun h => absurd rfl h.2.1⟩
    · subst h1; exact ⟨fun h => absurd rfl h.2.2.1, fun h => absurd rfl h.2.2.1⟩
    · exact ⟨fun _ => h2, fun _ => h1⟩
  · rintro e he ⟨b, s, ht, hl⟩
    obtain ⟨kv, hkv, e1, e2⟩ := mem_edges_key he
    obtain ⟨a, ra, hs⟩ := h.wf.source kv hkv
    rw [e1] at hs
    have hla : Leads (nsCfg sep) modules conn a := .head ⟨e, he, ra, s, hs, ht⟩ hl
    refine ⟨e, hforth e he ⟨b, s, ht, hl⟩, a, ra, b, s, a, b, ?_, ?_, hs, ht, ?_, ?_⟩
    · rcases hs.2.2 with rfl | hm
      · exact ⟨rfl, .inl rfl⟩
      · exact ⟨rfl, .inr (.inr ⟨hm, isModule_same hm (hM a hm hla), hla⟩)⟩
    · rcases ht.2.2 with rfl | hm
      · exact ⟨rfl, .inr (.inl rfl)⟩
      · exact ⟨rfl, .inr (.inr ⟨hm, isModule_same hm (hM b hm hl), hl⟩)⟩
    · exact ⟨hs.1, hs.2.1, hs.2.2.imp id fun hm => isModule_same hm (hM a hm hla)⟩
    · exact ⟨ht.1, ht.2.1, ht.2.2.imp id fun hm => isModule_same hm (hM b hm hl)⟩
  · rintro e he ⟨b, s, ht, hl⟩
    obtain ⟨kv, hkv, e1, e2⟩ := mem_edges_key he
    obtain ⟨a, ra, hs⟩ := h'.wf.source kv hkv
    rw [e1] at hs
    have hla : Leads (nsCfg sep) modules' conn' a := .head ⟨e, he, ra, s, hs, ht⟩ hl
    obtain ⟨a1, a2⟩ := leads_back h hM hback hla
    obtain ⟨b1, b2⟩ := leads_back h hM hback hl
    have ha : a = [(nsCfg sep).inKey] ∨ IsModule (nsCfg sep) modules a ∧ IsModule (nsCfg sep) modules' a := by
      rcases a2 with rfl | a2 | a2
      · rcases hs.2.2 with k | k
        · exact .inl k
        · exact absurd rfl k.2.2.1
      · exact .inl a2
      · exact .inr a2
    have hb : b = [(nsCfg sep).outKey] ∨ IsModule (nsCfg sep) modules b ∧ IsModule (nsCfg sep) modules' b := by
      rcases b2 with b2 | rfl | b2
      · exact .inl b2
      · rcases ht.2.2 with k | k
        · exact .inl k
        · exact absurd rfl k.2.1
      · exact .inr b2
    refine ⟨e, hback e he ⟨b, s, ht, hl⟩, a, ra, b, s, a, b, ?_, ?_, ⟨hs.1, hs.2.1, ha.imp id (·.1)⟩, ⟨ht.1, ht.2.1, hb.imp id (·.1)⟩, hs, ht⟩
    · rcases ha with rfl | ⟨k1, k2⟩
      · exact ⟨rfl, .inl rfl⟩
      · exact ⟨rfl, .inr (.inr ⟨k1, k2, a1⟩)⟩
    · rcases hb with rfl | ⟨k1, k2⟩
      · exact ⟨rfl, .inr (.inl rfl)⟩
      · exact ⟨rfl, .inr (.inr ⟨k1, k2, b1⟩)⟩

end Verif.Forward
