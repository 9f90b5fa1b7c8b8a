import Verif.Lemmas.Graph

namespace Verif.Graph

open Relation GraphSpec

variable {α : Type} [DecidableEq α]

theorem validate_ok {order R : List α} {start fin : α} :
    validate order R start fin = .ok () ↔
      order.length = R.length ∧ order.head? = some start ∧ order.getLast? = some fin := by
  unfold validate
  by_cases h1 : order.length = R.length
  · by_cases h2 : order.head? = some start
    · by_cases h3 : order.getLast? = some fin
      · simp [h1, h2, h3]
      · simp [h1, h2, h3]
    · simp [h1, h2]
  · simp [h1]

theorem resolve_ok {g : Graph α} (hd : IsDict g) {start fin : α} (hstart : ∀ u, ¬ Edge g u start)
    {order rev : List α} (h : resolve g start fin = .ok (order, rev)) :
    SoundSchedule g start fin order ∧ (∀ v, v ∈ order ↔ Useful g start fin v) ∧
      (∀ v, v ∈ rev ↔ Reach g v fin) := by
  obtain ⟨R, rev', order', deg, hRn, hRm, hrn, hrm, hi, hhead, hres⟩ := resolve_run g hd start fin hstart
  rw [hres] at h
  cases hv : validate order' R start fin with
  | error e => rw [hv] at h; cases h
  | ok u =>
    rw [hv] at h
    simp only [Except.ok.injEq, Prod.mk.injEq] at h
    obtain ⟨rfl, rfl⟩ := h
    obtain ⟨hlen, h1, h2⟩ := validate_ok.1 hv
    have hnod : order'.Nodup := by simpa using hi.nodup
    have hbefore : ∀ u v, v ∈ order' → Edge g u v → Before order' u v := by
      intro u v _ hu pre post hpp
      have hvs : v ≠ start := by rintro rfl; exact hstart u hu
      exact (hi.before pre v post (by rw [List.append_nil]; exact hpp) hvs u hu).1
    have hstartR : start ∈ R := by
      -- otherwise nothing is useful and the lengths differ
      by_contra hs
      have hR : R = [] := by
        rw [List.eq_nil_iff_forall_not_mem]
        intro x hx
        have := (hRm x).1 hx
        exact hs ((hRm start).2 ⟨.refl, this.1.trans this.2⟩)
      subst hR
      simp at hlen
      subst hlen
      simp at h1
    have hsub : ∀ x ∈ order', x ∈ R := by
      intro x hx
      rcases hi.mem_R x (by simpa using hx) with rfl | h
      · exact hstartR
      · exact h
    have hperm : order'.Perm R :=
      (List.subperm_of_subset hnod hsub).perm_of_length_le (le_of_eq hlen.symm)
    exact ⟨⟨h1, h2, hnod, hbefore⟩, fun v => by rw [hperm.mem_iff, hRm], hrm⟩

/-- A list in which producers come first has no cycle through its members. -/
theorem before_transGen {g : Graph α} {order : List α} (hn : order.Nodup)
    (hb : ∀ u v, v ∈ order → Edge g u v → Before order u v) {u v : α}
    (h : TransGen (Edge g) u v) (hv : v ∈ order) : u ∈ order ∧ Before order u v := by
  induction h with
  | @single b e =>
    have := hb u b hv e
    obtain ⟨pre, post, hpp⟩ := List.append_of_mem hv
    exact ⟨by rw [hpp]; exact List.mem_append_left _ (this pre post hpp), this⟩
  | @tail b c _ e ih =>
    have hbc := hb b c hv e
    have hbm : b ∈ order := by
      obtain ⟨pre, post, hpp⟩ := List.append_of_mem hv
      rw [hpp]; exact List.mem_append_left _ (hbc pre post hpp)
    obtain ⟨hu, hub⟩ := ih hbm
    refine ⟨hu, ?_⟩
    intro pre post hpp
    have hbp := hbc pre post hpp
    obtain ⟨p1, p2, hp⟩ := List.append_of_mem hbp
    have := hub p1 (p2 ++ c :: post) (by rw [hpp, hp]; simp)
    rw [hp]; exact List.mem_append_left _ this

theorem not_onCycle {g : Graph α} {order : List α} (hn : order.Nodup)
    (hb : ∀ u v, v ∈ order → Edge g u v → Before order u v) {v : α} (hv : v ∈ order) : ¬ OnCycle g v := by
  intro hc
  obtain ⟨_, h⟩ := before_transGen hn hb hc hv
  obtain ⟨pre, post, hpp⟩ := List.append_of_mem hv
  have := h pre post hpp
  rw [hpp] at hn
  have := List.nodup_append.1 hn
  exact this.2.2 v ‹_› v (by simp) rfl

theorem wellFormed_of_ok {g : Graph α} (hd : IsDict g) {start fin : α} (hstart : ∀ u, ¬ Edge g u start)
    {order rev : List α} (h : resolve g start fin = .ok (order, rev)) : WellFormed g start fin := by
  obtain ⟨hs, hm, _⟩ := resolve_ok hd hstart h
  have hfin : fin ∈ order := List.mem_of_getLast? hs.last
  refine ⟨((hm fin).1 hfin).1, ?_, ?_⟩
  · intro v hv
    exact not_onCycle hs.nodup hs.producersFirst ((hm v).2 hv)
  · intro v hv u hu
    have hvo := (hm v).2 hv
    obtain ⟨pre, post, hpp⟩ := List.append_of_mem hvo
    have := hs.producersFirst u v hvo hu pre post hpp
    exact ((hm u).1 (by rw [hpp]; exact List.mem_append_left _ this)).1

theorem ok_of_wellFormed {g : Graph α} (hd : IsDict g) {start fin : α} (hstart : ∀ u, ¬ Edge g u start)
    (hw : WellFormed g start fin) : ∃ order rev, resolve g start fin = .ok (order, rev) := by
  obtain ⟨R, rev, order, deg, hRn, hRm, hrn, hrm, hi, hhead, hres⟩ := resolve_run g hd start fin hstart
  have hnod : order.Nodup := by simpa using hi.nodup
  have hstartR : start ∈ R := (hRm start).2 ⟨.refl, hw.connected⟩
  have hsub : ∀ x ∈ order, x ∈ R := by
    intro x hx
    rcases hi.mem_R x (by simpa using hx) with rfl | h
    · exact hstartR
    · exact h
  -- every useful node is scheduled
  have hall : ∀ v, v ∈ R → v ∈ order := by
    let r : {x // x ∈ R} → {x // x ∈ R} → Prop := fun a b => TransGen (Edge g) a.1 b.1
    haveI : IsTrans {x // x ∈ R} r := ⟨fun _ _ _ h1 h2 => TransGen.trans h1 h2⟩
    haveI : Std.Irrefl r := ⟨fun a h => hw.acyclic a.1 ((hRm a.1).1 a.2) h⟩
    have wf : WellFounded r := Finite.wellFounded_of_trans_of_irrefl r
    have key : ∀ a : {x // x ∈ R}, a.1 ∈ order := by
      intro a
      induction a using wf.induction with
      | _ a ih =>
        by_cases has : a.1 = start
        · rw [has]; simpa using hi.start_mem
        · have h1 := (hi.enq a.1 a.2 has)
          rw [List.append_nil] at h1
          rw [h1]
          apply le_antisymm
          · exact count_processed_le g order hnod a.1
          · apply count_processed_eq g hd
            intro u hu
            have ha := (hRm a.1).1 a.2
            have huR : u ∈ R :=
              (hRm u).2 ⟨hw.producersFed a.1 ha u hu, ReflTransGen.head hu ha.2⟩
            exact ih ⟨u, huR⟩ (TransGen.single hu)
    intro v hv; exact key ⟨v, hv⟩
  have hlen : order.length = R.length :=
    ((List.perm_ext_iff_of_nodup hnod hRn).2 (fun a => ⟨hsub a, hall a⟩)).length_eq
  -- the output comes last
  have hfin : fin ∈ order := hall fin ((hRm fin).2 ⟨hw.connected, .refl⟩)
  have hlast : order.getLast? = some fin := by
    rcases List.eq_nil_or_concat order with h | ⟨pre, z, hz⟩
    · rw [h] at hfin; simp at hfin
    · rw [List.concat_eq_append] at hz
      have hzl : order.getLast? = some z := by rw [hz]; simp
      rw [hzl]
      by_contra hne
      have hzf : z ≠ fin := fun h => hne (by rw [h])
      have hzo : z ∈ order := by rw [hz]; simp
      have hzu := (hRm z).1 (hsub z hzo)
      rcases ReflTransGen.cases_head hzu.2 with h | ⟨w, hzw, hwf⟩
      · exact hzf h
      · have hwo : w ∈ order := hall w ((hRm w).2 ⟨hzu.1.tail hzw, hwf⟩)
        obtain ⟨p, q, hpq⟩ := List.append_of_mem hwo
        have hws : w ≠ start := by rintro rfl; exact hstart z hzw
        have hzp := (hi.before p w q (by rw [List.append_nil]; exact hpq) hws z hzw).1
        -- z is both before w and last
        rcases List.eq_nil_or_concat q with rfl | ⟨q', y, rfl⟩
        · have := List.append_inj' (hz.symm.trans hpq) rfl
          have hzw' : z = w := by simpa using this.2
          subst hzw'
          rw [hpq] at hnod
          exact (List.nodup_append.1 hnod).2.2 z hzp z (by simp) rfl
        · rw [List.concat_eq_append, ← List.cons_append, ← List.append_assoc] at hpq
          have := List.append_inj' (hz.symm.trans hpq) rfl
          have hzy : z = y := by simpa using this.2
          subst hzy
          rw [hpq] at hnod
          exact (List.nodup_append.1 hnod).2.2 z (List.mem_append_left _ hzp) z (by simp) rfl
  refine ⟨order, rev, ?_⟩
  rw [hres, validate_ok.2 ⟨hlen, hhead, hlast⟩]

/-- Termination without any assumption on the graph. -/
theorem resolve_terminates (g : Graph α) (start fin : α) : resolve g start fin ≠ .error .timeout := by
  obtain ⟨a, ha⟩ := dfs_isSome (nbrs g) (edges g) (length_nbrs_le g) (fuel g) [] [start] (by simp [fuel]; omega)
  obtain ⟨b, hb⟩ := dfs_isSome (reverseGraph g) ((edges g).map Prod.swap) (length_reverse_le g) (fuel g) [] [fin]
    (by simp [fuel]; omega)
  obtain ⟨order, ho⟩ := kahn_isSome g (a.filter (· ∈ b)) (fuel g) [] [start] (inDegree g) (by
    have : pending ((edges g).map Prod.snd) (inDegree g) ≤ (edges g).length := by
      unfold pending
      refine (List.length_filter_le _ _).trans ?_
      simp
    simp [fuel]; omega)
  unfold resolve
  rw [ha, hb]
  simp only [ho]
  unfold validate
  split_ifs <;> simp

end Verif.Graph
