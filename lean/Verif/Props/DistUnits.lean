import Verif.Props.Distance
import Verif.Props.SensUnits

/-! # C141: the units of the features and the distance sensitivity -/

namespace Verif.Props
open Verif.Tree Verif.NdSpec Verif.Dist NArr
open Verif.ForwardSpec (At KeysOk)

/-- The feature `g` is the feature `f` in other units: each component of a selected continuous feature is multiplied by a positive number and shifted, and the
categories of a selected categorical feature are called something else. -/
structure FeatUnits (n m : Nat) (s : List Nat) (f g : Feat) : Prop where
  cont : g.cont = f.cont
  dist : g.dist = f.dist
  num : f.dist = true → f.cont = true → ∀ j, InB s j → ∃ a > 0, ∃ b, (∀ k < n, g.x.val (k :: j) = a * f.x.val (k :: j) + b) ∧
    ∀ r < m, g.train.val (r :: j) = a * f.train.val (r :: j) + b
  cat : f.dist = true → f.cont = false → ∃ φ : ℝ → ℝ, Function.Injective φ ∧ (∀ k < n, g.x.val [k, 0] = φ (f.x.val [k, 0])) ∧
    ∀ r < m, g.train.val [r, 0] = φ (f.train.val [r, 0])

theorem isRange_units {t t' : NArr ℝ} {m : Nat} {j : List Nat} {a b v v' : ℝ} (ha : 0 < a) (h : IsRange t m j v) (h' : IsRange t' m j v')
    (e : ∀ r < m, t'.val (r :: j) = a * t.val (r :: j) + b) : v' = a * v := by
  obtain ⟨lo, hlo, hi, hhi, rfl, hb⟩ := h
  obtain ⟨lo', hlo', hi', hhi', rfl, hb'⟩ := h'
  have h1 : t'.val (hi' :: j) = t'.val (hi :: j) := by
    refine le_antisymm ?_ (hb' hi hhi).2
    rw [e hi' hhi', e hi hhi]
    have := mul_le_mul_of_nonneg_left (hb hi' hhi').2 ha.le
    linarith
  have h2 : t'.val (lo' :: j) = t'.val (lo :: j) := by
    refine le_antisymm (hb' lo hlo).1 ?_
    rw [e lo' hlo', e lo hlo]
    have := mul_le_mul_of_nonneg_left (hb lo' hlo').1 ha.le
    linarith
  rw [h1, h2, e hi hhi, e lo hlo]
  ring

theorem inB_single {j : List Nat} (h : InB [1] j) : j = [0] := by
  have := mem_indices.2 h
  simpa [indices] using this

section
variable {ρ ρ' : Feat → List Nat → ℝ} {n m c : Nat} {w : Feat → Feat}

/-- The two descriptions of one feature. -/
def SameFeature (ρ ρ' : Feat → List Nat → ℝ) (n m c : Nat) (w : Feat → Feat) (f : Feat) : Prop :=
  ∃ s, Comparable ρ n m c f s ∧ Comparable ρ' n m c (w f) s ∧ FeatUnits n m s f (w f)

theorem featDist_units {f : Feat} (h : SameFeature ρ ρ' n m c w f) {k r : Nat} (hk : k < n) (hr : r < m) : featDist ρ' (w f) k r = featDist ρ f k r := by
  obtain ⟨s, h1, h2, h3⟩ := h
  unfold featDist
  rw [h3.cont, h3.dist]
  by_cases hd : f.dist = true
  · rw [if_pos hd, if_pos hd]
    by_cases hc : f.cont = true
    · rw [if_pos hc, if_pos hc, h1.train, h2.train]
      congr 1
      refine List.map_congr_left fun j hj => ?_
      have hj : InB s j := mem_indices.1 hj
      obtain ⟨a, ha, b, e1, e2⟩ := h3.num hd hc j hj
      obtain ⟨r1, r2⟩ := h1.range hd hc j hj
      have hR := isRange_units ha r1 (h2.range (h3.dist.trans hd) (h3.cont.trans hc) j hj).1 e2
      rw [hR, e1 k hk, e2 r hr, abs_units ha, add_zero]
      field_simp
    · rw [if_neg hc, if_neg hc]
      obtain ⟨φ, hφ, e1, e2⟩ := h3.cat hd (by simpa using hc)
      rw [e1 k hk, e2 r hr]
      simp only [hφ.eq_iff]
  · rw [if_neg hd, if_neg hd]

theorem count_units {L : List Feat} (h : ∀ f ∈ L, SameFeature ρ ρ' n m c w f) : count (L.map w) = count L := by
  unfold count
  rw [List.map_map]
  congr 1
  refine List.map_congr_left fun f hf => ?_
  obtain ⟨s, h1, h2, h3⟩ := h f hf
  simp only [Function.comp, h3.cont, h3.dist, h1.train, h2.train]

theorem gower_units {L : List Feat} (h : ∀ f ∈ L, SameFeature ρ ρ' n m c w f) {k r : Nat} (hk : k < n) (hr : r < m) : gower ρ' (L.map w) k r = gower ρ L k r := by
  unfold gower
  rw [count_units h, List.map_map]
  congr 2
  exact List.map_congr_left fun f hf => featDist_units (h f hf) hk hr

theorem seen_units {L : List Feat} (h : ∀ f ∈ L, SameFeature ρ ρ' n m c w f) {k : Nat} (hk : k < n) (hs : Seen L m k) : Seen (L.map w) m k := by
  intro g hg hd hc
  obtain ⟨f, hf, rfl⟩ := List.mem_map.1 hg
  obtain ⟨s, h1, h2, h3⟩ := h f hf
  rw [h3.dist] at hd
  rw [h3.cont] at hc
  obtain ⟨φ, hφ, e1, e2⟩ := h3.cat hd hc
  obtain ⟨r, hr, e⟩ := hs f hf hd hc
  exact ⟨r, hr, by rw [e1 k hk, e2 r hr, e]⟩

theorem sameSample_units {L : List Feat} (h : ∀ f ∈ L, SameFeature ρ ρ' n m c w f) {r q : Nat} (hr : r < m) (hq : q < m) :
    SameSample (L.map w) r q ↔ SameSample L r q := by
  have key : ∀ f ∈ L, f.dist = true → ∀ j, InB f.train.shape.tail j →
      ((w f).train.val (r :: j) = (w f).train.val (q :: j) ↔ f.train.val (r :: j) = f.train.val (q :: j)) := by
    intro f hf hd j hj
    obtain ⟨s, h1, h2, h3⟩ := h f hf
    have hj : InB s j := by rw [h1.train] at hj; exact hj
    by_cases hc : f.cont = true
    · obtain ⟨a, ha, b, -, e2⟩ := h3.num hd hc j hj
      rw [e2 r hr, e2 q hq]
      constructor
      · intro e
        exact mul_left_cancel₀ ha.ne' (add_right_cancel e)
      · intro e
        rw [e]
    · have hc : f.cont = false := by simpa using hc
      obtain ⟨φ, hφ, -, e2⟩ := h3.cat hd hc
      rw [h1.cat hd hc] at hj
      rw [inB_single hj, e2 r hr, e2 q hq, hφ.eq_iff]
  constructor
  · intro hs f hf hd j hj
    obtain ⟨s, h1, h2, h3⟩ := h f hf
    exact (key f hf hd j hj).1 (hs (w f) (List.mem_map.2 ⟨f, hf, rfl⟩) (h3.dist.trans hd) j (by rw [h2.train]; rw [h1.train] at hj; exact hj))
  · intro hs g hg hd j hj
    obtain ⟨f, hf, rfl⟩ := List.mem_map.1 hg
    obtain ⟨s, h1, h2, h3⟩ := h f hf
    have hj : InB f.train.shape.tail j := by rw [h1.train]; rw [h2.train] at hj; exact hj
    exact (key f hf (h3.dist.symm.trans hd) j hj).2 (hs f hf (h3.dist.symm.trans hd) j hj)

theorem distinct_units {L : List Feat} (h : ∀ f ∈ L, SameFeature ρ ρ' n m c w f) {reps : List Nat} (hR : Distinct L m reps) : Distinct (L.map w) m reps := by
  refine ⟨hR.bound, fun r hr => ?_, ?_⟩
  · obtain ⟨q, hq, e⟩ := hR.cover r hr
    exact ⟨q, hq, (sameSample_units h hr (hR.bound q hq)).2 e⟩
  · exact List.Pairwise.imp_of_mem (fun {r q} hr hq hs e => hs ((sameSample_units h (hR.bound r hr) (hR.bound q hq)).1 e)) hR.once

/-- **C141 (distances).** The distance sensitivity of a sample, whose categories the training data has, depends neither on the units and zeros of the continuous features nor on what the
categories are called. -/
theorem C141_distances {D : Tree Feat} (hD : KeysOk D) (hok : ∀ f ∈ flat D, SameFeature ρ ρ' n m c w f) (h0 : count (jaxLeaves D) ≠ 0) (hm : m ≠ 0) (cutoff : ℝ) :
    ∃ ds ds', distances (map Feat.train D) (map Feat.cal D) (map Feat.cont D) (map Feat.dist D) cutoff (map Feat.x D) = .ok ds ∧
      distances (map (fun f => (w f).train) D) (map (fun f => (w f).cal) D) (map (fun f => (w f).cont) D) (map (fun f => (w f).dist) D) cutoff
        (map (fun f => (w f).x) D) = .ok ds' ∧
      ∀ k < n, Seen (jaxLeaves D) m k → ∃ d, ds[k]? = some (some d) ∧ ds'[k]? = some (some d) := by
  have hL : ∀ f ∈ jaxLeaves D, SameFeature ρ ρ' n m c w f := fun f hf => hok f (mem_flat_norm.1 hf)
  obtain ⟨ds, h1, -, h2⟩ := C81_distance hD (fun f hf => (hok f hf).imp fun s h => h.1) h0 hm cutoff
  obtain ⟨ds', h1', -, h2'⟩ := C81_distance (D := map w D) ((keysOk_map _ _).2 hD)
    (fun g hg => by rw [flat_map] at hg; obtain ⟨f, hf, rfl⟩ := List.mem_map.1 hg; exact (hok f hf).imp fun s h => h.2.1)
    (by rw [Matmul.jaxLeaves_map, count_units hL]; exact h0) hm cutoff
  simp only [map_map] at h1'
  refine ⟨ds, ds', h1, h1', fun k hk hs => ?_⟩
  obtain ⟨d, hd, hfar, hnear⟩ := h2 k hk hs
  obtain ⟨d', hd', hfar', hnear'⟩ := h2' k hk (by rw [Matmul.jaxLeaves_map]; exact seen_units hL hk hs)
  rw [Matmul.jaxLeaves_map, count_units hL] at hfar' hnear'
  have hg : ∀ r < m, gower ρ' ((jaxLeaves D).map w) k r = gower ρ (jaxLeaves D) k r := fun r hr => gower_units hL hk hr
  refine ⟨d, hd, ?_⟩
  rw [hd']
  congr 2
  by_cases hf : ∀ r < m, cutoff / count (jaxLeaves D) < gower ρ (jaxLeaves D) k r
  · obtain ⟨⟨r, hr, e⟩, hle⟩ := hfar hf
    obtain ⟨⟨r', hr', e'⟩, hle'⟩ := hfar' fun r hr => by rw [hg r hr]; exact hf r hr
    refine le_antisymm ?_ ?_
    · rw [e, ← hg r hr]
      exact hle' r hr
    · rw [e', hg r' hr']
      exact hle r' hr'
  · push Not at hf
    obtain ⟨r, hr, hle⟩ := hf
    obtain ⟨reps, hR⟩ := distinct_exists (jaxLeaves D) m
    have hfil : (reps.filter fun r => decide (gower ρ' ((jaxLeaves D).map w) k r ≤ cutoff / count (jaxLeaves D))) =
        reps.filter fun r => decide (gower ρ (jaxLeaves D) k r ≤ cutoff / count (jaxLeaves D)) :=
      List.filter_congr fun r hr => by rw [hg r (hR.bound r hr)]
    have hne : (reps.filter fun r => decide (gower ρ (jaxLeaves D) k r ≤ cutoff / count (jaxLeaves D))) ≠ [] := by
      obtain ⟨q, hq, hs'⟩ := hR.cover r hr
      refine List.ne_nil_of_mem (a := q) (List.mem_filter.2 ⟨hq, ?_⟩)
      have hr' : ∀ f ∈ jaxLeaves D, ∃ s, Comparable ρ n m c f s := fun f hf => (hL f hf).imp fun s h => h.1
      have e : gower ρ (jaxLeaves D) k q = gower ρ (jaxLeaves D) k r := by
        unfold gower
        congr 2
        refine List.map_congr_left fun f hf => ?_
        obtain ⟨s, h1, -, -⟩ := hL f hf
        unfold featDist
        by_cases hd : f.dist = true
        · rw [if_pos hd, if_pos hd]
          by_cases hc : f.cont = true
          · rw [if_pos hc, if_pos hc]
            congr 1
            exact List.map_congr_left fun j hj => by rw [hs' f hf hd j (mem_indices.1 hj)]
          · rw [if_neg hc, if_neg hc, hs' f hf hd [0] (by rw [h1.train, h1.cat hd (by simpa using hc)]; exact mem_indices.1 (by simp [indices]))]
        · rw [if_neg hd, if_neg hd]
      simpa [e] using hle
    rw [hnear reps _ hR (List.Perm.refl _) hne, hnear' reps _ (distinct_units hL hR) (List.Perm.refl _) (by rw [hfil]; exact hne), hfil]
    congr 2
    exact List.map_congr_left fun q hq => hg q (hR.bound q (List.mem_of_mem_filter hq))

/-- **C141 (cutoff).** If the training data has two different samples, the cutoff that calibration computes from it does not depend on the units of the features or the names of categories
either. -/
theorem C141_cutoff {D : Tree Feat} (hD : KeysOk D) (hok : ∀ f ∈ flat D, SameFeature ρ ρ' m m c w f) (hx : ∀ f ∈ flat D, f.x = f.train ∧ (w f).x = (w f).train)
    (h0 : count (jaxLeaves D) ≠ 0) (r₀ q₀ : Nat) (hr₀ : r₀ < m) (hq₀ : q₀ < m) (hdiff : ¬SameSample (jaxLeaves D) r₀ q₀) (q : ℝ) :
    ∃ v, fitCutoff (map Feat.train D) (map Feat.cont D) (map Feat.dist D) q = .ok (some v) ∧
      fitCutoff (map (fun f => (w f).train) D) (map (fun f => (w f).cont) D) (map (fun f => (w f).dist) D) q = .ok (some v) := by
  have hL : ∀ f ∈ jaxLeaves D, SameFeature ρ ρ' m m c w f := fun f hf => hok f (mem_flat_norm.1 hf)
  obtain ⟨reps, hR⟩ := distinct_exists (jaxLeaves D) m
  have hnn : ∀ r ∈ reps, ∃ v, (∃ p ∈ reps, p ≠ r ∧ v = gower ρ (jaxLeaves D) r p) ∧ ∀ p ∈ reps, p ≠ r → v ≤ gower ρ (jaxLeaves D) r p := by
    intro r hr
    have hne : (reps.toFinset.erase r).Nonempty := by
      by_contra hno
      rw [Finset.not_nonempty_iff_eq_empty] at hno
      have hall : ∀ p ∈ reps, p = r := fun p hp => by
        by_contra hpr
        have : p ∈ reps.toFinset.erase r := Finset.mem_erase.2 ⟨hpr, List.mem_toFinset.2 hp⟩
        rw [hno] at this
        simp at this
      obtain ⟨a, ha, ea⟩ := hR.cover r₀ hr₀
      obtain ⟨b, hb, eb⟩ := hR.cover q₀ hq₀
      rw [hall a ha] at ea
      rw [hall b hb] at eb
      exact hdiff fun f hf hd j hj => (ea f hf hd j hj).trans (eb f hf hd j hj).symm
    obtain ⟨p, hp, hmin⟩ := Finset.exists_min_image _ (gower ρ (jaxLeaves D) r) hne
    obtain ⟨hp1, hp2⟩ := Finset.mem_erase.1 hp
    exact ⟨_, ⟨p, List.mem_toFinset.1 hp2, hp1, rfl⟩, fun p' hp' hne' => hmin p' (Finset.mem_erase.2 ⟨hne', List.mem_toFinset.2 hp'⟩)⟩
  choose! nn hnn using hnn
  have h1 := C81_cutoff hD (fun f hf => (hok f hf).imp fun s h => h.1) (fun f hf => (hx f hf).1) h0 hR nn hnn q
  have h2 := C81_cutoff (D := map w D) ((keysOk_map _ _).2 hD)
    (fun g hg => by rw [flat_map] at hg; obtain ⟨f, hf, rfl⟩ := List.mem_map.1 hg; exact (hok f hf).imp fun s h => h.2.1)
    (fun g hg => by rw [flat_map] at hg; obtain ⟨f, hf, rfl⟩ := List.mem_map.1 hg; exact (hx f hf).2)
    (by rw [Matmul.jaxLeaves_map, count_units hL]; exact h0) (reps := reps) (by rw [Matmul.jaxLeaves_map]; exact distinct_units hL hR) nn
    (fun r hr => by
      rw [Matmul.jaxLeaves_map]
      obtain ⟨⟨p, hp, e1, e2⟩, e3⟩ := hnn r hr
      exact ⟨⟨p, hp, e1, by rw [gower_units hL (hR.bound r hr) (hR.bound p hp)]; exact e2⟩,
        fun p hp hne => by rw [gower_units hL (hR.bound r hr) (hR.bound p hp)]; exact e3 p hp hne⟩) q
  rw [Matmul.jaxLeaves_map, count_units hL] at h2
  simp only [map_map] at h2
  obtain ⟨a, ha, -⟩ := hR.cover r₀ hr₀
  obtain ⟨v, hv⟩ := quant_some (l := reps.map fun r => (count (jaxLeaves D) : ℝ) * nn r) (fun e => by
    have : reps = [] := List.map_eq_nil_iff.1 e
    rw [this] at ha
    simp at ha) q
  exact ⟨v, by rw [h1, hv], by rw [h2, hv]⟩

end

/-- Temperatures of two training samples. -/
def demoTemp : Feat := ⟨⟨[2, 1], fun i => i.headD 0⟩, ⟨[2, 1], fun i => i.headD 0⟩, ⟨[2, 1], fun i => i.headD 0⟩, true, true⟩

/-- The same in another unit, with another zero. -/
noncomputable def otherTemp (f : Feat) : Feat :=
  ⟨⟨f.x.shape, fun i => 9 / 5 * f.x.val i + 32⟩, ⟨f.train.shape, fun i => 9 / 5 * f.train.val i + 32⟩, f.cal, f.cont, f.dist⟩

example : SameFeature (fun _ _ => 1) (fun _ _ => 9 / 5) 2 2 2 otherTemp demoTemp ∧ count (jaxLeaves (.leaf demoTemp)) ≠ 0 ∧ demoTemp.x = demoTemp.train ∧
    (otherTemp demoTemp).x = (otherTemp demoTemp).train ∧ ¬SameSample (jaxLeaves (.leaf demoTemp)) 0 1 ∧ Seen (jaxLeaves (.leaf demoTemp)) 2 0 := by
  refine ⟨⟨[1], ⟨rfl, rfl, rfl, fun _ _ j _ => ⟨⟨0, by norm_num, 1, by norm_num, by norm_num [demoTemp], fun r hr => ?_⟩, by norm_num⟩, fun _ h => by cases h⟩,
    ⟨rfl, rfl, rfl, fun _ _ j _ => ⟨⟨0, by norm_num, 1, by norm_num, by norm_num [demoTemp, otherTemp], fun r hr => ?_⟩, by norm_num⟩, fun _ h => by cases h⟩,
    rfl, rfl, fun _ _ j _ => ⟨9 / 5, by norm_num, 32, fun _ _ => rfl, fun _ _ => rfl⟩, fun _ h => by cases h⟩, ?_, rfl, rfl, fun h => ?_, fun f hf _ hc => ?_⟩
  · have : r = 0 ∨ r = 1 := by omega
    rcases this with rfl | rfl <;> norm_num [demoTemp]
  · have : r = 0 ∨ r = 1 := by omega
    rcases this with rfl | rfl <;> norm_num [demoTemp, otherTemp]
  · simp [count, jaxLeaves, Tree.norm, flat, demoTemp, NArr.length_indices]
  · have := h demoTemp (by simp [jaxLeaves, Tree.norm, flat]) rfl [0] (mem_indices.1 (by simp [indices, demoTemp]))
    norm_num [demoTemp] at this
  · simp only [jaxLeaves, Tree.norm, flat, List.mem_singleton] at hf
    subst hf
    cases hc

end Verif.Props
