import Verif.Model.ProgressBar
import Mathlib.Tactic.Linarith
import Mathlib.Tactic.FieldSimp
import Mathlib.Tactic.Ring
import Mathlib.Tactic.NormNum
import Mathlib.Data.List.Forall2
import Mathlib.Tactic.Set

/-! # Properties of the progress bar (C66) -/

namespace Verif.Props
open Verif.ProgressBar

/-- A written line: carriage return, information, a bar of `length` cells of which the first `p` are filled, the time and padding. -/
def ShowsFill (extra : Str) (length p : Int) (line : Str) : Prop :=
  ∃ (dyn time : Str) (n : Nat), line = ['\r'] ++ extra ++ dyn ++ ['['] ++ List.replicate p.toNat '#' ++
    List.replicate (length - p).toNat ' ' ++ "] (".toList ++ time ++ "s)".toList ++ List.replicate n ' '

theorem pad_spec (n : Nat) (s : Str) : ∃ k, (pad n s).1 = s ++ List.replicate k ' ' ∧ (pad n s).2 = (pad n s).1.length ∧ n ≤ (pad n s).2 := by
  unfold pad
  split
  · rename_i h
    refine ⟨n - s.length, rfl, ?_, le_refl _⟩
    simp only [List.length_append, List.length_replicate]
    omega
  · rename_i h
    exact ⟨0, by simp, rfl, by simp only; omega⟩

/-- The fill of a call that is shown. -/
def fillOf (b : Bar) (raw : Rat) : Int := min (trunc (raw / b.total * (b.length : Rat))) b.length

theorem update_spec (b : Bar) (t0 t1 raw : Rat) (dyn : Str) (h : 1 / 1000000000 < b.total) :
    (update b t0 t1 raw dyn).1.total = b.total ∧ (update b t0 t1 raw dyn).1.length = b.length ∧
    (update b t0 t1 raw dyn).1.extra = b.extra ∧
    (b.last ≤ fillOf b raw → ∃ line, (update b t0 t1 raw dyn).2 = some line ∧ ShowsFill b.extra b.length (fillOf b raw) line ∧
      (update b t0 t1 raw dyn).1.last = fillOf b raw ∧ b.longest ≤ line.length ∧ (update b t0 t1 raw dyn).1.longest = line.length) ∧
    (¬ b.last ≤ fillOf b raw → (update b t0 t1 raw dyn).2 = none ∧ (update b t0 t1 raw dyn).1.last = b.last ∧
      (update b t0 t1 raw dyn).1.longest = b.longest) := by
  unfold update
  rw [if_neg (not_le.2 h)]
  simp only
  by_cases hp : b.last ≤ fillOf b raw
  · have hp' : b.last ≤ min (trunc (raw / b.total * (b.length : Rat))) b.length := hp
    rw [if_pos hp']
    refine ⟨rfl, rfl, rfl, fun _ => ?_, fun h => absurd hp h⟩
    obtain ⟨k, h1, h2, h3⟩ := pad_spec b.longest (['\r'] ++ b.extra ++ dyn ++ (if dyn.isEmpty then [] else [' ']) ++ ['['] ++
      rep '#' (min (trunc (raw / b.total * (b.length : Rat))) b.length) ++ rep ' ' (b.length - min (trunc (raw / b.total * (b.length : Rat))) b.length)
        ++ "] (".toList ++ secs ((if 1 / 1000000000 < raw / b.total then (t1 - (if b.first then t0 else b.starttime.getD t0)) / (raw / b.total) else 0) -
          (t1 - (if b.first then t0 else b.starttime.getD t0))) ++ "s)".toList)
    refine ⟨_, rfl, ⟨dyn ++ (if dyn.isEmpty then [] else [' ']),
      secs ((if 1 / 1000000000 < raw / b.total then (t1 - (if b.first then t0 else b.starttime.getD t0)) / (raw / b.total) else 0) -
        (t1 - (if b.first then t0 else b.starttime.getD t0))), k, h1.trans ?_⟩, rfl, h2 ▸ h3, h2⟩
    simp only [rep, fillOf, List.append_assoc]
  · have hp' : ¬ b.last ≤ min (trunc (raw / b.total * (b.length : Rat))) b.length := hp
    rw [if_neg hp']
    exact ⟨rfl, rfl, rfl, fun h => absurd h hp, fun _ => ⟨rfl, rfl, rfl⟩⟩

theorem run_spec : ∀ (cs : List Call) (b : Bar), 1 / 1000000000 < b.total → ∃ ps : List Int,
    List.Forall₂ (fun line p => ShowsFill b.extra b.length p line) (run b cs).2 ps ∧ ps.Pairwise (· ≤ ·) ∧
    (∀ p ∈ ps, b.last ≤ p ∧ p ≤ b.length) ∧ (run b cs).2.Pairwise (fun l l' => l.length ≤ l'.length) ∧
    ∀ l ∈ (run b cs).2, b.longest ≤ l.length
  | [], b, _ => ⟨[], by simp [run]⟩
  | c :: cs, b, h => by
    obtain ⟨h1, h2, h3, h4, h5⟩ := update_spec b c.t0 c.t1 c.raw c.dynamic h
    obtain ⟨ps, i1, i2, i3, i4, i5⟩ := run_spec cs (update b c.t0 c.t1 c.raw c.dynamic).1 (by rw [h1]; exact h)
    rw [h3, h2] at i1
    rw [h2] at i3
    unfold run
    simp only
    by_cases hp : b.last ≤ fillOf b c.raw
    · obtain ⟨line, e1, e2, e3, e4, e5⟩ := h4 hp
      rw [e1]
      rw [e3] at i3
      rw [e5] at i5
      refine ⟨fillOf b c.raw :: ps, List.Forall₂.cons e2 i1, List.pairwise_cons.2 ⟨fun p hp => (i3 p hp).1, i2⟩, fun p hp' => ?_,
        List.pairwise_cons.2 ⟨fun l hl => i5 l hl, i4⟩, fun l hl => ?_⟩
      · rcases List.mem_cons.1 hp' with rfl | hp'
        · exact ⟨hp, min_le_right _ _⟩
        · exact ⟨hp.trans (i3 p hp').1, (i3 p hp').2⟩
      · rcases List.mem_cons.1 hl with rfl | hl
        · exact e4
        · exact e4.trans (i5 l hl)
    · obtain ⟨e1, e2, e3⟩ := h5 hp
      rw [e1, Option.toList_none, List.nil_append]
      rw [e2] at i3
      rw [e3] at i5
      exact ⟨ps, i1, i2, i3, i4, i5⟩

/-- **C66** In every run of updates, whatever the reported progress (also decreasing, negative or beyond the total), every written line
shows a bar whose filled part is between 0 and the length of the bar and never shorter than in an earlier line; and every line is at
least as long as all earlier ones, so it overwrites them completely. -/
theorem C66_monotone (total : Rat) (length : Int) (info : Str) (cs : List Call) :
    ∃ ps : List Int, List.Forall₂ (fun line p => ShowsFill (create total length info).extra length p line)
        (run (create total length info) cs).2 ps ∧
      ps.Pairwise (· ≤ ·) ∧ (∀ p ∈ ps, 0 ≤ p ∧ p ≤ length) ∧
      (run (create total length info) cs).2.Pairwise (fun l l' => l.length ≤ l'.length) := by
  by_cases h : 1 / 1000000000 < total
  · obtain ⟨ps, h1, h2, h3, h4, -⟩ := run_spec cs (create total length info) h
    exact ⟨ps, h1, h2, h3, h4⟩
  · refine ⟨[], ?_⟩
    have : ∀ cs b, b.total = total → (run b cs).2 = [] ∧ True := by
      intro cs
      induction cs with
      | nil => intro b _; exact ⟨rfl, trivial⟩
      | cons c cs ih =>
        intro b hb
        have e : update b c.t0 c.t1 c.raw c.dynamic = (b, none) := by
          unfold update
          rw [if_pos (by rw [hb]; exact not_lt.1 h)]
        unfold run
        simp only [e, Option.toList_none, List.nil_append]
        exact ⟨(ih b hb).1, trivial⟩
    rw [(this cs _ rfl).1]
    simp

/-- `p` is the right fill for progress `raw` out of `total`: the whole part of the exact proportion, at most the whole bar. -/
def RightFill (total raw : Rat) (length p : Int) : Prop :=
  (p = length ∧ (length : Rat) ≤ raw / total * (length : Rat)) ∨ (p < length ∧ (p : Rat) ≤ raw / total * (length : Rat) ∧ raw / total * (length : Rat) < p + 1)

theorem fillOf_right (b : Bar) (raw : Rat) (h : 1 / 1000000000 < b.total) (hl : 0 ≤ b.length) (hr : 0 ≤ raw) :
    RightFill b.total raw b.length (fillOf b raw) ∧ fillOf b raw = min ⌊raw / b.total * (b.length : Rat)⌋ b.length := by
  have ht : 0 < b.total := by linarith
  have hx : 0 ≤ raw / b.total * (b.length : Rat) := mul_nonneg (div_nonneg hr ht.le) (by exact_mod_cast hl)
  have e : fillOf b raw = min ⌊raw / b.total * (b.length : Rat)⌋ b.length := by
    unfold fillOf trunc
    rw [if_pos hx]
  refine ⟨?_, e⟩
  rw [e]
  rcases lt_or_ge (raw / b.total * (b.length : Rat)) (b.length : Rat) with hlt | hge
  · have : ⌊raw / b.total * (b.length : Rat)⌋ < b.length := Int.floor_lt.2 hlt
    rw [min_eq_left this.le]
    exact .inr ⟨this, Int.floor_le _, Int.lt_floor_add_one _⟩
  · have : b.length ≤ ⌊raw / b.total * (b.length : Rat)⌋ := Int.le_floor.2 hge
    rw [min_eq_right this]
    exact .inl ⟨rfl, hge⟩

/-- **C66** While the reported progress does not decrease, every call writes a line, and its bar is filled in the right proportion. -/
theorem C66_progress (total : Rat) (length : Int) (info : Str) (cs : List Call) (ht : 1 / 1000000000 < total) (hl : 0 ≤ length)
    (h0 : ∀ c ∈ cs, 0 ≤ c.raw) (hm : cs.Pairwise fun c c' => c.raw ≤ c'.raw) :
    List.Forall₂ (fun line c => ∃ p, RightFill total c.raw length p ∧ ShowsFill (create total length info).extra length p line)
      (run (create total length info) cs).2 cs := by
  have key : ∀ (cs : List Call) (b : Bar), b.total = total → b.length = length → b.extra = (create total length info).extra →
      (∀ c ∈ cs, 0 ≤ c.raw ∧ b.last ≤ fillOf b c.raw) → cs.Pairwise (fun c c' => c.raw ≤ c'.raw) →
      List.Forall₂ (fun line c => ∃ p, RightFill total c.raw length p ∧ ShowsFill (create total length info).extra length p line)
        (run b cs).2 cs := by
    intro cs
    induction cs with
    | nil => intro b _ _ _ _ _; exact List.Forall₂.nil
    | cons c cs ih =>
      intro b hb hbl hbe hlast hp
      obtain ⟨h1, h2, h3, h4, -⟩ := update_spec b c.t0 c.t1 c.raw c.dynamic (by rw [hb]; exact ht)
      obtain ⟨line, e1, e2, e3, -⟩ := h4 (hlast c List.mem_cons_self).2
      unfold run
      simp only [e1]
      refine List.Forall₂.cons ⟨fillOf b c.raw, ?_, ?_⟩ (ih _ (h1.trans hb) (h2.trans hbl) (h3.trans hbe) (fun c' hc' => ?_)
        (List.pairwise_cons.1 hp).2)
      · have := (fillOf_right b c.raw (by rw [hb]; exact ht) (by rw [hbl]; exact hl) (hlast c List.mem_cons_self).1).1
        rw [hb, hbl] at this
        exact this
      · rw [hbl, hbe] at e2; exact e2
      · have hc0 := (hlast c' (List.mem_cons_of_mem _ hc')).1
        refine ⟨hc0, ?_⟩
        rw [e3]
        have e : fillOf (update b c.t0 c.t1 c.raw c.dynamic).1 c'.raw = fillOf b c'.raw := by unfold fillOf; rw [h1, h2]
        rw [e, (fillOf_right b c.raw (by rw [hb]; exact ht) (by rw [hbl]; exact hl) (hlast c List.mem_cons_self).1).2,
          (fillOf_right b c'.raw (by rw [hb]; exact ht) (by rw [hbl]; exact hl) hc0).2]
        refine min_le_min_right _ (Int.floor_le_floor ?_)
        have hle := (List.pairwise_cons.1 hp).1 c' hc'
        have : (0 : Rat) < b.total := by rw [hb]; linarith
        exact mul_le_mul_of_nonneg_right (div_le_div_of_nonneg_right hle this.le) (by rw [hbl]; exact_mod_cast hl)
  refine key cs _ rfl rfl rfl (fun c hc => ⟨h0 c hc, ?_⟩) hm
  rw [(fillOf_right _ c.raw ht hl (h0 c hc)).2]
  refine le_min (Int.floor_nonneg.2 (mul_nonneg (div_nonneg (h0 c hc) ?_) ?_)) hl
  · have : (0 : Rat) < total := by linarith
    exact this.le
  · show (0 : Rat) ≤ ((length : Int) : Rat)
    exact_mod_cast hl

/-- **C66, not across a reset.** Starting a new run clears the line as if nothing longer had been written: the number of characters it
overwrites does not depend on what was written before. After any update with a long enough text, part of that text stays on screen. -/
theorem C66_reset_refuted (b : Bar) (t0 t1 t2 t3 raw total : Rat) (length : Int) (info : Str) (ht : 1 / 1000000000 < b.total)
    (ht' : 1 / 1000000000 < total) (hraw : b.last ≤ fillOf b raw) :
    ∃ k, ∀ dyn : Str, k ≤ dyn.length → ∃ line text, (update b t0 t1 raw dyn).2 = some line ∧
      (reset (update b t0 t1 raw dyn).1 t2 t3 total length info).2 = some text ∧ text.length < line.length := by
  have hr : ∀ b' : Bar, b'.extra = b.extra → (reset b' t2 t3 total length info).2 = (reset b t2 t3 total length info).2 := by
    intro b' e
    unfold reset finish
    simp only [e]
  have hs : ∃ text, (reset b t2 t3 total length info).2 = some text := by
    unfold reset finish
    simp only
    rw [if_neg (not_le.2 ht')]
    exact ⟨_, rfl⟩
  obtain ⟨text, hs⟩ := hs
  refine ⟨text.length, fun dyn hd => ?_⟩
  obtain ⟨-, -, he, -, -⟩ := update_spec b t0 t1 raw dyn ht
  have : ∃ line, (update b t0 t1 raw dyn).2 = some line ∧ dyn.length < line.length := by
    unfold update
    rw [if_neg (not_le.2 ht)]
    simp only
    rw [if_pos (show b.last ≤ min (trunc (raw / b.total * (b.length : Rat))) b.length from hraw)]
    refine ⟨_, rfl, ?_⟩
    obtain ⟨k, h1, -, -⟩ := pad_spec b.longest (['\r'] ++ b.extra ++ dyn ++ (if dyn.isEmpty then [] else [' ']) ++ ['['] ++
      rep '#' (min (trunc (raw / b.total * (b.length : Rat))) b.length) ++
      rep ' ' (b.length - min (trunc (raw / b.total * (b.length : Rat))) b.length)
        ++ "] (".toList ++ secs ((if 1 / 1000000000 < raw / b.total then (t1 - (if b.first then t0 else b.starttime.getD t0)) / (raw / b.total) else 0) -
          (t1 - (if b.first then t0 else b.starttime.getD t0))) ++ "s)".toList)
    rw [h1]
    simp only [List.length_append, List.length_cons]
    omega
  obtain ⟨line, h1, h2⟩ := this
  exact ⟨line, text, h1, (hr _ he).trans hs, by omega⟩

/-- **C66** Asking for a progress bar gives one that is as new, whatever the earlier one was used for. -/
theorem C66_factory (inst : Option Bar) (t0 t1 total : Rat) (length : Int) (info : Str) :
    (factory inst t0 t1 total length info).1 = create total length info := by
  cases inst with
  | none => rfl
  | some b =>
    unfold factory reset finish
    simp only
    split <;> rfl

/-- The bar is timed since `st` if updates were made, and not yet if not. -/
def TimedSince (b : Bar) (st : Rat) : Prop := b.first = false ∧ b.starttime = some st

theorem update_timed (b : Bar) (t0 t1 raw : Rat) (dyn : Str) (h : 1 / 1000000000 < b.total) :
    (b.first = true → TimedSince (update b t0 t1 raw dyn).1 t0) ∧ (∀ st, TimedSince b st → TimedSince (update b t0 t1 raw dyn).1 st) := by
  unfold update
  rw [if_neg (not_le.2 h)]
  simp only
  refine ⟨fun hf => ?_, fun st hs => ?_⟩
  · split <;> exact ⟨rfl, by simp [hf]⟩
  · split <;> exact ⟨rfl, by simp [hs.1, hs.2]⟩

/-- **C66** The time shown in an update is the time that the rest takes at the speed so far: the time since the first update, times what is left over what is done. -/
theorem C66_remaining (b : Bar) (st t0 t1 raw : Rat) (dyn : Str) (h : 1 / 1000000000 < b.total) (hs : TimedSince b st)
    (hr : 1 / 1000000000 < raw / b.total) (line : Str) (hl : (update b t0 t1 raw dyn).2 = some line) :
    ∃ before n, line = before ++ "] (".toList ++ secs ((t1 - st) * ((b.total - raw) / raw)) ++ "s)".toList ++ List.replicate n ' ' := by
  have e : (if 1 / 1000000000 < raw / b.total then (t1 - st) / (raw / b.total) else 0) - (t1 - st) = (t1 - st) * ((b.total - raw) / raw) := by
    rw [if_pos hr]
    have h0 : b.total ≠ 0 := by intro h0; rw [h0] at h; norm_num at h
    have h1 : raw ≠ 0 := by intro h1; rw [h1, zero_div] at hr; norm_num at hr
    field_simp
  unfold update at hl
  rw [if_neg (not_le.2 h)] at hl
  simp only [hs.1, hs.2, Bool.false_eq_true, if_false, Option.getD_some, e] at hl
  split at hl
  · cases hl
    obtain ⟨k, h1, -, -⟩ := pad_spec b.longest (['\r'] ++ b.extra ++ dyn ++ (if dyn.isEmpty then [] else [' ']) ++ ['['] ++
      rep '#' (min (trunc (raw / b.total * (b.length : Rat))) b.length) ++ rep ' ' (b.length - min (trunc (raw / b.total * (b.length : Rat))) b.length)
        ++ "] (".toList ++ secs ((t1 - st) * ((b.total - raw) / raw)) ++ "s)".toList)
    exact ⟨_, k, h1⟩
  · cases hl

/-- **C66** At the end the bar is full, with the time since the first update, and covers every line before. -/
theorem C66_end (total : Rat) (length : Int) (info : Str) (c : Call) (cs : List Call) (h : 1 / 1000000000 < total) (t0 t1 : Rat) (final : Str) :
    ∃ line n, (finish (run (create total length info) (c :: cs)).1 t0 t1 final false false).2 = some line ∧
      line = ['\r'] ++ (create total length info).extra ++ final ++ (if final.isEmpty then [] else [' ']) ++ ['['] ++ List.replicate length.toNat '#' ++
        "] (".toList ++ secs (t1 - c.t0) ++ "s)".toList ++ List.replicate n ' ' ∧
      ∀ l ∈ (run (create total length info) (c :: cs)).2, l.length ≤ line.length := by
  have key : ∀ (cs : List Call) (b : Bar) (st : Rat), 1 / 1000000000 < b.total → TimedSince b st →
      TimedSince (run b cs).1 st ∧ (run b cs).1.total = b.total ∧ (run b cs).1.length = b.length ∧ (run b cs).1.extra = b.extra ∧
      b.longest ≤ (run b cs).1.longest ∧ ∀ l ∈ (run b cs).2, l.length ≤ (run b cs).1.longest := by
    intro cs
    induction cs with
    | nil => intro b st _ hs; exact ⟨hs, rfl, rfl, rfl, le_refl _, by simp [run]⟩
    | cons c cs ih =>
      intro b st hb hs
      obtain ⟨u1, u2, u3, u4, u5⟩ := update_spec b c.t0 c.t1 c.raw c.dynamic hb
      obtain ⟨i1, i2, i3, i4, i5, i6⟩ := ih (update b c.t0 c.t1 c.raw c.dynamic).1 st (by rw [u1]; exact hb)
        ((update_timed b c.t0 c.t1 c.raw c.dynamic hb).2 st hs)
      have hw : b.longest ≤ (update b c.t0 c.t1 c.raw c.dynamic).1.longest ∧
          ∀ l, (update b c.t0 c.t1 c.raw c.dynamic).2 = some l → l.length ≤ (update b c.t0 c.t1 c.raw c.dynamic).1.longest := by
        by_cases hp : b.last ≤ fillOf b c.raw
        · obtain ⟨line, e, -, -, e1, e2⟩ := u4 hp
          rw [e, e2]
          exact ⟨e1, fun l hl => by cases hl; exact le_refl _⟩
        · obtain ⟨e, -, e2⟩ := u5 hp
          rw [e, e2]
          exact ⟨le_refl _, fun l hl => by cases hl⟩
      refine ⟨i1, i2.trans u1, i3.trans u2, i4.trans u3, le_trans hw.1 i5, fun l hl => ?_⟩
      simp only [run, List.mem_append, Option.mem_toList] at hl
      rcases hl with hl | hl
      · exact le_trans (hw.2 l hl) i5
      · exact i6 l hl
  have hcr : ∀ b : Bar, 1 / 1000000000 < b.total → b.first = true →
      TimedSince (run b (c :: cs)).1 c.t0 ∧ (run b (c :: cs)).1.total = b.total ∧ (run b (c :: cs)).1.length = b.length ∧ (run b (c :: cs)).1.extra = b.extra ∧
      ∀ l ∈ (run b (c :: cs)).2, l.length ≤ (run b (c :: cs)).1.longest := by
    intro b hb hf
    obtain ⟨u1, u2, u3, u4, u5⟩ := update_spec b c.t0 c.t1 c.raw c.dynamic hb
    obtain ⟨i1, i2, i3, i4, i5, i6⟩ := key cs (update b c.t0 c.t1 c.raw c.dynamic).1 c.t0 (by rw [u1]; exact hb)
      ((update_timed b c.t0 c.t1 c.raw c.dynamic hb).1 hf)
    refine ⟨i1, i2.trans u1, i3.trans u2, i4.trans u3, fun l hl => ?_⟩
    simp only [run, List.mem_append, Option.mem_toList] at hl
    rcases hl with hl | hl
    · by_cases hp : b.last ≤ fillOf b c.raw
      · obtain ⟨line, e, -, -, e1, e2⟩ := u4 hp
        rw [e] at hl
        cases hl
        exact le_trans (le_of_eq e2.symm) i5
      · rw [(u5 hp).1] at hl; cases hl
    · exact i6 l hl
  obtain ⟨h1, h2, h3, h4, h5⟩ := hcr (create total length info) h rfl
  generalize run (create total length info) (c :: cs) = r at h1 h2 h3 h4 h5
  unfold finish
  rw [if_neg (not_le.2 (by rw [h2]; exact h))]
  simp only [h1.2, h3, h4, Option.getD_some]
  obtain ⟨k, p1, p2, p3⟩ := pad_spec r.1.longest (['\r'] ++ (create total length info).extra ++ final ++ (if final.isEmpty then [] else [' ']) ++ ['['] ++
    rep '#' (create total length info).length ++ "] (".toList ++ secs (t1 - c.t0) ++ "s)".toList)
  refine ⟨_, k, rfl, ?_, fun l hl => ?_⟩
  · simp only [Bool.false_eq_true, if_false, List.append_nil]
    exact p1
  · simp only [Bool.false_eq_true, if_false, List.append_nil]
    exact le_trans (h5 l hl) (p2 ▸ p3)

/-- An example run: three calls, the progress of the last is lower than that of the second. -/
example : (run (create 4 8 "Epoch".toList) [⟨0, 0, 1, []⟩, ⟨1, 1, 3, "loss 1".toList⟩, ⟨2, 2, 2, []⟩]).2.length = 2 := by
  decide +kernel

-- half done after 10 seconds: 10 seconds are left; the last line
example : (update (update (create 4 8 "Epoch".toList) 5 5 0 []).1 99 15 2 []).2 = some "\rEpoch | [####    ] (10s)".toList ∧
    (finish (run (create 4 8 "Epoch".toList) [⟨5, 5, 0, []⟩, ⟨9, 15, 2, "loss 1".toList⟩]).1 0 25 [] false false).2 =
      some "\rEpoch | [########] (20s)       ".toList := by decide +kernel

end Verif.Props
