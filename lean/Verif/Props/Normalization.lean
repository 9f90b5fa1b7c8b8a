import Verif.Model.Normalization
import Verif.Props.Conformal

/-!
# C79: the normalisation of the sensitivities
-/

namespace Verif.Props
open Verif.Tree Verif.NdSpec Verif.Conformal Verif.Quantile Verif.Norm NArr

/-! ### Quantiles lie between the smallest and the largest number -/

theorem quant_between {l : List ℝ} (hne : l ≠ []) (q : ℝ) :
    ∃ v, quant l q = some v ∧ (∀ c, (∀ x ∈ l, c ≤ x) → c ≤ v) ∧ ∀ c, (∀ x ∈ l, x ≤ c) → v ≤ c := by
  refine ⟨_, quant_eq hne q, fun c hc => ?_, fun c hc => ?_⟩
  · exact (hc _ (seq_mem hne _)).trans (interp_ge (seq_mono l) _)
  · exact (interp_le (seq_mono l) _).trans (hc _ (seq_mem hne _))

theorem foldl_max_bound (l : List ℝ) : ∀ a : ℝ, (l.foldl max a = a ∨ l.foldl max a ∈ l) ∧ a ≤ l.foldl max a ∧ ∀ x ∈ l, x ≤ l.foldl max a := by
  induction l with
  | nil => intro a; simp
  | cons y l ih =>
    intro a
    obtain ⟨h1, h2, h3⟩ := ih (max a y)
    rw [List.foldl_cons]
    refine ⟨?_, (le_max_left a y).trans h2, fun x hx => ?_⟩
    · rcases h1 with h1 | h1
      · rcases max_choice a y with h | h
        · exact .inl (h1.trans h)
        · exact .inr (by rw [h1, h]; simp)
      · exact .inr (List.mem_cons_of_mem _ h1)
    · rcases List.mem_cons.1 hx with rfl | hx
      · exact (le_max_right a x).trans h2
      · exact h3 x hx

theorem foldl_min_bound (l : List ℝ) : ∀ a : ℝ, (l.foldl min a = a ∨ l.foldl min a ∈ l) ∧ l.foldl min a ≤ a ∧ ∀ x ∈ l, l.foldl min a ≤ x := by
  induction l with
  | nil => intro a; simp
  | cons y l ih =>
    intro a
    obtain ⟨h1, h2, h3⟩ := ih (min a y)
    rw [List.foldl_cons]
    refine ⟨?_, h2.trans (min_le_left a y), fun x hx => ?_⟩
    · rcases h1 with h1 | h1
      · rcases min_choice a y with h | h
        · exact .inl (h1.trans h)
        · exact .inr (by rw [h1, h]; simp)
      · exact .inr (List.mem_cons_of_mem _ h1)
    · rcases List.mem_cons.1 hx with rfl | hx
      · exact h2.trans (min_le_right a x)
      · exact h3 x hx

theorem ptp_spec {l : List ℝ} (hne : l ≠ []) : ∃ v lo hi, ptp l = some v ∧ v = hi - lo ∧ lo ∈ l ∧ hi ∈ l ∧ ∀ x ∈ l, lo ≤ x ∧ x ≤ hi := by
  cases l with
  | nil => exact absurd rfl hne
  | cons x xs =>
    obtain ⟨a1, a2, a3⟩ := foldl_max_bound xs x
    obtain ⟨b1, b2, b3⟩ := foldl_min_bound xs x
    refine ⟨_, _, _, rfl, rfl, ?_, ?_, fun y hy => ?_⟩
    · rcases b1 with h | h
      · rw [h]; simp
      · exact List.mem_cons_of_mem _ h
    · rcases a1 with h | h
      · rw [h]; simp
      · exact List.mem_cons_of_mem _ h
    · rcases List.mem_cons.1 hy with rfl | hy
      · exact ⟨b2, a2⟩
      · exact ⟨b3 y hy, a3 y hy⟩

theorem spread_le {l : List ℝ} (hne : l ≠ []) (a b : ℝ) : ∃ v w, spread a b l = some v ∧ ptp l = some w ∧ v ≤ w := by
  obtain ⟨w, lo, hi, hw, rfl, -, -, hb⟩ := ptp_spec hne
  obtain ⟨x, hx, hx1, -⟩ := quant_between hne a
  obtain ⟨y, hy, -, hy2⟩ := quant_between hne b
  refine ⟨y - x, _, by simp [spread, hx, hy], hw, ?_⟩
  linarith [hx1 lo fun z hz => (hb z hz).1, hy2 hi fun z hz => (hb z hz).2]

theorem mad_le {l : List ℝ} (hne : l ≠ []) : ∃ v w, mad l = some v ∧ ptp l = some w ∧ v ≤ w := by
  obtain ⟨w, lo, hi, hw, rfl, -, -, hb⟩ := ptp_spec hne
  obtain ⟨m, hm, hm1, hm2⟩ := quant_between hne (1 / 2)
  obtain ⟨v, hv, -, hv2⟩ := quant_between (l := l.map fun x => |x - m|) (by simpa using hne) (1 / 2)
  refine ⟨v, _, by unfold mad median; rw [hm]; exact hv, hw, hv2 _ fun x hx => ?_⟩
  obtain ⟨y, hy, rfl⟩ := List.mem_map.1 hx
  have := hm1 lo fun z hz => (hb z hz).1
  have := hm2 hi fun z hz => (hb z hz).2
  have := hb y hy
  rw [abs_le]
  constructor <;> linarith

/-! ### The fallbacks -/

/-- The numbers of one component, over the samples. -/
def component (x : NArr ℝ) (n : Nat) (i : List Nat) : List ℝ := (List.range n).map fun k => x.val (k :: i)

theorem column_component {x : NArr ℝ} {n : Nat} {s : List Nat} (hx : x.shape = n :: s) (i : List Nat) : column x i = component x n i := by
  unfold column component
  rw [hx]
  rfl

theorem anySmall_iff {eps : ℝ} {x : NArr (Option ℝ)} : anySmall eps x = true ↔ ∃ i v, InB x.shape i ∧ x.val i = some v ∧ v < eps := by
  unfold anySmall
  rw [List.any_eq_true]
  constructor
  · rintro ⟨o, ho, h⟩
    obtain ⟨i, hi, rfl⟩ := List.mem_map.1 ho
    cases hv : x.val i with
    | none => rw [hv] at h; simp at h
    | some v => rw [hv] at h; exact ⟨i, v, mem_indices.1 hi, hv, by simpa using h⟩
  · rintro ⟨i, v, hi, hv, h⟩
    exact ⟨x.val i, List.mem_map.2 ⟨i, mem_indices.2 hi, rfl⟩, by rw [hv]; simpa using h⟩

/-- What the fallbacks return: one of the four statistics if it is large enough everywhere, otherwise infinity. -/
theorem chain_cases (eps : ℝ) (a b c d : NArr (Option ℝ)) :
    (∃ n, (n = a ∨ n = b ∨ n = c ∨ n = d) ∧ anySmall eps n = false ∧ chain eps a b c d = ⟨n.shape, fun i => .ofOption (n.val i)⟩) ∨
      ∃ n, (n = a ∨ n = b ∨ n = c ∨ n = d) ∧ anySmall eps d = true ∧ chain eps a b c d = ⟨n.shape, fun _ => .inf⟩ := by
  unfold chain
  simp only
  by_cases ha : anySmall eps a = true
  · rw [if_pos ha]
    by_cases hb : anySmall eps b = true
    · rw [if_pos hb]
      by_cases hc : anySmall eps c = true
      · rw [if_pos hc]
        by_cases hd : anySmall eps d = true
        · rw [if_pos hd]; exact .inr ⟨d, by simp, hd, rfl⟩
        · rw [if_neg hd]; exact .inl ⟨d, by simp, by simpa using hd, rfl⟩
      · rw [if_neg hc, if_neg hc]; exact .inl ⟨c, by simp, by simpa using hc, rfl⟩
    · rw [if_neg hb, if_neg hb, if_neg hb]; exact .inl ⟨b, by simp, by simpa using hb, rfl⟩
  · rw [if_neg ha, if_neg ha, if_neg ha, if_neg ha]; exact .inl ⟨a, by simp, by simpa using ha, rfl⟩

theorem component_ne {x : NArr ℝ} {n : Nat} (hn : 0 < n) (i : List Nat) : component x n i ≠ [] := by
  unfold component
  intro e
  have := congrArg List.length e
  simp at this
  omega

/-- One of the four statistics. -/
def IsStat (f : List ℝ → Option ℝ) : Prop := ∀ l, l ≠ [] → ∃ v w, f l = some v ∧ ptp l = some w ∧ v ≤ w

theorem isStat_mad : IsStat mad := fun _ h => mad_le h
theorem isStat_spread (a b : ℝ) : IsStat (spread a b) := fun _ h => spread_le h a b
theorem isStat_ptp : IsStat ptp := fun _ h => by obtain ⟨v, _, _, hv, _⟩ := ptp_spec h; exact ⟨v, v, hv, hv, le_refl _⟩

/-- The result is finite and at least `eps` everywhere, or infinite everywhere. -/
theorem robust_cases (eps : ℝ) (x : NArr ℝ) {n : Nat} {s : List Nat} (hx : x.shape = n :: s) (hn : 0 < n) :
    (∃ f, IsStat f ∧ anySmall eps (along f x) = false ∧ robust eps x = ⟨s, fun i => .ofOption (f (component x n i))⟩) ∨
      anySmall eps (along ptp x) = true ∧ robust eps x = ⟨s, fun _ => .inf⟩ := by
  have hs : ∀ f, (along f x).shape = s := fun f => by simp [along, hx]
  have hv : ∀ f, (fun i => Ext.ofOption ((along f x).val i)) = fun i => Ext.ofOption (f (component x n i)) := fun f => by
    funext i; simp [along, column_component hx]
  rcases chain_cases eps (along mad x) (along (spread (1 / 4) (3 / 4)) x) (along (spread (1 / 20) (19 / 20)) x) (along ptp x) with ⟨m, hm, h1, h2⟩ | ⟨m, hm, h1, h2⟩
  · left
    rcases hm with rfl | rfl | rfl | rfl
    · exact ⟨mad, isStat_mad, h1, h2.trans (by rw [hs, hv])⟩
    · exact ⟨_, isStat_spread _ _, h1, h2.trans (by rw [hs, hv])⟩
    · exact ⟨_, isStat_spread _ _, h1, h2.trans (by rw [hs, hv])⟩
    · exact ⟨_, isStat_ptp, h1, h2.trans (by rw [hs, hv])⟩
  · right
    refine ⟨h1, h2.trans ?_⟩
    rcases hm with rfl | rfl | rfl | rfl <;> rw [hs]

/-- **C79 (floor).** For at least one calibration sample the normalisation has the shape of one sample and is either finite and at least `eps` in every component, or
infinite in every component: dividing by it never divides by zero and never gives NaN. -/
theorem C79_floor (eps : ℝ) (x : NArr ℝ) (n : Nat) (s : List Nat) (hx : x.shape = n :: s) (hn : 0 < n) :
    (robust eps x).shape = s ∧
      ((∀ i, InB s i → ∃ v, (robust eps x).val i = .fin v ∧ eps ≤ v) ∨ ∀ i, InB s i → (robust eps x).val i = .inf) := by
  rcases robust_cases eps x hx hn with ⟨f, hf, h1, h2⟩ | ⟨-, h2⟩
  · rw [h2]
    refine ⟨rfl, .inl fun i hi => ?_⟩
    obtain ⟨v, w, hv, -, -⟩ := hf _ (component_ne (x := x) hn i)
    refine ⟨v, by simp [hv, Ext.ofOption], ?_⟩
    by_contra hlt
    have : anySmall eps (along f x) = true := anySmall_iff.2 ⟨i, v, by simpa [along, hx] using hi, by simp [along, column_component hx, hv], not_le.1 hlt⟩
    rw [h1] at this
    cases this
  · rw [h2]
    exact ⟨rfl, .inr fun _ _ => rfl⟩

/-- Three samples of two components, the first component spread out. -/
def demoSpread : NArr ℝ := ⟨[3, 2], fun i => if i = [0, 0] then 0 else if i = [1, 0] then 1 else if i = [2, 0] then 2 else if i = [1, 1] then 4 else 7⟩

example : demoSpread.shape = 3 :: [2] ∧ 0 < 3 := ⟨rfl, by norm_num⟩

/-- **C79 (infinity).** The normalisation is infinite exactly if the numbers of some component differ by less than `eps` over the whole calibration set. -/
theorem C79_inf (eps : ℝ) (x : NArr ℝ) (n : Nat) (s : List Nat) (hx : x.shape = n :: s) (hn : 0 < n) :
    (∃ i, InB s i ∧ (robust eps x).val i = .inf) ↔ ∃ i, InB s i ∧ ∀ k l, k < n → l < n → x.val (k :: i) - x.val (l :: i) < eps := by
  have mem : ∀ i k, k < n → x.val (k :: i) ∈ component x n i := fun i k hk => List.mem_map.2 ⟨k, List.mem_range.2 hk, rfl⟩
  have key : anySmall eps (along ptp x) = true ↔ ∃ i, InB s i ∧ ∀ k l, k < n → l < n → x.val (k :: i) - x.val (l :: i) < eps := by
    rw [anySmall_iff]
    constructor
    · rintro ⟨i, v, hi, hv, hlt⟩
      have hi : InB s i := by simpa [along, hx] using hi
      obtain ⟨w, lo, hi', hw, rfl, -, -, hb⟩ := ptp_spec (component_ne (x := x) hn i)
      have : v = hi' - lo := by
        have : ptp (component x n i) = some v := by simpa [along, column_component hx] using hv
        exact Option.some.inj (this.symm.trans hw)
      refine ⟨i, hi, fun k l hk hl => ?_⟩
      linarith [(hb _ (mem i k hk)).2, (hb _ (mem i l hl)).1]
    · rintro ⟨i, hi, h⟩
      obtain ⟨w, lo, hi', hw, rfl, h1, h2, -⟩ := ptp_spec (component_ne (x := x) hn i)
      obtain ⟨k, hk, rfl⟩ := List.mem_map.1 h1
      obtain ⟨l, hl, rfl⟩ := List.mem_map.1 h2
      exact ⟨i, _, by simpa [along, hx] using hi, by simpa [along, column_component hx] using hw, h l k (List.mem_range.1 hl) (List.mem_range.1 hk)⟩
  rw [← key]
  rcases robust_cases eps x hx hn with ⟨f, hf, h1, h2⟩ | ⟨h1, h2⟩
  · constructor
    · rintro ⟨i, hi, h⟩
      obtain ⟨v, w, hv, -, -⟩ := hf _ (component_ne (x := x) hn i)
      rw [h2] at h
      simp [hv, Ext.ofOption] at h
    · intro h
      obtain ⟨i, w, hi, hw, hlt⟩ := anySmall_iff.1 h
      obtain ⟨v, w', hv, hw', hle⟩ := hf _ (component_ne (x := x) hn i)
      have : w' = w := Option.some.inj (hw'.symm.trans (by simpa [along, column_component hx] using hw))
      have : anySmall eps (along f x) = true :=
        anySmall_iff.2 ⟨i, v, by simpa [along, hx] using hi, by simp [along, column_component hx, hv], by linarith⟩
      rw [h1] at this
      cases this
  · refine ⟨fun _ => h1, fun _ => ?_⟩
    obtain ⟨i, w, hi, -⟩ := anySmall_iff.1 h1
    exact ⟨i, by simpa [along, hx] using hi, by rw [h2]⟩

/-- **C79 (MAD).** If in every component the median absolute deviation is at least `eps`, the normalisation is that median absolute deviation. -/
theorem C79_mad (eps : ℝ) (x : NArr ℝ) (n : Nat) (s : List Nat) (hx : x.shape = n :: s) (m v : List Nat → ℝ)
    (hm : ∀ i, InB s i → quant ((List.range n).map fun k => x.val (k :: i)) (1 / 2) = some (m i))
    (hv : ∀ i, InB s i → quant ((List.range n).map fun k => |x.val (k :: i) - m i|) (1 / 2) = some (v i)) (h : ∀ i, InB s i → eps ≤ v i) (i : List Nat) (hi : InB s i) :
    (robust eps x).val i = .fin (v i) := by
  have hmad : ∀ i, InB s i → mad (column x i) = some (v i) := fun i hi => by
    rw [column_component hx]
    unfold mad median component
    rw [hm i hi, Option.bind_some, List.map_map]
    exact hv i hi
  have hno : anySmall eps (along mad x) ≠ true := fun e => by
    obtain ⟨j, w, hj, hw, hlt⟩ := anySmall_iff.1 e
    have hj : InB s j := by simpa [along, hx] using hj
    have : v j = w := Option.some.inj ((hmad j hj).symm.trans hw)
    linarith [h j hj]
  unfold robust chain
  simp only
  rw [if_neg hno, if_neg hno, if_neg hno, if_neg hno]
  simp [along, hmad i hi, Ext.ofOption]

/-- **C79 (the order of the statistics).** The normalisation is, in every component, the first of these statistics that is at least
`eps` in all components: the median absolute deviation, the distance of the quartiles, the distance of the 5 % and 95 % quantiles,
the range; if none is, it is infinite. -/
theorem C79_first (eps : ℝ) (x : NArr ℝ) (n : Nat) (s : List Nat) (hx : x.shape = n :: s) (hn : 0 < n) :
    let stats : List (List ℝ → Option ℝ) :=
      [fun l => (quant l (1 / 2)).bind fun m => quant (l.map fun x => |x - m|) (1 / 2),
        fun l => (quant l (1 / 4)).bind fun a => (quant l (3 / 4)).map fun b => b - a,
        fun l => (quant l (1 / 20)).bind fun a => (quant l (19 / 20)).map fun b => b - a,
        fun l => (l.max?).bind fun b => (l.min?).map fun a => b - a]
    let col : List Nat → List ℝ := fun i => (List.range n).map fun k => x.val (k :: i)
    let big : (List ℝ → Option ℝ) → Prop := fun f => ∀ i, InB s i → ∃ v, f (col i) = some v ∧ eps ≤ v
    (∃ pre f post, stats = pre ++ f :: post ∧ (∀ g ∈ pre, ¬big g) ∧ big f ∧
      ∀ i, InB s i → ∃ v, f (col i) = some v ∧ (robust eps x).val i = .fin v) ∨
    ((∀ f ∈ stats, ¬big f) ∧ ∀ i, InB s i → (robust eps x).val i = .inf) := by
  intro stats col big
  have hmm : ∀ (l : List ℝ) (a : ℝ), (a :: l).max? = some (l.foldl max a) ∧ (a :: l).min? = some (l.foldl min a) :=
    fun l a => ⟨rfl, rfl⟩
  have hptp : (fun l : List ℝ => (l.max?).bind fun b => (l.min?).map fun a => b - a) = ptp := by
    funext l
    cases l with
    | nil => rfl
    | cons a l => rw [(hmm l a).1, (hmm l a).2]; rfl
  have hst : stats = [mad, spread (1 / 4) (3 / 4), spread (1 / 20) (19 / 20), ptp] := by
    show [_, _, _, _] = _
    rw [hptp]
    rfl
  have hcol : ∀ f i, (along f x).val i = f (col i) := fun f i => by
    show f (column x i) = _
    rw [column_component hx]
    rfl
  have hsh : ∀ f, (along f x).shape = s := fun f => by simp [along, hx]
  have hbig : ∀ f, IsStat f → (anySmall eps (along f x) = true ↔ ¬big f) := by
    intro f hf
    rw [anySmall_iff]
    constructor
    · rintro ⟨i, v, hi, hv, hlt⟩ hb
      rw [hsh] at hi
      rw [hcol] at hv
      obtain ⟨w, hw, hge⟩ := hb i hi
      rw [hv] at hw
      cases hw
      linarith
    · intro hb
      by_contra hno
      refine hb fun i hi => ?_
      obtain ⟨v, -, hv, -, -⟩ := hf (col i) (component_ne (x := x) hn i)
      refine ⟨v, hv, ?_⟩
      by_contra hlt
      exact hno ⟨i, v, by rw [hsh]; exact hi, by rw [hcol, hv], not_le.1 hlt⟩
  have hval : ∀ f, IsStat f → ∀ i, ∃ v, f (col i) = some v ∧ Ext.ofOption ((along f x).val i) = .fin v := by
    intro f hf i
    obtain ⟨v, -, hv, -, -⟩ := hf (col i) (component_ne (x := x) hn i)
    exact ⟨v, hv, by rw [hcol, hv]; rfl⟩
  rw [hst]
  unfold robust chain
  simp only
  have h1 := hbig _ isStat_mad
  have h2 := hbig _ (isStat_spread (1 / 4) (3 / 4))
  have h3 := hbig _ (isStat_spread (1 / 20) (19 / 20))
  have h4 := hbig _ isStat_ptp
  by_cases ha : anySmall eps (along mad x) = true
  · rw [if_pos ha]
    by_cases hb : anySmall eps (along (spread (1 / 4) (3 / 4)) x) = true
    · rw [if_pos hb]
      by_cases hc : anySmall eps (along (spread (1 / 20) (19 / 20)) x) = true
      · rw [if_pos hc]
        by_cases hd : anySmall eps (along ptp x) = true
        · rw [if_pos hd]
          refine .inr ⟨fun f hf => ?_, fun _ _ => rfl⟩
          simp only [List.mem_cons, List.not_mem_nil, or_false] at hf
          rcases hf with rfl | rfl | rfl | rfl
          · exact h1.1 ha
          · exact h2.1 hb
          · exact h3.1 hc
          · exact h4.1 hd
        · rw [if_neg hd]
          refine .inl ⟨[_, _, _], _, _, rfl, fun f hf => ?_, not_not.1 (mt h4.2 hd), fun i _ => hval _ isStat_ptp i⟩
          simp only [List.mem_cons, List.not_mem_nil, or_false] at hf
          rcases hf with rfl | rfl | rfl
          · exact h1.1 ha
          · exact h2.1 hb
          · exact h3.1 hc
      · rw [if_neg hc, if_neg hc]
        refine .inl ⟨[_, _], _, _, rfl, fun f hf => ?_, not_not.1 (mt h3.2 hc), fun i _ => hval _ (isStat_spread _ _) i⟩
        simp only [List.mem_cons, List.not_mem_nil, or_false] at hf
        rcases hf with rfl | rfl
        · exact h1.1 ha
        · exact h2.1 hb
    · rw [if_neg hb, if_neg hb, if_neg hb]
      refine .inl ⟨[_], _, _, rfl, fun f hf => ?_, not_not.1 (mt h2.2 hb), fun i _ => hval _ (isStat_spread _ _) i⟩
      rw [List.mem_singleton.1 hf]
      exact h1.1 ha
  · rw [if_neg ha, if_neg ha, if_neg ha, if_neg ha]
    exact .inl ⟨[], _, _, rfl, fun f hf => absurd hf List.not_mem_nil, not_not.1 (mt h1.2 ha), fun i _ => hval _ isStat_mad i⟩

example : demoSpread.shape = 3 :: [2] ∧ 0 < 3 := ⟨rfl, by omega⟩

theorem quant_perm {l l' : List ℝ} (h : l.Perm l') (q : ℝ) : quant l q = quant l' q := by
  have e : l.insertionSort (· ≤ ·) = l'.insertionSort (· ≤ ·) :=
    List.Perm.eq_of_pairwise' (List.pairwise_insertionSort (· ≤ ·) l) (List.pairwise_insertionSort (· ≤ ·) l')
      (((List.perm_insertionSort (· ≤ ·) l).trans h).trans (List.perm_insertionSort (· ≤ ·) l').symm)
  unfold quant
  simp only
  rw [e]

theorem quant_three {a b c : ℝ} (h1 : a ≤ b) (h2 : b ≤ c) : quant [a, b, c] (1 / 2) = some b := by
  have e : [a, b, c].insertionSort (· ≤ ·) = [a, b, c] := by simp [List.insertionSort, List.orderedInsert, h1, h2]
  unfold quant
  simp only [e]
  norm_num [clamp]

/-- The component 0, 1, 2 has the median absolute deviation 1. -/
example : ∀ i, InB ([] : List Nat) i →
    quant ((List.range 3).map fun k => (⟨[3], fun i => (i.getD 0 0 : ℝ)⟩ : NArr ℝ).val (k :: i)) (1 / 2) = some 1 ∧
      quant ((List.range 3).map fun k => |(⟨[3], fun i => (i.getD 0 0 : ℝ)⟩ : NArr ℝ).val (k :: i) - 1|) (1 / 2) = some 1 := by
  intro i hi
  constructor
  · have : ((List.range 3).map fun k => (⟨[3], fun i => (i.getD 0 0 : ℝ)⟩ : NArr ℝ).val (k :: i)) = [0, 1, 2] := by simp [List.range_succ]
    rw [this]
    exact quant_three (by norm_num) (by norm_num)
  · have : ((List.range 3).map fun k => |(⟨[3], fun i => (i.getD 0 0 : ℝ)⟩ : NArr ℝ).val (k :: i) - 1|) = [1, 0, 1] := by norm_num [List.range_succ]
    rw [this, quant_perm (l' := [0, 1, 1]) (List.Perm.swap _ _ _)]
    exact quant_three (by norm_num) (by norm_num)

theorem mad_perm {l l' : List ℝ} (h : l.Perm l') : mad l = mad l' := by
  unfold mad median
  rw [quant_perm h]
  congr 1
  funext m
  exact quant_perm (h.map _) _

theorem spread_perm (a b : ℝ) {l l' : List ℝ} (h : l.Perm l') : spread a b l = spread a b l' := by
  unfold spread
  rw [quant_perm h]
  congr 1
  funext m
  rw [quant_perm h]

theorem ptp_perm {l l' : List ℝ} (h : l.Perm l') : ptp l = ptp l' := by
  by_cases hne : l = []
  · subst hne; rw [List.nil_perm.1 h]
  · obtain ⟨v, lo, hi, hv, rfl, h1, h2, h3⟩ := ptp_spec hne
    obtain ⟨w, lo', hi', hw, rfl, h1', h2', h3'⟩ := ptp_spec (l := l') fun e => hne (by rw [e] at h; exact List.perm_nil.1 h)
    rw [hv, hw]
    have a := (h3 _ (h.mem_iff.2 h1')).1
    have b := (h3' _ (h.mem_iff.1 h1)).1
    have c := (h3 _ (h.mem_iff.2 h2')).2
    have d := (h3' _ (h.mem_iff.1 h2)).2
    congr 1
    linarith

/-- **C79 (order).** The order of the calibration samples does not matter. -/
theorem C79_order (eps : ℝ) (x y : NArr ℝ) (n : Nat) (s : List Nat) (hx : x.shape = n :: s) (hy : y.shape = n :: s)
    (hp : ∀ i, ((List.range n).map fun k => x.val (k :: i)).Perm ((List.range n).map fun k => y.val (k :: i))) : robust eps x = robust eps y := by
  have key : ∀ f : List ℝ → Option ℝ, (∀ l l' : List ℝ, l.Perm l' → f l = f l') → along f x = along f y := fun f hf => by
    unfold along
    rw [hx, hy]
    congr 1
    funext i
    rw [column_component hx, column_component hy]
    exact hf _ _ (hp i)
  unfold robust
  rw [key mad fun _ _ h => mad_perm h, key _ fun _ _ h => spread_perm _ _ h, key _ fun _ _ h => spread_perm _ _ h, key ptp fun _ _ h => ptp_perm h]

/-- The same samples in another order. -/
example : ∀ i, ((List.range 3).map fun k => demoSpread.val (k :: i)).Perm
    ((List.range 3).map fun k => (⟨[3, 2], fun i => demoSpread.val ((2 - i.headD 0) :: i.tail)⟩ : NArr ℝ).val (k :: i)) := fun i =>
  (List.reverse_perm _).symm.trans (by simp [List.range_succ])

/-- **C79, one constant component (false).** The documentation promises a division of every sensitivity by its own median absolute deviation. One component whose
sensitivity hardly varies over the calibration set switches the sensitivity off for all components: they are divided by infinity, so the normalised sensitivity is
zero everywhere. -/
theorem C79_constant_refuted (eps : ℝ) (x : NArr ℝ) (n : Nat) (s : List Nat) (hx : x.shape = n :: s) (hn : 0 < n) (i : List Nat) (hi : InB s i)
    (h : ∀ k l, k < n → l < n → x.val (k :: i) - x.val (l :: i) < eps) (j : List Nat) (hj : InB s j) (a : ℝ) : Ext.divide a ((robust eps x).val j) = some 0 := by
  obtain ⟨j', hj', e⟩ := (C79_inf eps x n s hx hn).2 ⟨i, hi, h⟩
  rcases (C79_floor eps x n s hx hn).2 with h1 | h1
  · obtain ⟨v, hv, -⟩ := h1 j' hj'
    rw [hv] at e
    cases e
  · rw [h1 j hj]
    rfl

/-- Two components, the second one constant; the first one has the numbers 0, 1, 2, whose median absolute deviation is 1. -/
def demoConstant : NArr ℝ := ⟨[3, 2], fun i => if i.getD 1 0 = 0 then i.getD 0 0 else 5⟩

example : InB [2] [1] ∧ (∀ k l, k < 3 → l < 3 → demoConstant.val (k :: [1]) - demoConstant.val (l :: [1]) < 1e-12) ∧
    ((List.range 3).map fun k => demoConstant.val (k :: [0])) = [0, 1, 2] := by
  refine ⟨inB_cons.2 ⟨by norm_num, ⟨rfl, fun k d j h => by simp at h⟩⟩, fun k l _ _ => by norm_num [demoConstant], ?_⟩
  simp [demoConstant, List.range_succ]

/-! ### With uncertainties of the labels -/

/-- **C79, weights (false).** With uncertainties of the calibration labels the normalisation of every sensitivity whose samples have an axis raises. -/
theorem C79_weights_refuted (eps : ℝ) (x w : NArr ℝ) (n d : Nat) (s : List Nat) (hx : x.shape = n :: d :: s) : robustW eps x w = .error .valueError := by
  unfold robustW
  rw [hx]

example : demoSpread.shape = 3 :: 2 :: [] := rfl

/-- **C79, weighted median (false).** Where it does not raise, the weighted quantile sorts the weights instead of the data: with equal weights the "median" of two numbers is the first
one, so the result depends on the order of the samples. -/
theorem C79_weighted_median_refuted (a b w : ℝ) (hw : 0 < w) : weightedList [a, b] [w, w] (1 / 2) = some a := by
  have e : (List.range [w, w].length).insertionSort (fun i j => [w, w].getD i 0 ≤ [w, w].getD j 0) = [0, 1] := by
    simp [List.range_succ, List.insertionSort, List.orderedInsert]
  unfold weightedList
  simp only [e]
  rw [if_neg (by simp)]
  simp [cumsum, interpAt]
  intro h
  rw [if_pos (by linarith)]
  have : 2⁻¹ * (w + w) - w = 0 := by ring
  rw [this]
  ring

end Verif.Props
