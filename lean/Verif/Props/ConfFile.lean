import Verif.Spec.ConfFile
import Verif.Props.Conformal

/-!
# C83: saving and loading a conformalized model
-/

namespace Verif.Props

open ConfFile ConfSpec

variable {W K M D C : Type}

/-! ## Reading what was written -/

theorem attr_cases (P : Attr → Prop) (h : ∀ a ∈ readOrder, P a) : ∀ a, P a := fun a => h a (by cases a <;> decide)

theorem readAll_eq {ops : Ops W K M D} {s : List (Str × Entry W)} {g : Attr → Option W} : ∀ (as : List Attr) (f : Attr → Option W), (∀ a ∈ as, readAttr ops s a = .ok (g a)) →
    ∃ h, readAll ops s as f = .ok h ∧ ∀ a, h a = if a ∈ as then g a else f a
  | [], f, _ => ⟨f, rfl, fun a => by simp⟩
  | a :: as, f, ha => by
    obtain ⟨h, e, hh⟩ := readAll_eq as (fun b => if b = a then g a else f b) fun b hb => ha b (List.mem_cons_of_mem _ hb)
    refine ⟨h, by rw [readAll, ha a (List.mem_cons_self ..)]; exact e, fun b => ?_⟩
    rw [hh b]
    by_cases h1 : b ∈ as
    · simp [h1]
    · by_cases h2 : b = a
      · subst h2; simp [h1]
      · simp [h1, h2]

/-- The entries of a wrapper, with the encoder's data `enc` and the dictionary `q`. -/
def entries (f : Attr → Option W) (enc : Option W) (q : Nat) : List (Str × Entry W) :=
  (written.map fun x => (x.1.toList, Entry.val (f x.2))) ++ [("_onehot_training_enc".toList, .val enc), ("qhats".toList, .ref q)]

theorem entries_val (f : Attr → Option W) (enc : Option W) (q : Nat) (a : Attr) : readVal (entries f enc q) (readKey a) = .ok (if a = .onehot then enc else f a) := by
  cases a <;> rfl

theorem entries_ref (f : Attr → Option W) (enc : Option W) (q : Nat) : readRef (entries f enc q) = .ok q := rfl

theorem entries_reref (f : Attr → Option W) (enc : Option W) (q q' : Nat) : reref q' (entries f enc q) = entries f enc q' := rfl

theorem serialize_ok {ops : Ops W K M D} {pkg : Str} {w : Wrapper W K M} {d : Saved W D} (h : serialize ops pkg w = .ok d) :
    ∃ m enc, ops.ser w.model = .ok m ∧ unlessNone ops.encSer (w.attr .onehot) = .ok enc ∧ d = ⟨pkg, ops.cls w.model, m, entries w.attr enc w.qhats, w.name⟩ := by
  unfold serialize at h
  split at h
  · cases h
  · rename_i m hm
    split at h
    · cases h
    · rename_i enc he
      cases h
      exact ⟨m, enc, hm, he, rfl⟩

theorem serialize_of {ops : Ops W K M D} {w : Wrapper W K M} (hm : ModelOk ops w.model) (he : EncOk ops w) (pkg : Str) : ∃ d, serialize ops pkg w = .ok d := by
  obtain ⟨d, m₀, h1, -, -⟩ := hm
  unfold serialize
  rw [h1]
  cases ho : w.attr .onehot with
  | none => exact ⟨_, rfl⟩
  | some e =>
    obtain ⟨s, hs, -⟩ := he e ho
    dsimp only [unlessNone]
    rw [hs]
    exact ⟨_, rfl⟩

theorem enc_back {ops : Ops W K M D} {w : Wrapper W K M} (he : EncOk ops w) {enc : Option W} (h : unlessNone ops.encSer (w.attr .onehot) = .ok enc) :
    unlessNone ops.encDeser enc = .ok (w.attr .onehot) := by
  cases ho : w.attr .onehot with
  | none => rw [ho] at h; cases h; rfl
  | some e =>
    obtain ⟨s, hs, hd⟩ := he e ho
    rw [ho] at h
    dsimp only [unlessNone] at h
    rw [hs] at h
    cases h
    dsimp only [unlessNone]
    rw [hd]
    rfl

/-- `deserialize` of the data of a wrapper. -/
theorem deserialize_eq {ops : Ops W K M D} {w : Wrapper W K M} (hm : ModelOk ops w.model) (he : EncOk ops w) {m : D} {enc : Option W} (hs : ops.ser w.model = .ok m)
    (hu : unlessNone ops.encSer (w.attr .onehot) = .ok enc) (pkg : Str) (strict : Bool) (q : Nat) (name : NameVal) :
    deserialize ops pkg strict ⟨pkg, ops.cls w.model, m, entries w.attr enc q, name⟩ = match w.attr .trainingData with
      | Option.none => .ok ⟨name, w.model, w.attr, q, Option.none⟩
      | some td => match build ops td w.attr with
        | .error e => .error e
        | .ok k => .ok ⟨name, w.model, w.attr, q, some k⟩ := by
  obtain ⟨d, m₀, h1, h2, h3⟩ := hm
  rw [h1] at hs
  cases hs
  have hr : ∀ a ∈ readOrder, readAttr ops (entries w.attr enc q) a = .ok (w.attr a) := by
    intro a _
    unfold readAttr
    rw [entries_val]
    dsimp only
    split
    · next h => subst h; exact enc_back he hu
    · rfl
  obtain ⟨f, hf, hff⟩ := readAll_eq readOrder (fun _ => Option.none) hr
  have hfw : f = w.attr := by
    funext a
    rw [hff a, if_pos (by cases a <;> decide)]
  subst hfw
  unfold deserialize
  rw [if_neg (fun h => h.1 rfl), h2]
  dsimp only
  rw [h3]
  dsimp only
  rw [hf, entries_ref]
  dsimp only
  cases w.attr .trainingData with
  | none => rfl
  | some td =>
    dsimp only
    cases build ops td w.attr <;> rfl

/-! ## Calibration -/

/-- The tree is the one that belongs to the attributes. -/
def Consistent (ops : Ops W K M D) (w : Wrapper W K M) : Prop := ∀ td, w.attr .trainingData = some td → ∃ k, build ops td w.attr = .ok k ∧ w.kdtree = some k

theorem assign_keeps {r : Run W} {a : Attr} {w w' : Wrapper W K M} {o : Option PyErr} (h : assign r a w = (w', o)) :
    w'.kdtree = w.kdtree ∧ w'.model = w.model ∧ w'.qhats = w.qhats ∧ w'.name = w.name ∧ ∀ b, b ≠ a → w'.attr b = w.attr b := by
  unfold assign at h
  split at h <;> cases h
  · exact ⟨rfl, rfl, rfl, rfl, fun _ _ => rfl⟩
  · exact ⟨rfl, rfl, rfl, rfl, fun _ _ => rfl⟩
  · exact ⟨rfl, rfl, rfl, rfl, fun b hb => if_neg hb⟩

theorem assignAll_keeps {r : Run W} : ∀ (as : List Attr) {w w' : Wrapper W K M} {o : Option PyErr}, assignAll r as w = (w', o) →
    w'.kdtree = w.kdtree ∧ w'.model = w.model ∧ w'.qhats = w.qhats ∧ w'.name = w.name ∧ ∀ b, b ∉ as → w'.attr b = w.attr b
  | [], w, w', o, h => by cases h; exact ⟨rfl, rfl, rfl, rfl, fun _ _ => rfl⟩
  | a :: as, w, w', o, h => by
    rw [assignAll] at h
    split at h
    · rename_i w₁ h1
      obtain ⟨k1, m1, q1, n1, f1⟩ := assign_keeps h1
      obtain ⟨k2, m2, q2, n2, f2⟩ := assignAll_keeps as h
      refine ⟨k2.trans k1, m2.trans m1, q2.trans q1, n2.trans n1, fun b hb => ?_⟩
      rw [List.mem_cons, not_or] at hb
      rw [f2 b hb.2, f1 b hb.1]
    · rename_i w₁ e h1
      cases h
      obtain ⟨k1, m1, q1, n1, f1⟩ := assign_keeps h1
      exact ⟨k1, m1, q1, n1, fun b hb => f1 b fun h => hb (h ▸ List.mem_cons_self ..)⟩

theorem build_congr (ops : Ops W K M D) (td : W) {f g : Attr → Option W} (h1 : f .onehot = g .onehot) (h2 : f .range = g .range) (h3 : f .distSens = g .distSens) :
    build ops td f = build ops td g := by
  unfold build
  rw [h1, h2, h3]

theorem consistent_after {ops : Ops W K M D} {r : Run W} {as : List Attr} (has : ∀ a ∈ [Attr.trainingData, .onehot, .range, .distSens], a ∉ as) {w w' : Wrapper W K M} {o : Option PyErr}
    (h : assignAll r as w = (w', o)) (hc : Consistent ops w) : Consistent ops w' := by
  obtain ⟨k, -, -, -, f⟩ := assignAll_keeps as h
  intro td ht
  rw [f _ (has _ (by simp))] at ht
  obtain ⟨t, h1, h2⟩ := hc td ht
  exact ⟨t, by rw [build_congr ops td (f _ (has _ (by simp))) (f _ (has _ (by simp))) (f _ (has _ (by simp)))]; exact h1, k.trans h2⟩

theorem trees_consistent {ops : Ops W K M D} {td : W} {r : Run W} {w w' : Wrapper W K M} (ht : w.attr .trainingData = some td) (h : trees ops td r w = (w', Option.none)) : Consistent ops w' := by
  unfold trees at h
  split at h
  · cases h
  · rename_i w₁ h1
    obtain ⟨-, -, -, -, f1⟩ := assignAll_keeps _ h1
    split at h
    · cases h
    · rename_i u hu
      dsimp only at h
      split at h
      · cases h
      · rename_i w₃ h3
        obtain ⟨-, -, -, -, f3⟩ := assign_keeps h3
        split at h
        · cases h
        · rename_i k hk
          have hc : Consistent ops ({ w₃ with kdtree := some k } : Wrapper W K M) := by
            intro td' ht'
            have : w₃.attr .trainingData = some td := by
              rw [f3 _ (by decide)]
              show (if Attr.trainingData = .onehot then some u else w₁.attr .trainingData) = _
              rw [if_neg (by decide), f1 _ (by decide)]
              exact ht
            rw [this] at ht'
            cases ht'
            exact ⟨k, hk, rfl⟩
          refine consistent_after (r := r) (as := [.cutoff]) (by decide) (o := Option.none) ?_ hc
          rw [assignAll, h]
          rfl

theorem calibrate_consistent {ops : Ops W K M D} {r : Run W} {w w' : Wrapper W K M} (h : calibrate ops r w = (w', Option.none)) : Consistent ops w' := by
  unfold calibrate at h
  split at h
  · cases h
  · split at h
    · cases h
    · rename_i w₁ _
      unfold rest at h
      dsimp only at h
      split at h
      · cases h
      · rename_i w₂ h2
        obtain ⟨-, -, -, -, f2⟩ := assignAll_keeps _ h2
        have ht : w₂.attr .trainingData = r.training := by rw [f2 _ (by decide)]; simp
        split at h
        · rename_i hr
          refine consistent_after (by decide) h ?_
          intro td htd
          rw [ht, hr] at htd
          cases htd
        · rename_i td hr
          split at h
          · cases h
          · rename_i w₃ h3
            exact consistent_after (by decide) h (trees_consistent (by rw [ht, hr]) h3)

theorem consistent_back {ops : Ops W K M D} {w : Wrapper W K M} (hm : ModelOk ops w.model) (he : EncOk ops w) (hc : Consistent ops w) {m : D} {enc : Option W} (hs : ops.ser w.model = .ok m)
    (hu : unlessNone ops.encSer (w.attr .onehot) = .ok enc) (pkg : Str) (strict : Bool) (q : Nat) (name : NameVal) :
    ∃ k, deserialize ops pkg strict ⟨pkg, ops.cls w.model, m, entries w.attr enc q, name⟩ = .ok ⟨name, w.model, w.attr, q, k⟩ ∧ k = treeUsed w := by
  rw [deserialize_eq hm he hs hu]
  unfold treeUsed
  cases ht : w.attr .trainingData with
  | none => exact ⟨_, rfl, rfl⟩
  | some td =>
    obtain ⟨k, h1, h2⟩ := hc td ht
    dsimp only
    rw [h1]
    exact ⟨_, rfl, h2.symm⟩

theorem agree_back {w : Wrapper W K M} (name : NameVal) (q : Nat) : Agree w ⟨name, w.model, w.attr, q, treeUsed w⟩ := by
  refine ⟨rfl, fun _ => rfl, ?_⟩
  unfold treeUsed
  dsimp only
  split <;> rfl

/-! ## C83 -/

/-- A wrapper that was just made or whose last calibration succeeded, whatever happened before. -/
inductive Sound (ops : Ops W K M D) : Wrapper W K M → Prop
  | fresh (m : M) (alpha quantile : W) (name : NameVal) (q : Nat) : Sound ops (init m alpha quantile name q)
  | calibrated (r : Run W) (w w' : Wrapper W K M) (h : calibrate ops r w = (w', Option.none)) : Sound ops w'

theorem sound_consistent {ops : Ops W K M D} {w : Wrapper W K M} (h : Sound ops w) : Consistent ops w := by
  cases h with
  | fresh => intro td ht; cases ht
  | calibrated r w _ h => exact calibrate_consistent h

/-- **C83.** In memory: the dictionary of a new wrapper or of one whose last calibration succeeded can be made into a wrapper that agrees with it, has its name and shares its dictionary of
quantiles. -/
theorem C83_memory {ops : Ops W K M D} {w : Wrapper W K M} (hw : Sound ops w) (hm : ModelOk ops w.model) (he : EncOk ops w) (pkg : Str) (strict : Bool) :
    ∃ d v, serialize ops pkg w = .ok d ∧ deserialize ops pkg strict d = .ok v ∧ Agree w v ∧ v.name = w.name ∧ v.qhats = w.qhats := by
  obtain ⟨d, hd⟩ := serialize_of hm he pkg
  obtain ⟨m, enc, hs, hu, rfl⟩ := serialize_ok hd
  obtain ⟨k, hk, rfl⟩ := consistent_back hm he (sound_consistent hw) hs hu pkg strict w.qhats w.name
  exact ⟨_, _, hd, hk, agree_back _ _, rfl, rfl⟩

/-- **C83.** Through a file: the wrapper read agrees with the one written, its dictionary of quantiles has the same contents under an address of its own, and no dictionary that was there changes. -/
theorem C83_file {ops : Ops W K M D} {w : Wrapper W K M} (hw : Sound ops w) (hm : ModelOk ops w.model) (he : EncOk ops w) (pkg : Str) (strict : Bool) (store store' : Nat → C) (q : Nat) :
    ∃ f v st, save ops pkg store w = .ok f ∧ fromFile ops pkg strict q store' f = .ok (v, st) ∧ Agree w v ∧ v.qhats = q ∧ st q = store w.qhats ∧ ∀ p, p ≠ q → st p = store' p := by
  obtain ⟨d, hd⟩ := serialize_of hm he pkg
  obtain ⟨m, enc, hs, hu, rfl⟩ := serialize_ok hd
  obtain ⟨k, hk, rfl⟩ := consistent_back hm he (sound_consistent hw) hs hu pkg strict q w.name.stored
  refine ⟨⟨⟨pkg, ops.cls w.model, m, entries w.attr enc w.qhats, w.name.stored⟩, store w.qhats⟩, ⟨w.name.stored, w.model, w.attr, q, treeUsed w⟩, alloc store' q (store w.qhats),
    by rw [save, hd], ?_, agree_back _ _, rfl, if_pos rfl, fun p hp => if_neg hp⟩
  rw [fromFile]
  dsimp only
  rw [entries_reref, hk]

/-- **C83.** Through the disk, under any name with the ending; other files stay. -/
theorem C83_disk {ops : Ops W K M D} {w : Wrapper W K M} (hw : Sound ops w) (hm : ModelOk ops w.model) (he : EncOk ops w) (pkg : Str) (strict : Bool) (store store' : Nat → C) (q : Nat)
    (name : Str) (disk : Disk W D C) :
    ∃ disk' v st, saveTo ops pkg store w (name ++ ".npz".toList) disk = .ok disk' ∧ loadFrom ops pkg strict q store' (name ++ ".npz".toList) disk' = .ok (v, st) ∧ Agree w v ∧
      v.qhats = q ∧ st q = store w.qhats ∧ (∀ p, p ≠ q → st p = store' p) ∧ ∀ n, n ≠ name ++ ".npz".toList → disk' n = disk n := by
  obtain ⟨f, v, st, h1, h2, h3, h4, h5, h6⟩ := C83_file hw hm he pkg strict store store' q
  have hx : Npz.withExt (name ++ ".npz".toList) = name ++ ".npz".toList := by
    unfold Npz.withExt Npz.npzExt
    rw [if_pos]
    rw [List.isSuffixOf_iff_suffix]
    exact List.suffix_append ..
  refine ⟨fun n => if n = name ++ ".npz".toList then some f else disk n, v, st, by rw [saveTo, h1, hx], ?_, h3, h4, h5, h6, fun n hn => if_neg hn⟩
  rw [loadFrom]
  simp only [if_true]
  exact h2

/-- **C83.** Whatever state the wrapper is in, if a wrapper is read from its file, then with the same attributes and model. -/
theorem C83_attributes {ops : Ops W K M D} {w v : Wrapper W K M} (hm : ModelOk ops w.model) (he : EncOk ops w) (pkg : Str) (strict : Bool) (store store' st : Nat → C) (q : Nat) {f : File W D C}
    (hf : save ops pkg store w = .ok f) (hv : fromFile ops pkg strict q store' f = .ok (v, st)) : v.model = w.model ∧ ∀ a, v.attr a = w.attr a := by
  rw [save] at hf
  split at hf
  · cases hf
  · rename_i d hd
    cases hf
    obtain ⟨m, enc, hs, hu, rfl⟩ := serialize_ok hd
    rw [fromFile] at hv
    dsimp only at hv
    rw [entries_reref, deserialize_eq hm he hs hu] at hv
    revert hv
    cases w.attr .trainingData with
    | none => intro hv; cases hv; exact ⟨rfl, fun _ => rfl⟩
    | some td =>
      dsimp only
      cases build ops td w.attr with
      | error e => intro hv; cases hv
      | ok k => intro hv; cases hv; exact ⟨rfl, fun _ => rfl⟩

/-- **C83.** Writing a wrapper that was read gives the same file again. -/
theorem C83_again {ops : Ops W K M D} {w v : Wrapper W K M} (hm : ModelOk ops w.model) (he : EncOk ops w) (pkg : Str) (strict : Bool) (store store' st : Nat → C) (q : Nat) {f : File W D C}
    (hf : save ops pkg store w = .ok f) (hv : fromFile ops pkg strict q store' f = .ok (v, st)) :
    ∃ f', save ops pkg st v = .ok f' ∧ f'.qhats = f.qhats ∧ f'.data.name = f.data.name ∧ f'.data.model = f.data.model ∧ f'.data.cls = f.data.cls ∧ f'.data.state = reref q f.data.state := by
  rw [save] at hf
  split at hf
  · cases hf
  · rename_i d hd
    cases hf
    obtain ⟨m, enc, hs, hu, rfl⟩ := serialize_ok hd
    rw [fromFile] at hv
    dsimp only at hv
    rw [entries_reref, deserialize_eq hm he hs hu] at hv
    have key : ∀ k, ∃ f' : File W D C, save ops pkg (alloc store' q (store w.qhats)) (⟨w.name.stored, w.model, w.attr, q, k⟩ : Wrapper W K M) = .ok f' ∧ f'.qhats = store w.qhats ∧
        f'.data.name = w.name.stored ∧ f'.data.model = m ∧ f'.data.cls = ops.cls w.model ∧ f'.data.state = reref q (entries w.attr enc w.qhats) := by
      intro k
      refine ⟨⟨⟨pkg, ops.cls w.model, m, entries w.attr enc q, w.name.stored.stored⟩, alloc store' q (store w.qhats) q⟩, ?_, if_pos rfl, ?_, rfl, rfl, (entries_reref ..).symm⟩
      · rw [save, serialize]
        dsimp only
        rw [hs]
        dsimp only
        rw [hu]
        rfl
      · cases w.name <;> rfl
    revert hv
    cases w.attr .trainingData with
    | none => intro hv; cases hv; exact key _
    | some td =>
      dsimp only
      cases build ops td w.attr with
      | error e => intro hv; cases hv
      | ok k => intro hv; cases hv; exact key _

/-- **C83.** Data of another version of the package are refused on demand, and otherwise read like those of the same version. -/
theorem C83_version {ops : Ops W K M D} {d : Saved W D} {pkg : Str} (h : pkg ≠ d.package) :
    deserialize (K := K) ops pkg true d = .error .valueError ∧ deserialize (K := K) ops pkg false d = deserialize ops d.package false d := by
  constructor
  · rw [deserialize, if_pos ⟨h, rfl⟩]
  · rw [deserialize, deserialize, if_neg (by simp), if_neg (by simp)]

theorem trees_keeps {ops : Ops W K M D} {td : W} {r : Run W} {w w' : Wrapper W K M} {o : Option PyErr} (h : trees ops td r w = (w', o)) :
    w'.name = w.name ∧ w'.model = w.model ∧ w'.qhats = w.qhats ∧ ∀ a ∈ [Attr.defaultAlpha, .nnDistQuantile], w'.attr a = w.attr a := by
  have two : ∀ a ∈ [Attr.defaultAlpha, .nnDistQuantile], a ∉ [Attr.iqr, .range] ∧ a ≠ .onehot ∧ a ≠ .cutoff := by decide
  unfold trees at h
  split at h
  · rename_i w₁ e h1
    cases h
    obtain ⟨-, m1, q1, n1, f1⟩ := assignAll_keeps _ h1
    exact ⟨n1, m1, q1, fun a ha => f1 a (two a ha).1⟩
  · rename_i w₁ h1
    obtain ⟨-, m1, q1, n1, f1⟩ := assignAll_keeps _ h1
    split at h
    · cases h
      exact ⟨n1, m1, q1, fun a ha => f1 a (two a ha).1⟩
    · rename_i u hu
      dsimp only at h
      split at h
      · rename_i w₃ e h3
        cases h
        obtain ⟨-, m3, q3, n3, f3⟩ := assign_keeps h3
        refine ⟨n3.trans n1, m3.trans m1, q3.trans q1, fun a ha => ?_⟩
        rw [f3 a (two a ha).2.1]
        simp [(two a ha).2.1, f1 a (two a ha).1]
      · rename_i w₃ h3
        obtain ⟨-, m3, q3, n3, f3⟩ := assign_keeps h3
        have g3 : ∀ a ∈ [Attr.defaultAlpha, .nnDistQuantile], w₃.attr a = w.attr a := fun a ha => by
          rw [f3 a (two a ha).2.1]
          simp [(two a ha).2.1, f1 a (two a ha).1]
        split at h
        · cases h
          exact ⟨n3.trans n1, m3.trans m1, q3.trans q1, g3⟩
        · obtain ⟨-, m4, q4, n4, f4⟩ := assign_keeps h
          refine ⟨n4.trans (n3.trans n1), m4.trans (m3.trans m1), q4.trans (q3.trans q1), fun a ha => ?_⟩
          rw [f4 a (two a ha).2.2]
          exact g3 a ha

theorem calibrate_keeps (ops : Ops W K M D) (r : Run W) (w : Wrapper W K M) :
    (calibrate ops r w).1.name = w.name ∧ (calibrate ops r w).1.model = w.model ∧ (calibrate ops r w).1.qhats = w.qhats ∧
      ∀ a ∈ [Attr.defaultAlpha, .nnDistQuantile], (calibrate ops r w).1.attr a = w.attr a := by
  have two : ∀ a ∈ [Attr.defaultAlpha, .nnDistQuantile], a ∉ before ∧ a ∉ counts ∧ a ∉ after ∧ a ≠ .trainingData := by decide
  generalize hc : calibrate ops r w = p
  obtain ⟨w', o⟩ := p
  dsimp only
  unfold calibrate at hc
  split at hc
  · cases hc; exact ⟨rfl, rfl, rfl, fun _ _ => rfl⟩
  · split at hc
    · rename_i w₁ e h1
      cases hc
      obtain ⟨-, m1, q1, n1, f1⟩ := assignAll_keeps _ h1
      exact ⟨n1, m1, q1, fun a ha => f1 a (two a ha).1⟩
    · rename_i w₁ h1
      obtain ⟨-, m1, q1, n1, f1⟩ := assignAll_keeps _ h1
      unfold rest at hc
      dsimp only at hc
      split at hc
      · rename_i w₂ e h2
        cases hc
        obtain ⟨-, m2, q2, n2, f2⟩ := assignAll_keeps _ h2
        refine ⟨n2.trans n1, m2.trans m1, q2.trans q1, fun a ha => ?_⟩
        rw [f2 a (two a ha).2.1]
        simp [(two a ha).2.2.2, f1 a (two a ha).1]
      · rename_i w₂ h2
        obtain ⟨-, m2, q2, n2, f2⟩ := assignAll_keeps _ h2
        have g2 : ∀ a ∈ [Attr.defaultAlpha, .nnDistQuantile], w₂.attr a = w.attr a := fun a ha => by
          rw [f2 a (two a ha).2.1]
          simp [(two a ha).2.2.2, f1 a (two a ha).1]
        split at hc
        · obtain ⟨-, m3, q3, n3, f3⟩ := assignAll_keeps _ hc
          exact ⟨n3.trans (n2.trans n1), m3.trans (m2.trans m1), q3.trans (q2.trans q1), fun a ha => by rw [f3 a (two a ha).2.2.1]; exact g2 a ha⟩
        · split at hc
          · rename_i w₃ e h3
            cases hc
            obtain ⟨n3, m3, q3, f3⟩ := trees_keeps h3
            exact ⟨n3.trans (n2.trans n1), m3.trans (m2.trans m1), q3.trans (q2.trans q1), fun a ha => by rw [f3 a ha]; exact g2 a ha⟩
          · rename_i w₃ h3
            obtain ⟨n3, m3, q3, f3⟩ := trees_keeps h3
            obtain ⟨-, m4, q4, n4, f4⟩ := assignAll_keeps _ hc
            exact ⟨n4.trans (n3.trans (n2.trans n1)), m4.trans (m3.trans (m2.trans m1)), q4.trans (q3.trans (q2.trans q1)), fun a ha => by
              rw [f4 a (two a ha).2.2.1, f3 a ha]; exact g2 a ha⟩

theorem name_stored {ops : Ops W K M D} {w v : Wrapper W K M} (hm : ModelOk ops w.model) (he : EncOk ops w) (pkg : Str) (strict : Bool) (store store' st : Nat → C) (q : Nat) {f : File W D C}
    (hf : save ops pkg store w = .ok f) (hv : fromFile ops pkg strict q store' f = .ok (v, st)) : v.name = w.name.stored := by
  rw [save] at hf
  split at hf
  · cases hf
  · rename_i d hd
    cases hf
    obtain ⟨m, enc, hs, hu, rfl⟩ := serialize_ok hd
    rw [fromFile] at hv
    dsimp only at hv
    rw [entries_reref, deserialize_eq hm he hs hu] at hv
    revert hv
    cases w.attr .trainingData with
    | none => intro hv; cases hv; rfl
    | some td =>
      dsimp only
      cases build ops td w.attr with
      | error e => intro hv; cases hv
      | ok k => intro hv; cases hv; rfl

/-- The new value of an attribute, or the old one. -/
def newValue (r : Run W) (a : Attr) (old : Option W) : Option W :=
  match r.value a with
  | some (.ok v) => v
  | _ => old

theorem assign_value {r : Run W} {a : Attr} {w w' : Wrapper W K M} (h : assign r a w = (w', Option.none)) (b : Attr) : w'.attr b = if b = a then newValue r a (w.attr a) else w.attr b := by
  unfold assign at h
  unfold newValue
  split at h
  · rename_i hv
    cases h
    rw [hv]
    by_cases e : b = a
    · subst e; rw [if_pos rfl]
    · rw [if_neg e]
  · cases h
  · rename_i v hv
    cases h
    rw [hv]

theorem assignAll_value {r : Run W} : ∀ (as : List Attr) {w w' : Wrapper W K M}, assignAll r as w = (w', Option.none) → ∀ b, w'.attr b = if b ∈ as then newValue r b (w.attr b) else w.attr b
  | [], w, w', h, b => by cases h; simp
  | a :: as, w, w', h, b => by
    rw [assignAll] at h
    split at h
    · rename_i w₁ h1
      rw [assignAll_value as h b, assign_value h1 b]
      by_cases e : b = a
      · subst e
        simp only [if_true, List.mem_cons, true_or]
        split
        · unfold newValue
          cases r.value b with
          | none => rfl
          | some v => cases v <;> rfl
        · rfl
      · simp [e]
    · cases h

theorem assign_ok {r : Run W} {a : Attr} {w w' : Wrapper W K M} (h : assign r a w = (w', Option.none)) : ∀ e, r.value a ≠ some (.error e) := by
  intro e he
  rw [assign, he] at h
  cases h

theorem newValue_any {r : Run W} {a : Attr} (h : (r.value a).isSome) (h' : ∀ e, r.value a ≠ some (.error e)) (x y : Option W) : newValue r a x = newValue r a y := by
  unfold newValue
  cases hv : r.value a with
  | none => rw [hv] at h; cases h
  | some v => cases v with
    | error e => exact absurd hv (h' e)
    | ok v => rfl

/-- **C83.** After a successful calibration every attribute has the value of this call, or its old value where the call assigns none. -/
theorem C83_assigned {ops : Ops W K M D} {r : Run W} {w w' : Wrapper W K M} (h : calibrate ops r w = (w', Option.none)) (ho : r.training.isSome → (r.value .onehot).isSome) :
    ∀ a, w'.attr a = expected r w a := by
  have ex : ∀ a, expected r w a = if a = .trainingData then r.training else if a = .defaultAlpha ∨ a = .nnDistQuantile then w.attr a
      else if (a = .iqr ∨ a = .range ∨ a = .onehot ∨ a = .cutoff) ∧ r.training = Option.none then w.attr a else newValue r a (w.attr a) := fun _ => rfl
  intro a
  rw [ex]
  unfold calibrate at h
  split at h
  · cases h
  · split at h
    · cases h
    · rename_i w₁ h1
      have v1 := assignAll_value _ h1
      unfold rest at h
      dsimp only at h
      split at h
      · cases h
      · rename_i w₂ h2
        have v2 := assignAll_value _ h2
        dsimp only at v2
        split at h
        · rename_i hr
          rw [assignAll_value _ h a, v2 a, v1 a, hr]
          cases a <;> simp [before, counts, after]
        · rename_i td hr
          rw [hr] at ho
          split at h
          · cases h
          · rename_i w₃ h3
            unfold trees at h3
            split at h3
            · cases h3
            · rename_i w₄ h4
              have v4 := assignAll_value _ h4
              split at h3
              · cases h3
              · rename_i u hu
                dsimp only at h3
                split at h3
                · cases h3
                · rename_i w₅ h5
                  have v5 := assign_value h5
                  have ne := assign_ok h5
                  dsimp only at v5
                  split at h3
                  · cases h3
                  · have v6 := assign_value h3
                    dsimp only at v6
                    rw [assignAll_value _ h a, v6 a, v5 a, v5 .cutoff, v4 a, v4 .cutoff, v2 a, v2 .cutoff, v1 a, v1 .cutoff, hr]
                    cases a <;> simp [before, counts, after]
                    exact newValue_any (ho rfl) ne ..

/-- **C83.** A calibration, failed or not, changes neither the name nor the model, and keeps the quantiles already computed. -/
theorem C83_calibrate (ops : Ops W K M D) (r : Run W) (w : Wrapper W K M) :
    (calibrate ops r w).1.name = w.name ∧ (calibrate ops r w).1.model = w.model ∧ (calibrate ops r w).1.qhats = w.qhats ∧
      (calibrate ops r w).1.attr .defaultAlpha = w.attr .defaultAlpha ∧ (calibrate ops r w).1.attr .nnDistQuantile = w.attr .nnDistQuantile := by
  have hb := calibrate_keeps ops r w
  exact ⟨hb.1, hb.2.1, hb.2.2.1, hb.2.2.2 _ (by simp), hb.2.2.2 _ (by simp)⟩

/-! ## What is not kept -/

/-- The name of a wrapper read from a file is not the text that was given, and a name that was not given is still not given. -/
theorem C83_name_refuted {ops : Ops W K M D} {w v : Wrapper W K M} (hm : ModelOk ops w.model) (he : EncOk ops w) (pkg : Str) (strict : Bool) (store store' st : Nat → C) (q : Nat) {f : File W D C}
    (hf : save ops pkg store w = .ok f) (hv : fromFile ops pkg strict q store' f = .ok (v, st)) (dflt : M → Str) :
    (∀ s, w.name = .text s → s ≠ [] → shownName dflt w = .text s ∧ shownName dflt v = .arr0 (some s) ∧ shownName dflt v ≠ shownName dflt w) ∧
      (w.name = .none → shownName dflt v = shownName dflt w) := by
  have hn := name_stored hm he pkg strict store store' st q hf hv
  have ha := (C83_attributes hm he pkg strict store store' st q hf hv).1
  constructor
  · intro s hs hne
    have h1 : shownName dflt w = .text s := by simp [shownName, hs, NameVal.truthy, hne]
    have h2 : shownName dflt v = .arr0 (some s) := by simp [shownName, hn, hs, NameVal.stored, NameVal.truthy, hne]
    exact ⟨h1, h2, by rw [h1, h2]; simp⟩
  · intro hs
    simp [shownName, hn, hs, NameVal.stored, NameVal.truthy, ha]

/-- **C83 refuted for a name without the ending.** The file just written is not found: `from_file` gives what was there under the bare name before, if anything. -/
theorem C83_filename_refuted {ops : Ops W K M D} {w : Wrapper W K M} (pkg : Str) (strict : Bool) (store store' : Nat → C) (q : Nat) {name : Str} (h : Npz.npzExt.isSuffixOf name = false)
    {disk disk' : Disk W D C} (hs : saveTo ops pkg store w name disk = .ok disk') : loadFrom ops pkg strict q store' name disk' = loadFrom ops pkg strict q store' name disk := by
  rw [saveTo] at hs
  split at hs
  · cases hs
  · cases hs
    have : name ≠ Npz.withExt name := by
      intro e
      rw [Npz.withExt, h] at e
      have := congrArg List.length e
      simp [Npz.npzExt] at this
    rw [loadFrom, loadFrom]
    beta_reduce
    rw [if_neg this]

/-- **C83 refuted after a failed calibration.** If the tree of new training data cannot be built, then the wrapper can still be written, but what was written cannot be read. -/
theorem C83_failed_refuted {ops : Ops W K M D} {r : Run W} {w w' : Wrapper W K M} {e : PyErr} {td : W} (hc : calibrate ops r w = (w', some e)) (ht : w'.attr .trainingData = some td)
    (hb : build ops td w'.attr = .error e) (hm : ModelOk ops w'.model) (he : EncOk ops w') (pkg : Str) (strict : Bool) (store store' : Nat → C) (q : Nat) :
    ∃ f, save ops pkg store w' = .ok f ∧ fromFile (K := K) ops pkg strict q store' f = .error e := by
  obtain ⟨d, hd⟩ := serialize_of hm he pkg
  obtain ⟨m, enc, hs, hu, rfl⟩ := serialize_ok hd
  refine ⟨⟨⟨pkg, ops.cls w'.model, m, entries w'.attr enc w'.qhats, w'.name.stored⟩, store w'.qhats⟩, by rw [save, hd], ?_⟩
  rw [fromFile]
  dsimp only
  rw [entries_reref, deserialize_eq hm he hs hu, ht]
  dsimp only
  rw [hb]

/-! ## The quantiles of original and copy -/

theorem act_qhats (ops : Ops W K M D) (toScores : W → Conformal.Arrs) : ∀ (as : List (Action W)) (v : Wrapper W K M) (store : Caches),
    (act ops toScores as v store).1.qhats = v.qhats ∧ ∀ p, p ≠ v.qhats → (act ops toScores as v store).2 p = store p
  | [], v, store => ⟨rfl, fun _ _ => rfl⟩
  | .calibrate r :: as, v, store => by
    have h := act_qhats ops toScores as (calibrate ops r v).1 store
    rw [(calibrate_keeps ops r v).2.2.1] at h
    exact h
  | .request alphas :: as, v, store => by
    rw [act]
    cases hr : request toScores v alphas store with
    | error e => exact act_qhats ops toScores as v store
    | ok x =>
      obtain ⟨Q, store'⟩ := x
      dsimp only
      have h := act_qhats ops toScores as v store'
      refine ⟨h.1, fun p hp => (h.2 p hp).trans ?_⟩
      rw [request] at hr
      split at hr
      · cases hr
      · cases hr
        exact if_neg hp

/-- **C83.** Original and copy through a file are separate: whatever is done with the copy, the original answers requests of levels as before. -/
theorem C83_separate {ops : Ops W K M D} {w v : Wrapper W K M} (pkg : Str) (strict : Bool) (store store' st : Caches) (q : Nat) {f : File W D (ℝ → Option Conformal.Arrs)}
    (hm : ModelOk ops w.model) (he : EncOk ops w) (hf : save ops pkg store w = .ok f) (hv : fromFile ops pkg strict q store' f = .ok (v, st)) (hq : q ≠ w.qhats)
    (toScores : W → Conformal.Arrs) (as : List (Action W)) (alphas : List ℝ) :
    (request toScores w alphas (act ops toScores as v st).2).map Prod.fst = (request toScores w alphas store').map Prod.fst := by
  have h1 : v.qhats = q ∧ st w.qhats = store' w.qhats := by
    rw [save] at hf
    split at hf
    · cases hf
    · rename_i d hd
      cases hf
      obtain ⟨m, enc, hs, hu, rfl⟩ := serialize_ok hd
      rw [fromFile] at hv
      dsimp only at hv
      rw [entries_reref, deserialize_eq hm he hs hu] at hv
      revert hv
      cases w.attr .trainingData with
      | none => intro hv; cases hv; exact ⟨rfl, if_neg hq.symm⟩
      | some td =>
        dsimp only
        cases build ops td w.attr with
        | error e => intro hv; cases hv
        | ok k => intro hv; cases hv; exact ⟨rfl, if_neg hq.symm⟩
  have h2 := (act_qhats ops toScores as v st).2 w.qhats (by rw [h1.1]; exact hq.symm)
  unfold request
  rw [h2, h1.2]
  cases Conformal.getQhat ⟨(w.attr .scores).map toScores, store' w.qhats⟩ alphas <;> rfl

/-- **C83 refuted in memory.** The copy made from the dictionary of a wrapper shares its quantiles: after a calibration of the copy with new scores, a level that is first requested from the copy is
answered by the original with the quantile of the new scores. -/
theorem C83_shared_refuted {ops : Ops W K M D} {w v v' : Wrapper W K M} {r : Run W} {pkg : Str} {strict : Bool} {d : Saved W D} (hm : ModelOk ops w.model) (he : EncOk ops w)
    (hd : serialize ops pkg w = .ok d) (hv : deserialize ops pkg strict d = .ok v) (hc : calibrate ops r v = (v', Option.none)) (toScores : W → Conformal.Arrs) {old new : W}
    (ho : w.attr .scores = some old) (hn : v'.attr .scores = some new) {n : Nat} (hs : Conformal.samples (toScores new) = .ok n) {α : ℝ} (h0 : 0 < α) (h1 : α < 1) {store : Caches}
    (hα : store w.qhats α = Option.none) :
    ∃ store₁ store₂, request toScores v' [α] store = .ok ([Conformal.quantTree (toScores new) n α], store₁) ∧
      request toScores w [α] store₁ = .ok ([Conformal.quantTree (toScores new) n α], store₂) := by
  classical
  have hq : v.qhats = w.qhats := by
    obtain ⟨m, enc, hs, hu, rfl⟩ := serialize_ok hd
    rw [deserialize_eq hm he hs hu] at hv
    revert hv
    cases w.attr .trainingData with
    | none => intro hv; cases hv; rfl
    | some td =>
      dsimp only
      cases build ops td w.attr with
      | error e => intro hv; cases hv
      | ok k => intro hv; cases hv; rfl
  have hq' : v'.qhats = w.qhats := by
    have h := (calibrate_keeps ops r v).2.2.1
    rw [hc] at h
    exact h.trans hq
  have ha : ¬ ([α].any (fun a => decide (a ≤ 0 ∨ 1 ≤ a)) = true) := by simp [h0, h1]
  refine ⟨alloc store w.qhats (Conformal.store (Conformal.quantTree (toScores new) n) [α] (store w.qhats)),
    alloc (alloc store w.qhats (Conformal.store (Conformal.quantTree (toScores new) n) [α] (store w.qhats))) w.qhats (Conformal.store (Conformal.quantTree (toScores new) n) [α] (store w.qhats)),
    ?_, ?_⟩
  · unfold request Conformal.getQhat
    rw [if_neg ha, hq', hn]
    simp [hα, hs]
  · have hs' : Conformal.store (Conformal.quantTree (toScores new) n) [α] (store w.qhats) α = some (Conformal.quantTree (toScores new) n α) := by
      simp [Conformal.store]
    have hst : alloc store w.qhats (Conformal.store (Conformal.quantTree (toScores new) n) [α] (store w.qhats)) w.qhats =
        Conformal.store (Conformal.quantTree (toScores new) n) [α] (store w.qhats) := if_pos rfl
    unfold request Conformal.getQhat
    rw [if_neg ha, ho, hst]
    simp only [Option.map_some, List.filter_cons, hs', Option.isNone_some, Bool.false_eq_true, if_false, List.filter_nil, if_true, List.map_cons, List.map_nil, Option.getD_some]

/-! ## Concrete runs -/

/-- Numbers for objects, and a tree that shows what it was made of; ranges of 0 make it fail. -/
def exConf : Ops Nat (Nat × Nat × Nat × Option Nat) Nat Nat where
  cls _ := ("m".toList, "M".toList)
  ser m := .ok m
  create c := if c = ("m".toList, "M".toList) then .ok 0 else .error .keyError
  deser _ d := .ok d
  encSer e := .ok (e + 100)
  encDeser e := if 100 ≤ e then .ok (e - 100) else .error .valueError
  prep td e r s := if r = 0 then .error .valueError else .ok (td, e, r, s)

theorem exConf_model (m : Nat) : ModelOk exConf m := ⟨m, 0, rfl, by simp [exConf], rfl⟩

theorem exConf_enc (w : Wrapper Nat (Nat × Nat × Nat × Option Nat) Nat) : EncOk exConf w := fun e _ => ⟨e + 100, rfl, by simp [exConf]⟩

/-- A calibration: `seed` gives the values, `td` the training data, `rg` the ranges. -/
def exRun (seed td rg : Nat) (fails : Option Attr) : Run Nat where
  checks := Option.none
  training := some td
  value a := if some a = fails then some (.error .runtimeError) else if a = .range then some (.ok (some rg)) else if a = .strataValues ∨ a = .strataBiases then Option.none else some (.ok (some seed))
  unfitted := .ok 0

/-- A new wrapper, and the same after a calibration. -/
def exNew : Wrapper Nat (Nat × Nat × Nat × Option Nat) Nat := init 7 1 2 (.text "a".toList) 0

def exCal : Wrapper Nat (Nat × Nat × Nat × Option Nat) Nat := (calibrate exConf (exRun 3 5 6 Option.none) exNew).1

theorem exCal_ok : calibrate exConf (exRun 3 5 6 Option.none) exNew = (exCal, Option.none) := Prod.ext rfl (by decide +kernel)

theorem exCal_sound : Sound exConf exCal := .calibrated _ _ _ exCal_ok

/-- The example has a tree, an encoder, scores, and no strata. -/
example : exCal.kdtree = some (5, 3, 6, some 3) ∧ exCal.attr .onehot = some 3 ∧ exCal.attr .scores = some 3 ∧ exCal.attr .strataValues = Option.none ∧ treeUsed exCal = exCal.kdtree := by
  decide +kernel

/-- `C83_memory`, `C83_file` and `C83_disk` for the example. -/
example : (∃ d v, serialize exConf "1".toList exCal = .ok d ∧ deserialize exConf "1".toList true d = .ok v ∧ Agree exCal v ∧ v.name = exCal.name ∧ v.qhats = exCal.qhats) ∧
    (∃ f v st, save exConf "1".toList (fun p => p) exCal = .ok f ∧ fromFile exConf "1".toList true 9 (fun p => p) f = .ok (v, st) ∧ Agree exCal v ∧ v.qhats = 9 ∧ st 9 = exCal.qhats ∧
      ∀ p, p ≠ 9 → st p = p) :=
  ⟨C83_memory exCal_sound (exConf_model _) (exConf_enc _) _ _, C83_file exCal_sound (exConf_model _) (exConf_enc _) _ _ _ _ _⟩

/-- `C83_attributes`, `C83_again`, `C83_name_refuted` and `C83_separate`: a wrapper is read. -/
example : ∃ f v st, save exConf "1".toList (fun p => p) exCal = .ok f ∧ fromFile exConf "1".toList false 9 (fun p => p) f = .ok (v, st) ∧ exCal.name = .text "a".toList ∧ 9 ≠ exCal.qhats := by
  obtain ⟨f, v, st, h1, h2, -⟩ := C83_file exCal_sound (exConf_model _) (exConf_enc _) "1".toList false (fun p : Nat => p) (fun p => p) 9
  exact ⟨f, v, st, h1, h2, by decide +kernel, by decide +kernel⟩

/-- `C83_version`. -/
example : ∃ d, serialize exConf "1".toList exCal = .ok d ∧ "2".toList ≠ d.package := by
  obtain ⟨d, hd⟩ := serialize_of (exConf_model _) (exConf_enc exCal) "1".toList
  obtain ⟨m, enc, -, -, rfl⟩ := serialize_ok hd
  exact ⟨_, hd, show "2".toList ≠ "1".toList by decide +kernel⟩

/-- `C83_assigned`: a second calibration without training data leaves ranges and encoder of the first. -/
example : ∃ r : Run Nat, (r.training.isSome → (r.value .onehot).isSome) ∧ (calibrate exConf r exCal).2 = Option.none ∧ (calibrate exConf r exCal).1.attr .range = some 6 ∧
    (calibrate exConf r exCal).1.attr .scores = some 4 ∧ (calibrate exConf r exCal).1.attr .trainingData = Option.none :=
  ⟨{ exRun 4 0 0 Option.none with training := Option.none }, by decide +kernel⟩

/-- `C83_filename_refuted`. -/
example : Npz.npzExt.isSuffixOf "m".toList = false ∧ ∃ disk, saveTo exConf "1".toList (fun p => p) exCal "m".toList (fun _ => Option.none) = .ok disk := by
  obtain ⟨f, v, st, h1, -⟩ := C83_file exCal_sound (exConf_model _) (exConf_enc _) "1".toList false (fun p : Nat => p) (fun p => p) 9
  exact ⟨by decide +kernel, _, by rw [saveTo, h1]⟩

/-- `C83_failed_refuted`: a second calibration with ranges of 0. -/
example : (calibrate exConf (exRun 4 8 0 Option.none) exCal).2 = some .valueError ∧ (calibrate exConf (exRun 4 8 0 Option.none) exCal).1.attr .trainingData = some 8 ∧
    build exConf 8 (calibrate exConf (exRun 4 8 0 Option.none) exCal).1.attr = .error .valueError := by
  decide +kernel

/-- **C83 refuted after a failed calibration.** A calibration that fails before the tree is made leaves the old tree with the new training data. The wrapper read from the file has the tree of the new
data, and so other distances than the one written. -/
theorem C83_stale_refuted : ∃ (r : Run Nat) (e : PyErr) (w' v : Wrapper Nat (Nat × Nat × Nat × Option Nat) Nat) (f : File Nat Nat Nat) (st : Nat → Nat),
    Sound exConf exCal ∧ calibrate exConf r exCal = (w', some e) ∧ save exConf "1".toList (fun p => p) w' = .ok f ∧ fromFile exConf "1".toList true 9 (fun p => p) f = .ok (v, st) ∧
      treeUsed w' = treeUsed exCal ∧ treeUsed v ≠ treeUsed w' := by
  let r := exRun 4 8 6 (some .iqr)
  let w' := (calibrate exConf r exCal).1
  obtain ⟨d, hd⟩ := serialize_of (exConf_model w'.model) (exConf_enc w') "1".toList
  obtain ⟨m, enc, hs, hu, rfl⟩ := serialize_ok hd
  refine ⟨r, .runtimeError, w', ⟨w'.name.stored, w'.model, w'.attr, 9, some (8, 3, 6, some 4)⟩, ⟨⟨"1".toList, exConf.cls w'.model, m, entries w'.attr enc w'.qhats, w'.name.stored⟩, w'.qhats⟩,
    alloc (fun p => p) 9 w'.qhats, exCal_sound, Prod.ext rfl (by decide +kernel), by rw [save, hd], ?_, by decide +kernel, by decide +kernel⟩
  have ht : w'.attr .trainingData = some 8 := by decide +kernel
  have hb : build exConf 8 w'.attr = .ok (8, 3, 6, some 4) := by decide +kernel
  rw [fromFile]
  dsimp only
  rw [entries_reref, deserialize_eq (exConf_model _) (exConf_enc _) hs hu, ht]
  dsimp only
  rw [hb]

/-- `C83_shared_refuted`: the copy is calibrated with other scores, and the quantiles differ. -/
example : ∃ d v v', serialize exConf "1".toList exCal = .ok d ∧ deserialize exConf "1".toList true d = .ok v ∧ calibrate exConf (exRun 4 8 6 Option.none) v = (v', Option.none) ∧
    exCal.attr .scores = some 3 ∧ v'.attr .scores = some 4 := by
  obtain ⟨d, v, h1, h2, h3, -⟩ := C83_memory exCal_sound (exConf_model _) (exConf_enc _) "1".toList true
  obtain ⟨m, enc, hs, hu, rfl⟩ := serialize_ok h1
  obtain ⟨k, hk, rfl⟩ := consistent_back (exConf_model _) (exConf_enc _) (sound_consistent exCal_sound) hs hu "1".toList true exCal.qhats exCal.name
  exact ⟨_, _, (calibrate exConf (exRun 4 8 6 Option.none) ⟨exCal.name, exCal.model, exCal.attr, exCal.qhats, treeUsed exCal⟩).1, h1, hk, Prod.ext rfl (by decide +kernel),
    by decide +kernel, by decide +kernel⟩

/-- Scores with one sample each, for `toScores`. -/
example : Conformal.samples (.leaf ⟨[1, 1], fun _ => some 4⟩) = .ok 1 := rfl

end Verif.Props
