import Verif.Lemmas.Predict
import Verif.Model.Einsum
import Verif.Lemmas.TreeDec
import Mathlib.Algebra.Ring.Int.Defs

/-! # C72: predictions do not depend on earlier calls -/

namespace Verif.Props
open Batch Predict PredictSpec

variable {P W S K α γ D Sig : Type} [DecidableEq Sig]

/-- **C72** After any history of predictions, gradients, edits, and changes of parameters, state and random key that does
not change the modules behind the model's back, a prediction is what a model without any memory computes from the present
modules, parameters, state and key with the given arguments. -/
theorem C72_call (sem : Sem P W S K α γ D Sig) (hf : ∀ wrt p q, sem.grad wrt true p q = sem.grad wrt false p q) (p : P) (w : W) (s : S) (k : K)
    (ops : List (Op P W S K α D)) (hq : AllQuiet sem ⟨p, w, s, k, false⟩ ops) (a : Args K α D) :
    values (call sem (ops.foldl (step sem) (newMach p w s k)) a).1 = direct sem sem.run (ops.foldl (plainStep sem) ⟨p, w, s, k, false⟩) a :=
  (call_rep (history_rep hf ops (rep_new sem p w s k) hq) a).1

/-- **C72** The same for gradients, whatever was asked for before, and whichever of the two modes is used. -/
theorem C72_grad (sem : Sem P W S K α γ D Sig) (hf : ∀ wrt p q, sem.grad wrt true p q = sem.grad wrt false p q) (p : P) (w : W) (s : S) (k : K)
    (ops : List (Op P W S K α D)) (hq : AllQuiet sem ⟨p, w, s, k, false⟩ ops) (wrt : Wrt) (a : Args K α D) :
    values (gradCall sem wrt (ops.foldl (step sem) (newMach p w s k)) a).1 =
      direct sem (sem.grad wrt true) (ops.foldl (plainStep sem) ⟨p, w, s, k, false⟩) a :=
  (grad_rep hf (history_rep hf ops (rep_new sem p w s k) hq) wrt a).1

/-- **C72** Modules, parameters, state and key are those the user put in: calls change the state only if asked to. -/
theorem C72_contents (sem : Sem P W S K α γ D Sig) (hf : ∀ wrt p q, sem.grad wrt true p q = sem.grad wrt false p q) (p : P) (w : W) (s : S) (k : K)
    (ops : List (Op P W S K α D)) (hq : AllQuiet sem ⟨p, w, s, k, false⟩ ops) :
    let m := ops.foldl (step sem) (newMach p w s k)
    let pl := ops.foldl (plainStep sem) ⟨p, w, s, k, false⟩
    m.prog = pl.prog ∧ m.params = pl.params ∧ m.state = pl.state ∧ m.rng = pl.rng :=
  let h := history_rep hf ops (rep_new sem p w s k) hq
  ⟨h.prog, h.params, h.state, h.rng⟩

/-- **C72, defect**: a model that was called and whose modules are then changed behind its back still uses the function
built from the old modules; for arguments of a known signature it uses the old modules altogether. -/
theorem C72_touch_defect (sem : Sem P W S K α γ D Sig) (p q : P) (w w' : W) (s s' : S) (k : K) (a b : Args K α D) (X Y : Leaves α)
    (ha : sem.verify p a.X = .ok ()) (hb : sem.verify q b.X = .ok ()) (hX : sem.cast a.dtype a.X = .ok X) (hY : sem.cast b.dtype b.X = .ok Y)
    (hX0 : X ≠ []) (hY0 : Y ≠ []) (ho : a.opts = ⟨none, false⟩) (ho' : b.opts = ⟨none, false⟩) (hu : a.updateState = false) :
    values (call sem (step sem (step sem (newMach p w s k) (.call a)) (.touch q w' s')) b).1 =
      .ok (sem.run p (if sem.sig w' Y s' = sem.sig w X s then p else q) w' (theKey sem k b.rng) Y s') := by
  have one : ∀ (f : Leaves α → S × Jit P Sig → Leaves γ × (S × Jit P Sig)) (Z : Leaves α) (t : S × Jit P Sig), Z ≠ [] →
      autobatch sem.isScalar f none false Z t = .ok (f Z t) := fun f Z t hZ => by
    cases Z with
    | nil => exact absurd rfl hZ
    | cons z Z => rfl
  simp only [step, newMach, call, ha, hX, ho, chooseAuto, one _ _ _ hX0, hu, Bool.false_eq_true, if_false, Option.getD_none, hb, hY, ho']
  simp only [if_true, Option.getD_some, one _ _ _ hY0]
  simp only [jitted, Jit.enter, List.lookup, values, Except.map]
  split
  · rename_i x hl
    split at hl
    · rename_i hs
      cases hl
      rw [beq_iff_eq] at hs
      rw [if_pos hs]
    · cases hl
  · rename_i hl
    split at hl
    · cases hl
    · rename_i hs
      rw [if_neg (by intro h; rw [h] at hs; simp at hs)]

/-- **C72, defect**: the display arguments of a call are those of the earlier call with the same batch options. -/
theorem C72_display_defect (sem : Sem P W S K α γ D Sig) (p : P) (w : W) (s : S) (k : K) (a b : Args K α D) (ho : b.opts = a.opts)
    (r r' : Shown γ S) (h : (call sem (newMach p w s k) a).1 = .ok r) (h' : (call sem (call sem (newMach p w s k) a).2 b).1 = .ok r') :
    r'.display = a.display := by
  have key : (call sem (newMach p w s k) a).2.auto = some (a.opts, a.display) := by
    simp only [call, newMach] at h ⊢
    cases hv : sem.verify p a.X with
    | error e => rw [hv] at h; cases h
    | ok _ =>
      rw [hv] at h
      simp only [] at h ⊢
      cases hx : sem.cast a.dtype a.X with
      | error e => rw [hx] at h; cases h
      | ok X =>
        rw [hx] at h
        simp only [chooseAuto] at h ⊢
        split at h
        · cases h
        · simp only []
          split <;> rfl
  generalize (call sem (newMach p w s k) a).2 = m at key h'
  simp only [call, key, chooseAuto, ho, if_true] at h'
  split at h'
  · cases h'
  · split at h'
    · cases h'
    · split at h'
      · cases h'
      · cases h'; rfl

/-! ### A module with a fixed array -/

/-- Rows as a two-dimensional array. -/
def ofRows (d : Nat) (rows : List (List Int)) : NArr Int := ⟨[rows.length, d], fun i => match i with
  | [a, b] => (rows.getD a []).getD b 0
  | _ => 0⟩

/-- A two-dimensional array as rows. -/
def toRows (x : NArr Int) : List (List Int) :=
  (List.range (x.shape.getD 0 0)).map fun a => (List.range (x.shape.getD 1 0)).map fun b => x.val [a, b]

/-- A vector. -/
def vec (l : List Int) : NArr Int := ⟨[l.length], fun i => match i with
  | [a] => l.getD a 0
  | _ => 0⟩

/-- `Einsum("i,i->i", params, trainable=False)` for samples with `d` features (modules/einsum.py:626-680): the fixed array is
read when the function is traced. `set_params` replaces it (819-820). -/
def fixedSem (d : Nat) : Sem (NArr Int) (NArr Int) Unit Unit (List Int) (List Int) Unit (Nat × Nat) where
  verify _ _ := .ok ()
  run _ q _ _ X s := (X.map fun rows => match Einsum.call (.leaf "i,i->i".toList) (.arr q) (.leaf [d]) (.leaf (ofRows d rows)) with
    | .ok y => toRows y
    | .error _ => [], s)
  grad _ _ _ _ _ _ X s := (X.map fun rows => rows.map fun _ => [], s)
  pick _ := true
  sig _ X _ := (X.length, (X.getD 0 []).length)
  cast _ X := .ok X
  key _ := ()
  isScalar _ := false
  store _ w := w

/-- A prediction for three samples. -/
def fixedArgs : Args Unit (List Int) Unit := ⟨[[[1, 2], [3, 4], [5, 6]]], (), .none, false, ⟨none, false⟩, ⟨false, [], true, false⟩, none⟩

/-- Setting the array before the first prediction, editing the model and predicting again is a quiet history. -/
example : (∀ wrt p q, (fixedSem 2).grad wrt true p q = (fixedSem 2).grad wrt false p q) ∧
    AllQuiet (fixedSem 2) ⟨vec [1, 1], vec [1, 1], (), (), false⟩ [Op.setParams (vec [2, 3]), Op.call fixedArgs, Op.grad .input fixedArgs,
      Op.edit (vec [5, 7]) (vec [5, 7]) (), Op.touch (vec [5, 8]) (vec [5, 8]) (), Op.call fixedArgs, Op.setState (), Op.setRng ()] :=
  ⟨fun _ _ _ => rfl, (fun h => (by cases h)), trivial, trivial, trivial, (fun h => (by cases h)), trivial, trivial, trivial, trivial⟩

/-- The hypotheses of `C72_touch_defect` and `C72_display_defect` hold for the fixed array. -/
example : (call (fixedSem 2) (newMach (vec [1, 1]) (vec [1, 1]) () ()) fixedArgs).1.toBool = true ∧
    values (call (fixedSem 2) (step (fixedSem 2) (step (fixedSem 2) (newMach (vec [1, 1]) (vec [1, 1]) () ()) (.call fixedArgs)) (.touch (vec [2, 2]) (vec [2, 2]) ())) fixedArgs).1 =
      .ok ([[[1, 2], [3, 4], [5, 6]]], ()) := by
  constructor <;> decide +kernel

/-- **C72, refuted**: a model with a fixed array predicts with the old array after `set_params`, if it predicted as many
samples before; a model without memory uses the new array. -/
theorem C72_fixed_array_refuted :
    let ops := [Op.call fixedArgs, Op.setParams (vec [10, 100])]
    values (call (fixedSem 2) (ops.foldl (step (fixedSem 2)) (newMach (vec [1, 1]) (vec [1, 1]) () ())) fixedArgs).1 =
        .ok ([[[1, 2], [3, 4], [5, 6]]], ()) ∧
      direct (fixedSem 2) (fixedSem 2).run (ops.foldl (plainStep (fixedSem 2)) ⟨vec [1, 1], vec [1, 1], (), (), false⟩) fixedArgs =
        .ok ([[[10, 200], [30, 400], [50, 600]]], ()) := by
  constructor <;> decide +kernel

end Verif.Props
