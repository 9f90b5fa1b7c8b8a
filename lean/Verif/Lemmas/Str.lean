import Verif.Model.Str

namespace Verif

theorem splitOn_ne_nil (sep : Char) (s : Str) : splitOn sep s ≠ [] := by
  cases s with
  | nil => simp [splitOn]
  | cons c cs =>
    simp only [splitOn]
    split
    · simp
    · split <;> simp

theorem joinWith_splitOn (sep : Char) (s : Str) : joinWith sep (splitOn sep s) = s := by
  induction s with
  | nil => rfl
  | cons c cs ih =>
    simp only [splitOn]
    have hne := splitOn_ne_nil sep cs
    split
    · next h =>
      subst h
      cases hsp : splitOn c cs with
      | nil => exact absurd hsp hne
      | cons w ws => simp only [joinWith, List.nil_append]; rw [← hsp, ih]
    · cases hsp : splitOn sep cs with
      | nil => exact absurd hsp hne
      | cons w ws =>
        simp only
        rw [hsp] at ih
        cases ws with
        | nil => simp only [joinWith] at ih ⊢; rw [ih]
        | cons w' ws => simp only [joinWith] at ih ⊢; rw [← ih]; rfl

theorem splitOn_noSep (sep : Char) (w : Str) (h : sep ∉ w) : splitOn sep w = [w] := by
  induction w with
  | nil => rfl
  | cons c cs ih =>
    simp only [List.mem_cons, not_or] at h
    simp only [splitOn, ih h.2]
    rw [if_neg (fun e => h.1 e.symm)]

theorem splitOn_append (sep : Char) (w : Str) (h : sep ∉ w) (s : Str) :
    splitOn sep (w ++ sep :: s) = w :: splitOn sep s := by
  induction w with
  | nil => simp [splitOn]
  | cons c cs ih =>
    simp only [List.mem_cons, not_or] at h
    simp only [List.cons_append, splitOn, ih h.2]
    rw [if_neg (fun e => h.1 e.symm)]

theorem splitOn_joinWith (sep : Char) (ws : List Str) (hne : ws ≠ []) (h : ∀ w ∈ ws, sep ∉ w) :
    splitOn sep (joinWith sep ws) = ws := by
  induction ws with
  | nil => exact absurd rfl hne
  | cons w ws ih =>
    cases ws with
    | nil => exact splitOn_noSep sep w (h w (by simp))
    | cons w' ws =>
      simp only [joinWith]
      rw [splitOn_append _ _ (h w (by simp)), ih (by simp) (fun x hx => h x (List.mem_cons_of_mem _ hx))]

theorem splitOn_mem_noSep (sep : Char) (s : Str) : ∀ w ∈ splitOn sep s, sep ∉ w := by
  induction s with
  | nil => simp [splitOn]
  | cons c cs ih =>
    simp only [splitOn]
    split
    · intro w hw
      rcases List.mem_cons.1 hw with rfl | hw
      · simp
      · exact ih w hw
    · next hc =>
      cases hsp : splitOn sep cs with
      | nil => exact absurd hsp (splitOn_ne_nil sep cs)
      | cons v vs =>
        simp only
        intro w hw
        rw [hsp] at ih
        rcases List.mem_cons.1 hw with rfl | hw
        · have := ih v (by simp)
          simp only [List.mem_cons, not_or]
          exact ⟨fun e => hc e.symm, this⟩
        · exact ih w (List.mem_cons_of_mem _ hw)

theorem joinWith_append (sep : Char) (a b : List Str) (ha : a ≠ []) (hb : b ≠ []) :
    joinWith sep (a ++ b) = joinWith sep a ++ sep :: joinWith sep b := by
  induction a with
  | nil => exact absurd rfl ha
  | cons w ws ih =>
    cases ws with
    | nil =>
      cases b with
      | nil => exact absurd rfl hb
      | cons x xs => rfl
    | cons w' ws =>
      have := ih (by simp)
      simp only [List.cons_append, joinWith] at this ⊢
      rw [this, List.append_assoc]; rfl

end Verif
