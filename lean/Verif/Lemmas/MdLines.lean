import Verif.Model.Raw
import Verif.Lemmas.Text
import Verif.Lemmas.Scan

/-! Helper lemmas for markdown: splitting into lines and joining, the line patterns. -/

namespace Art

/-! ### lines -/

@[simp] theorem joinLines_nil : joinLines [] = [] := rfl
@[simp] theorem joinLines_one (l : Str) : joinLines [l] = l := by simp [joinLines, List.intercalate]
theorem joinLines_cons (l : Str) {ls : List Str} (h : ls ≠ []) : joinLines (l :: ls) = l ++ '\n' :: joinLines ls := by
  cases ls with
  | nil => exact absurd rfl h
  | cons a ls => simp [joinLines, List.intercalate, List.intersperse]

theorem joinLines_append {l l' : List Str} (h : l ≠ []) (h' : l' ≠ []) :
    joinLines (l ++ l') = joinLines l ++ '\n' :: joinLines l' := by
  induction l with
  | nil => exact absurd rfl h
  | cons a l ih =>
    by_cases hl : l = []
    · subst hl
      simp [joinLines_cons a h']
    · rw [List.cons_append, joinLines_cons a (by simp [hl]), joinLines_cons a hl, ih hl]
      simp

theorem joinLines_eq_nil {l : List Str} (h : joinLines l = []) : l = [] ∨ l = [[]] := by
  cases l with
  | nil => exact Or.inl rfl
  | cons a l =>
    by_cases hl : l = []
    · subst hl; simp at h; subst h; exact Or.inr rfl
    · rw [joinLines_cons a hl] at h; simp at h

theorem linesAux_line (acc l : Str) (h : '\n' ∉ l) (rest : Str) :
    linesAux acc (l ++ rest) = linesAux (l.reverse ++ acc) rest := by
  induction l generalizing acc with
  | nil => rfl
  | cons c l ih =>
    have hc : c ≠ '\n' := fun e => h (by simp [e])
    have e : linesAux acc (c :: (l ++ rest)) = linesAux (c :: acc) (l ++ rest) := by
      rw [linesAux]
      exact hc
    rw [List.cons_append, e, ih (c :: acc) (fun hm => h (by simp [hm]))]
    simp

theorem linesAux_nl (acc rest : Str) (h : acc.head? ≠ some '\r') :
    linesAux acc ('\n' :: rest) = acc.reverse :: linesAux [] rest := by
  rw [linesAux]
  rintro a rfl
  simp at h

theorem linesAux_end (acc : Str) (h : acc ≠ []) : linesAux acc [] = [acc.reverse] := by
  cases acc with
  | nil => exact absurd rfl h
  | cons a l => rw [linesAux]; simp

/-- Lines as they can be written and read back. -/
def LineOk (l : Str) : Prop := '\n' ∉ l ∧ l.getLast? ≠ some '\r'

theorem lines_cons {l : Str} (h : LineOk l) (rest : Str) : lines (l ++ '\n' :: rest) = l :: lines rest := by
  unfold lines
  rw [linesAux_line [] l h.1, List.append_nil, linesAux_nl _ _ (by rw [List.head?_reverse]; exact h.2),
    List.reverse_reverse]

theorem lines_last {l : Str} (h : '\n' ∉ l) (hne : l ≠ []) : lines l = [l] := by
  unfold lines
  have := linesAux_line [] l h []
  rw [List.append_nil] at this
  rw [this, List.append_nil, linesAux_end _ (by simpa using hne), List.reverse_reverse]

/-- Reading back written lines. -/
theorem lines_joinLines {ls : List Str} (h : ∀ l ∈ ls, LineOk l) (hlast : ls.getLast? ≠ some []) :
    lines (joinLines ls) = ls := by
  induction ls with
  | nil => rfl
  | cons l ls ih =>
    by_cases hl : ls = []
    · subst hl
      rw [joinLines_one]
      exact lines_last (h l (by simp)).1 (fun e => hlast (by simp [e]))
    · rw [joinLines_cons l hl, lines_cons (h l (by simp)), ih (fun x hx => h x (by simp [hx]))]
      intro e
      apply hlast
      rw [List.getLast?_cons_of_ne_nil hl]
      exact e

/-- The lines of a text without final newline and without carriage returns before newlines. -/
theorem exists_lines (s : Str) : ∃ ls, ls ≠ [] ∧ (∀ l ∈ ls, '\n' ∉ l) ∧ s = joinLines ls := by
  induction s with
  | nil => exact ⟨[[]], by simp, by simp, rfl⟩
  | cons c s ih =>
    obtain ⟨ls, hne, h, rfl⟩ := ih
    by_cases hc : c = '\n'
    · subst hc
      refine ⟨[] :: ls, by simp, ?_, by rw [joinLines_cons _ hne]; rfl⟩
      intro l hl
      rcases List.mem_cons.1 hl with rfl | hl
      · simp
      · exact h l hl
    · cases ls with
      | nil => exact absurd rfl hne
      | cons a ls =>
        refine ⟨(c :: a) :: ls, by simp, ?_, ?_⟩
        · intro l hl
          rcases List.mem_cons.1 hl with rfl | hl
          · have := h a (by simp)
            simp [this, Ne.symm hc]
          · exact h l (by simp [hl])
        · by_cases hls : ls = []
          · subst hls; simp
          · rw [joinLines_cons _ hls, joinLines_cons _ hls]; rfl

theorem mem_joinLines_infix {ls : List Str} {l : Str} (h : l ∈ ls.dropLast) : (l ++ ['\n']) <:+: joinLines ls := by
  induction ls with
  | nil => simp at h
  | cons a ls ih =>
    by_cases hl : ls = []
    · subst hl; simp at h
    · rw [joinLines_cons a hl]
      rw [List.dropLast_cons_of_ne_nil hl] at h
      rcases List.mem_cons.1 h with rfl | h
      · exact ⟨[], joinLines ls, by simp⟩
      · obtain ⟨u, v, e⟩ := ih h
        exact ⟨a ++ '\n' :: u, v, by rw [← e]; simp⟩

theorem joinLines_last {ls : List Str} {l : Str} (h : ls.getLast? = some l) : ∃ u, joinLines ls = u ++ l := by
  induction ls with
  | nil => simp at h
  | cons a ls ih =>
    by_cases hl : ls = []
    · subst hl; simp at h; exact ⟨[], by simp [h]⟩
    · rw [List.getLast?_cons_of_ne_nil hl] at h
      obtain ⟨u, e⟩ := ih h
      exact ⟨a ++ '\n' :: u, by rw [joinLines_cons a hl, e]; simp⟩

/-! ### trimming -/

theorem trimEnd_eq_self {s : Str} (h : ∃ c, s.getLast? = some c ∧ isWS c = false) : trimEnd s = s := by
  obtain ⟨c, hc, hw⟩ := h
  obtain ⟨t, rfl⟩ : ∃ t, s = t ++ [c] := by
    rw [List.getLast?_eq_some_iff] at hc; exact hc
  exact trimEnd_of_last hw

theorem trimEnd_last' {s : Str} (h : trimEnd s ≠ []) : ∃ c, (trimEnd s).getLast? = some c ∧ isWS c = false := by
  obtain ⟨t, c, e, hc⟩ := trimEnd_last s h
  exact ⟨c, by rw [e]; simp, hc⟩

/-- Only the part after the last visible character matters. -/
theorem trimEnd_append (a : Str) {b : Str} (h : trimEnd b ≠ []) : trimEnd (a ++ b) = a ++ trimEnd b := by
  obtain ⟨w, hw, e⟩ := trimEnd_split b
  obtain ⟨t, c, e2, hc⟩ := trimEnd_last b h
  conv_lhs => rw [e]
  rw [← List.append_assoc, trimEnd_append_ws _ _ hw, e2, ← List.append_assoc, trimEnd_of_last hc]

end Art
