import Verif.Spec.Headings
import Verif.Lemmas.ExportShow
import Verif.Lemmas.MdRegex
import Verif.Lemmas.MdLines
import Verif.Lemmas.View

/-! Lemmas for C87: the lines of the parts of the exported document. -/

namespace Art
open Spec Spec.Export Spec.Headings

/-! ## lines -/

/-- The lines of a text, with the first one begun. -/
def splitRows : Str → Str → List Str
  | acc, [] => [acc]
  | acc, c :: s => if c = '\n' then acc :: splitRows [] s else splitRows (acc ++ [c]) s

/-- A line without the carriage return at its end. -/
def chop (l : Str) : Str := if l.getLast? = some '\r' then l.dropLast else l

theorem splitRows_plain {a : Str} (h : '\n' ∉ a) : ∀ acc b, splitRows acc (a ++ b) = splitRows (acc ++ a) b := by
  induction a with
  | nil => intro acc b; simp
  | cons c a ih =>
    intro acc b
    have hc : c ≠ '\n' := fun e => h (by simp [e])
    rw [List.cons_append, splitRows, if_neg hc, ih (fun hm => h (by simp [hm]))]
    simp

theorem splitRows_append (a : Str) : ∀ acc, ∃ init last, splitRows acc a = init ++ [last] ∧ ∀ b, splitRows acc (a ++ b) = init ++ splitRows last b := by
  induction a with
  | nil => intro acc; exact ⟨[], acc, rfl, fun b => rfl⟩
  | cons c a ih =>
    intro acc
    by_cases hc : c = '\n'
    · obtain ⟨i, l, h1, h2⟩ := ih []
      refine ⟨acc :: i, l, by rw [splitRows, if_pos hc, h1]; rfl, fun b => ?_⟩
      rw [List.cons_append, splitRows, if_pos hc, h2]; rfl
    · obtain ⟨i, l, h1, h2⟩ := ih (acc ++ [c])
      refine ⟨i, l, by rw [splitRows, if_neg hc, h1], fun b => ?_⟩
      rw [List.cons_append, splitRows, if_neg hc, h2]

theorem splitRows_nl (a b : Str) : ∀ acc, splitRows acc (a ++ '\n' :: b) = splitRows acc a ++ splitRows [] b := by
  intro acc
  obtain ⟨i, l, h1, h2⟩ := splitRows_append a acc
  rw [h2, h1, splitRows, if_pos rfl]
  simp

theorem linesAux_chop (acc rest : Str) : linesAux acc ('\n' :: rest) = chop acc.reverse :: linesAux [] rest := by
  unfold chop
  rw [List.getLast?_reverse]
  by_cases h : acc.head? = some '\r'
  · rw [if_pos h]
    cases acc with
    | nil => cases h
    | cons c acc =>
      simp only [List.head?_cons, Option.some.injEq] at h
      subst h
      rw [linesAux]
      simp
  · rw [if_neg h, linesAux_nl _ _ h]

theorem linesAux_rows (rest : Str) : ∀ (t acc : Str), linesAux acc (t ++ '\n' :: rest) = (splitRows acc.reverse t).map chop ++ lines rest := by
  intro t
  induction t with
  | nil =>
    intro acc
    rw [List.nil_append, linesAux_chop]
    rfl
  | cons c t ih =>
    intro acc
    by_cases hc : c = '\n'
    · subst hc
      have e := ih []
      rw [List.cons_append, linesAux_chop, splitRows, if_pos rfl, List.map_cons, List.cons_append, e]
      rfl
    · have e : linesAux acc (c :: (t ++ '\n' :: rest)) = linesAux (c :: acc) (t ++ '\n' :: rest) := by
        rw [linesAux]; exact hc
      rw [List.cons_append, e, ih, splitRows, if_neg hc]
      simp

theorem lines_rows (t rest : Str) : lines (t ++ '\n' :: rest) = (splitRows [] t).map chop ++ lines rest := linesAux_rows rest t []

theorem linesAux_last : ∀ (t acc : Str), ∀ l ∈ splitRows acc.reverse t, l = [] ∨ l ∈ linesAux acc t ∨ chop l ∈ linesAux acc t := by
  intro t
  induction t with
  | nil =>
    intro acc l hl
    simp only [splitRows, List.mem_singleton] at hl
    subst hl
    cases acc with
    | nil => exact Or.inl rfl
    | cons c acc => right; left; rw [linesAux_end _ (by simp)]; simp
  | cons c t ih =>
    intro acc l hl
    by_cases hc : c = '\n'
    · subst hc
      rw [splitRows, if_pos rfl] at hl
      rw [linesAux_chop]
      rcases List.mem_cons.1 hl with rfl | hl
      · right; right; simp
      · rcases ih [] l hl with h | h | h
        · exact Or.inl h
        · right; left; exact List.mem_cons_of_mem _ h
        · right; right; exact List.mem_cons_of_mem _ h
    · have e : linesAux acc (c :: t) = linesAux (c :: acc) t := by rw [linesAux]; exact hc
      rw [splitRows, if_neg hc] at hl
      rw [e]
      exact ih (c :: acc) l (by simpa using hl)

theorem rows_lines {t l : Str} (h : l ∈ splitRows [] t) : l = [] ∨ l ∈ lines t ∨ chop l ∈ lines t := linesAux_last t [] l h

/-! ## lines that do not begin an artifact -/

section
variable {fold : Char → Char} {pre : Str}

theorem nameLine_parts {l : Str} (h : NameLine fold pre l) : ∃ p w n w', IsNameLine fold pre l p w n w' := by
  obtain ⟨p, w, n, w', h1, h2, h3, h4, h5⟩ := h
  exact ⟨p, w, n, w', h1, h2, h3, h4, h5⟩

theorem not_nameLine_nil : ¬ NameLine fold pre [] := fun h => by
  obtain ⟨p, w, n, w', h⟩ := nameLine_parts h
  have := h.hash
  cases this

theorem not_nameLine_hash {l : Str} (h : '#' ∉ l) : ¬ NameLine fold pre l := fun hl => by
  obtain ⟨p, w, n, w', hl⟩ := nameLine_parts hl
  exact h hl.hash

theorem not_nameLine_end {l : Str} {c : Char} (h : l.getLast? = some c) (hw : isWS c = false) (hc : nameCharI c = false) : ¬ NameLine fold pre l := fun hl => by
  obtain ⟨p, w, n, w', hl⟩ := nameLine_parts hl
  obtain ⟨d, h1, h2⟩ := hl.last
  rw [trimEnd_eq_self ⟨c, h, hw⟩, h] at h1
  injection h1 with h1
  rw [h1, h2] at hc
  cases hc

theorem clean_lang {n : Str} (h : Re.Lang nameRe n) : Clean n := clean_name (nameLike_iff.2 h)

theorem not_nameLine_lt (hpre : ∀ c ∈ pre, fold c ≠ fold '<') {l : Str} (h : '<' ∈ l) : ¬ NameLine fold pre l := by
  rintro ⟨p, w, n, w', rfl, h2, h3, h4, h5⟩
  simp only [List.mem_append, List.mem_cons] at h
  rcases h with h | h | h | h | h
  · have : fold '<' ∈ pre.map fold := h2 ▸ List.mem_map_of_mem h
    obtain ⟨c, hc, e⟩ := List.mem_map.1 this
    exact hpre c hc e
  · revert h; decide
  · have := h3 _ h; revert this; decide
  · exact (clean_lang h4).not_mem (by decide) h
  · have := h5 _ h; revert this; decide

theorem nameLine_chop {l : Str} (h : NameLine fold pre l) : NameLine fold pre (chop l) := by
  unfold chop
  split
  · next he =>
    obtain ⟨p, w, n, w', e, h2, h3, h4, h5⟩ := h
    by_cases hw : w' = []
    · subst hw
      obtain ⟨c, hc, hcn⟩ := name_last h4
      exfalso
      have hl : l.getLast? = some c := by
        rw [e, List.append_nil, show p ++ '#' :: (w ++ n) = (p ++ '#' :: w) ++ n from by simp, List.getLast?_append, hc]; rfl
      rw [hl] at he
      injection he with he
      subst he
      revert hcn; decide
    · refine ⟨p, w, n, w'.dropLast, ?_, h2, h3, h4, fun c hc => h5 c (List.dropLast_subset _ hc)⟩
      rw [e, show p ++ '#' :: (w ++ (n ++ w')) = (p ++ '#' :: (w ++ n)) ++ w' from by simp, List.dropLast_append_of_ne_nil hw]
      simp
  · exact h

theorem nameLine_of_chop {l : Str} (h : NameLine fold pre (chop l)) : NameLine fold pre l := by
  unfold chop at h
  split at h
  · next he =>
    obtain ⟨p, w, n, w', e, h2, h3, h4, h5⟩ := h
    refine ⟨p, w, n, w' ++ ['\r'], ?_, h2, h3, h4, fun c hc => ?_⟩
    · have hne : l ≠ [] := fun e => by rw [e] at he; cases he
      have : l = l.dropLast ++ ['\r'] := by
        conv_lhs => rw [← List.dropLast_append_getLast hne]
        congr 2
        rw [List.getLast?_eq_some_getLast hne] at he
        injection he
      rw [this, e]; simp
    · rcases List.mem_append.1 hc with hc | hc
      · exact h5 c hc
      · rw [List.mem_singleton] at hc; subst hc; decide
  · exact h

/-! ## parts of the document -/

/-- A part of a document with the lines in it that begin artifacts. -/
def HeadBlock (fold : Char → Char) (pre s : Str) (hs : List Str) : Prop := ∀ rest, headings fold pre (s ++ rest) = hs ++ headings fold pre rest

theorem headBlock_nil : HeadBlock fold pre [] [] := fun _ => rfl

theorem HeadBlock.append {a b : Str} {h k : List Str} (ha : HeadBlock fold pre a h) (hb : HeadBlock fold pre b k) : HeadBlock fold pre (a ++ b) (h ++ k) := fun rest => by
  rw [List.append_assoc, ha, hb, List.append_assoc]

theorem HeadBlock.all {s : Str} {h : List Str} (hs : HeadBlock fold pre s h) : headings fold pre s = h := by
  have := hs []
  rw [List.append_nil] at this
  rw [this]
  simp [headings, lines, linesAux]

theorem headBlock_quiet {t : Str} (h : ∀ l ∈ splitRows [] t, ¬ NameLine fold pre l) : HeadBlock fold pre (t ++ c!"\n") [] := fun rest => by
  have e : t ++ c!"\n" ++ rest = t ++ '\n' :: rest := by simp
  unfold headings
  rw [e, lines_rows, List.filter_append, List.nil_append]
  convert List.nil_append _
  rw [List.filter_eq_nil_iff]
  intro l hl
  obtain ⟨m, hm, rfl⟩ := List.mem_map.1 hl
  simpa using fun hn => h m hm (nameLine_of_chop hn)

theorem headBlock_any (t : Str) : HeadBlock fold pre (t ++ c!"\n") (headings fold pre (t ++ c!"\n")) := fun rest => by
  have e : t ++ c!"\n" ++ rest = t ++ '\n' :: rest := by simp
  have e' : t ++ c!"\n" = t ++ '\n' :: [] := rfl
  unfold headings
  rw [e, e', lines_rows, lines_rows t [], List.filter_append, List.filter_append]
  simp [lines, linesAux]

theorem headBlock_head {l : Str} (h : NameLine fold pre l) (hn : '\n' ∉ l) (hr : l.getLast? ≠ some '\r') : HeadBlock fold pre (l ++ c!"\n") [l] := fun rest => by
  have e : l ++ c!"\n" ++ rest = l ++ '\n' :: rest := by simp
  unfold headings
  rw [e, lines_cons ⟨hn, hr⟩, List.filter_cons, if_pos (by simpa using h)]
  rfl

/-! ## text in which every `#` is in a line that ends with a character that is not of a name -/

/-- After every `#` the line goes on to a semicolon or an angle bracket at its end. -/
def Shut (s : Str) : Prop := ∀ u v, s = u ++ '#' :: v → ∃ x c y, v = x ++ c :: '\n' :: y ∧ '\n' ∉ x ∧ (c = ';' ∨ c = '>')

theorem shut_free {s : Str} (h : '#' ∉ s) : Shut s := fun u v e => absurd (by rw [e]; simp) h

theorem Shut.append {a b : Str} (ha : Shut a) (hb : Shut b) : Shut (a ++ b) := by
  intro u v e
  rcases List.append_eq_append_iff.1 e with ⟨w, h1, h2⟩ | ⟨w, h1, h2⟩
  · exact hb w v h2
  · cases w with
    | nil =>
      have h2 : '#' :: v = b := by simpa using h2
      exact hb [] v h2.symm
    | cons c w =>
      simp only [List.cons_append, List.cons.injEq] at h2
      obtain ⟨rfl, h2⟩ := h2
      obtain ⟨x, c, y, rfl, h3, h4⟩ := ha u w h1
      exact ⟨x, c, y ++ b, by rw [h2]; simp, h3, h4⟩

theorem shut_flatten {l : List Str} (h : ∀ s ∈ l, Shut s) : Shut l.flatten := by
  induction l with
  | nil => exact shut_free (by simp)
  | cons a l ih => rw [List.flatten_cons]; exact (h a (by simp)).append (ih fun s hs => h s (by simp [hs]))

theorem shut_line {a : Str} {c : Char} (h : '\n' ∉ a) (hc : c = ';' ∨ c = '>') : Shut (a ++ [c, '\n']) := by
  intro u v e
  rcases List.append_eq_append_iff.1 e with ⟨w, h1, h2⟩ | ⟨w, h1, h2⟩
  · exfalso
    have : '#' ∈ [c, '\n'] := by rw [h2]; simp
    rcases hc with rfl | rfl <;> revert this <;> decide
  · cases w with
    | nil =>
      exfalso
      have : '#' ∈ [c, '\n'] := by rw [← List.nil_append [c, '\n'], ← h2]; simp
      rcases hc with rfl | rfl <;> revert this <;> decide
    | cons d w =>
      simp only [List.cons_append, List.cons.injEq] at h2
      obtain ⟨rfl, h2⟩ := h2
      exact ⟨w, c, [], h2, fun hm => h (by rw [h1]; simp [hm]), hc⟩

theorem shut_rows {s : Str} : ∀ acc : Str, '\n' ∉ acc → Shut (acc ++ s) → ∃ init last, splitRows acc s = init ++ [last] ∧ '#' ∉ last ∧ ∀ l ∈ init, ¬ NameLine fold pre l := by
  induction s with
  | nil =>
    intro acc hn hs
    refine ⟨[], acc, rfl, fun hm => ?_, by simp⟩
    obtain ⟨u, v, e⟩ := List.append_of_mem hm
    obtain ⟨x, c, y, rfl, -, -⟩ := hs u v (by simpa using e)
    exact hn (by rw [e]; simp)
  | cons c s ih =>
    intro acc hn hs
    by_cases hc : c = '\n'
    · subst hc
      obtain ⟨i, l, h1, h2, h3⟩ := ih [] (by simp) (fun u v e => hs (acc ++ '\n' :: u) v (by rw [List.nil_append] at e; rw [e]; simp))
      refine ⟨acc :: i, l, by rw [splitRows, if_pos rfl, h1]; rfl, h2, fun m hm => ?_⟩
      rcases List.mem_cons.1 hm with rfl | hm
      · by_cases hh : '#' ∈ m
        · obtain ⟨u, v, rfl⟩ := List.append_of_mem hh
          obtain ⟨x, c, y, e, hx, hc⟩ := hs u (v ++ '\n' :: s) (by simp)
          have hv : '\n' ∉ v := fun hm => hn (by simp [hm])
          have e1 : v ++ '\n' :: s = (x ++ [c]) ++ '\n' :: y := by rw [e]; simp
          have hx' : '\n' ∉ x ++ [c] := by
            rw [List.mem_append, List.mem_singleton]
            rintro (h | h)
            · exact hx h
            · rcases hc with rfl | rfl <;> revert h <;> decide
          have e2 : v = x ++ [c] := by
            rcases List.append_eq_append_iff.1 e1 with ⟨w, h1, h2⟩ | ⟨w, h1, h2⟩
            · cases w with
              | nil => simpa using h1.symm
              | cons d w =>
                simp only [List.cons_append, List.cons.injEq] at h2
                obtain ⟨rfl, -⟩ := h2
                exact absurd (by rw [h1]; simp) hx'
            · cases w with
              | nil => simpa using h1
              | cons d w =>
                simp only [List.cons_append, List.cons.injEq] at h2
                obtain ⟨rfl, -⟩ := h2
                exact absurd (by rw [h1]; simp) hv
          refine not_nameLine_end (c := c) ?_ ?_ ?_
          · rw [e2, show u ++ '#' :: (x ++ [c]) = (u ++ '#' :: x) ++ [c] from by simp, List.getLast?_append]; rfl
          · rcases hc with rfl | rfl <;> decide
          · rcases hc with rfl | rfl <;> decide
        · exact not_nameLine_hash hh
      · exact h3 m hm
    · have e : splitRows acc (c :: s) = splitRows (acc ++ [c]) s := by rw [splitRows, if_neg hc]
      rw [e]
      exact ih (acc ++ [c]) (by simp only [List.mem_append, List.mem_singleton, not_or]; exact ⟨hn, fun e => hc e.symm⟩) (by simpa using hs)

theorem headBlock_shut {s : Str} (h : Shut s) : HeadBlock fold pre (s ++ c!"\n") [] := by
  obtain ⟨i, l, h1, h2, h3⟩ := shut_rows (fold := fold) (pre := pre) [] (by simp) h
  refine headBlock_quiet fun m hm => ?_
  rw [h1] at hm
  rcases List.mem_append.1 hm with hm | hm
  · exact h3 m hm
  · rw [List.mem_singleton] at hm; subst hm; exact not_nameLine_hash h2

/-! ## the text of an artifact -/

/-- What takes the place of a piece does not break the line, except for graphs. -/
def PieceOut : Piece → Str → Prop
  | .plain c, o => o = [c]
  | .sub _, o | .ref _ _, o => '<' ∈ o ∧ '\n' ∉ o
  | .graph _ _, o => Shut o

theorem clean_nl {k : Str} (h : Clean k) : '\n' ∉ k := h.not_mem (by decide)

theorem text_rows (hpre : ∀ c ∈ pre, fold c ≠ fold '<') {bol : Bool} {s : Str} {ps : List Piece} {os : List Str} (hc : Cut bol s ps) (ho : List.Forall₂ PieceOut ps os) :
    ∀ sp op : Str, (bol = true → sp = [] ∧ op = []) → (op = sp ∨ '<' ∈ op ∨ ('#' ∉ op ∧ (s = [] ∨ ∃ r, s = '\n' :: r))) →
      (∀ l ∈ splitRows sp s, ¬ NameLine fold pre l) → ∀ l ∈ splitRows op os.flatten, ¬ NameLine fold pre l := by
  have now : ∀ {sp op s : Str} {t : List Str}, (op = sp ∨ '<' ∈ op ∨ ('#' ∉ op ∧ (s = [] ∨ ∃ r, s = '\n' :: r))) → (∀ l ∈ sp :: t, ¬ NameLine fold pre l) → ¬ NameLine fold pre op := by
    rintro sp op s t (rfl | h | ⟨h, -⟩) hn
    · exact hn op (by simp)
    · exact not_nameLine_lt hpre h
    · exact not_nameLine_hash h
  induction hc generalizing os with
  | nil =>
    cases ho
    intro sp op _ hr hn l hl
    simp only [List.flatten_nil, splitRows, List.mem_singleton] at hl
    subst hl
    exact now (s := []) (t := []) hr (by simpa [splitRows] using hn)
  | @sub bol s rest ps hs hc ih =>
    cases ho with
    | cons h1 h2 =>
      intro sp op _ hr hn
      rw [List.flatten_cons, splitRows_plain h1.2]
      refine ih h2 (sp ++ (c!"[[" ++ s ++ c!"]]")) _ (by simp) (Or.inr (Or.inl (by simp [h1.1]))) ?_
      rw [splitRows_plain] at hn
      · exact hn
      · simp only [List.mem_append, not_or]
        exact ⟨⟨by decide, clean_nl (clean_sub hs)⟩, by decide⟩
  | @ref bol n s rest ps hn' hs hc ih =>
    cases ho with
    | cons h1 h2 =>
      intro sp op _ hr hn
      rw [List.flatten_cons, splitRows_plain h1.2]
      refine ih h2 (sp ++ (c!"[[" ++ n ++ s.getD [] ++ c!"]]")) _ (by simp) (Or.inr (Or.inl (by simp [h1.1]))) ?_
      rw [splitRows_plain] at hn
      · exact hn
      · simp only [List.mem_append, not_or]
        exact ⟨⟨⟨by decide, clean_nl (clean_name hn')⟩, clean_nl (clean_getD hs)⟩, by decide⟩
  | @graph s head body rest ps hg hc ih =>
    cases ho with
    | @cons _ o _ os h1 h2 =>
      intro sp op hb hr hn
      obtain ⟨rfl, rfl⟩ := hb rfl
      obtain ⟨i, l, e1, e2⟩ := splitRows_append o []
      obtain ⟨i', l', e1', e2', e3'⟩ := shut_rows (fold := fold) (pre := pre) [] (by simp) h1
      rw [e1] at e1'
      obtain ⟨rfl, e⟩ := List.append_inj' e1' rfl
      injection e with e
      subst e
      rw [List.flatten_cons, e2]
      obtain ⟨j, m, d1, d2⟩ := splitRows_append (Piece.graph head body).src []
      have es : s = (Piece.graph head body).src ++ rest := by
        rw [hg.1.1]; rfl
      rw [es, d2] at hn
      intro x hx
      rcases List.mem_append.1 hx with hx | hx
      · exact e3' x hx
      · exact ih h2 m l (by simp) (Or.inr (Or.inr ⟨e2', hg.1.2.2.2⟩)) (fun y hy => hn y (List.mem_append_right _ hy)) x hx
  | @plain bol c s ps hp hc ih =>
    cases ho with
    | cons h1 h2 =>
      have h1 : _ = [c] := h1
      subst h1
      intro sp op hb hr hn
      rw [List.flatten_cons]
      show ∀ l ∈ splitRows op (c :: _), _
      by_cases hcn : c = '\n'
      · subst hcn
        rw [splitRows, if_pos rfl] at hn ⊢
        intro l hl
        rcases List.mem_cons.1 hl with rfl | hl
        · exact now hr hn
        · exact ih h2 [] [] (fun _ => ⟨rfl, rfl⟩) (Or.inl rfl) (fun y hy => hn y (List.mem_cons_of_mem _ hy)) l hl
      · rw [splitRows, if_neg hcn] at hn ⊢
        refine ih h2 (sp ++ [c]) (op ++ [c]) (fun h => absurd (by simpa using h) hcn) ?_ hn
        rcases hr with rfl | h | ⟨-, h | ⟨r, h⟩⟩
        · exact Or.inl rfl
        · exact Or.inr (Or.inl (by simp [h]))
        · cases h
        · injection h with h; exact absurd h hcn

end

end Art
