import Verif.Model.ExpandNames
import Verif.Lemmas.IMap

/-! Helper lemmas about the collapsed name parser. -/

namespace Art

/-- The characters the parser skips. -/
def isSkip (c : Char) : Bool := c == ' ' || c == '\n' || c == '\r'

/-- Remove the characters that the parser skips. -/
def strip (s : Str) : Str := s.filter (fun c => !isSkip c)

/-- The characters with a meaning of their own. -/
def isMeta (c : Char) : Bool := c == '[' || c == ']' || c == ','

theorem isSkip_iff {c : Char} : isSkip c = true ↔ (c = ' ' ∨ c = '\n' ∨ c = '\r') := by
  simp [isSkip, or_assoc]

theorem splitComma_ne_nil (s : Str) : splitComma s ≠ [] := by
  cases s with
  | nil => simp [splitComma]
  | cons c s =>
    simp only [splitComma]
    split
    · simp
    · split <;> simp

theorem splitComma_append_comma (a b : Str) : splitComma (a ++ ',' :: b) = splitComma a ++ splitComma b := by
  induction a with
  | nil => simp [splitComma]
  | cons c a ih =>
    simp only [List.cons_append, splitComma, ih]
    split
    · simp
    · cases h : splitComma a with
      | nil => exact absurd h (splitComma_ne_nil a)
      | cons g gs => simp

theorem pieces_append_comma (a b : Str) : pieces (a ++ ',' :: b) = pieces a ++ pieces b := by
  simp [pieces, splitComma_append_comma]

@[simp] theorem pieces_nil : pieces [] = [] := by simp [pieces, splitComma]

theorem splitComma_plain {w : Str} (h : ',' ∉ w) : splitComma w = [w] := by
  induction w with
  | nil => rfl
  | cons c w ih =>
    simp only [List.mem_cons, not_or] at h
    simp only [splitComma, ih h.2]
    rw [if_neg (fun e => h.1 e.symm)]

theorem pieces_plain {w : Str} (h : ',' ∉ w) : pieces w = if w = [] then [] else [w] := by
  unfold pieces
  rw [splitComma_plain h]
  by_cases hw : w = [] <;> simp [hw]

/-- Output accumulated so far: empty or terminated by a comma. -/
def Closed (out : Str) : Prop := out = [] ∨ ∃ o, out = o ++ [',']

theorem pieces_closed {out : Str} (h : Closed out) (x : Str) : pieces (out ++ x) = pieces out ++ pieces x := by
  rcases h with rfl | ⟨o, rfl⟩
  · simp
  · have h1 : o ++ [','] ++ x = o ++ ',' :: x := by simp
    rw [h1, pieces_append_comma]
    have h2 : pieces (o ++ [',']) = pieces o := by
      have := pieces_append_comma o []
      simpa using this
    rw [h2]

theorem mem_pieces_no_comma {s p : Str} (h : p ∈ pieces s) : ',' ∉ p ∧ p ≠ [] := by
  unfold pieces at h
  rw [List.mem_filter] at h
  refine ⟨?_, by simpa using h.2⟩
  have := h.1
  clear h
  induction s generalizing p with
  | nil => simp [splitComma] at this; simp [this]
  | cons c s ih =>
    simp only [splitComma] at this
    split at this
    · rcases List.mem_cons.1 this with rfl | h
      · simp
      · exact ih h
    · rename_i hc
      cases hs : splitComma s with
      | nil => exact absurd hs (splitComma_ne_nil s)
      | cons g gs =>
        rw [hs] at this ih
        simp only at this
        rcases List.mem_cons.1 this with rfl | h
        · simp only [List.mem_cons, not_or]
          exact ⟨fun e => hc e.symm, ih (by simp)⟩
        · exact ih (by simp [h])

theorem closed_flatMap {out cur : Str} (h : Closed out) (ps : List Str) :
    Closed (out ++ ps.flatMap (fun p => cur ++ p ++ [','])) := by
  rcases List.eq_nil_or_concat ps with rfl | ⟨init, x, rfl⟩
  · simpa using h
  · right
    exact ⟨out ++ (init.flatMap (fun p => cur ++ p ++ [','])) ++ (cur ++ x), by simp⟩

theorem pieces_flatMap {cur : Str} (hc : ',' ∉ cur) (hne : cur ≠ []) (ps : List Str)
    (hps : ∀ p ∈ ps, ',' ∉ p) :
    pieces (ps.flatMap (fun p => cur ++ p ++ [','])) = ps.map (fun p => cur ++ p) := by
  induction ps with
  | nil => simp
  | cons p ps ih =>
    have h1 : (p :: ps).flatMap (fun p => cur ++ p ++ [',']) =
        (cur ++ p) ++ ',' :: ps.flatMap (fun p => cur ++ p ++ [',']) := by simp
    rw [h1, pieces_append_comma, ih (fun q hq => hps q (by simp [hq])), pieces_plain]
    · simp [hne]
    · simp only [List.mem_append, not_or]
      exact ⟨hc, hps p (by simp)⟩

/-- No fuel problem: with more fuel than characters the parser answers, and consumes input. -/
theorem parse_fuel (f : Nat) : ∀ s b out cur, s.length < f →
    parseCollapsed f s b out cur ≠ .panic ∧
    ∀ ps rest, parseCollapsed f s b out cur = .ok (ps, rest) → rest.length ≤ s.length := by
  induction f with
  | zero => intro s b out cur h; omega
  | succ f ih =>
    intro s b out cur h
    cases s with
    | nil =>
      simp only [parseCollapsed]
      constructor
      · split <;> simp
      · intro ps rest he
        split at he
        · simp at he
        · simp at he; simp [he.2]
    | cons c s =>
      have hl : s.length < f := by simp at h; omega
      simp only [parseCollapsed]
      split
      · refine ⟨(ih _ _ _ _ hl).1, fun ps rest he => ?_⟩
        have := (ih _ _ _ _ hl).2 ps rest he
        simp; omega
      · split
        · split
          · simp
          · have h1 := ih s true [] [] hl
            split
            · rename_i ps rest hr
              have hlen := h1.2 ps rest hr
              have h2 := ih rest b (out ++ ps.flatMap (fun p => cur ++ p ++ [','])) [] (by omega)
              refine ⟨h2.1, fun ps' rest' he => ?_⟩
              have := h2.2 ps' rest' he
              simp; omega
            · simp
            · rename_i hr; exact absurd hr h1.1
        · split
          · split
            · simp
            · refine ⟨by simp, fun ps rest he => ?_⟩
              simp at he; simp [he.2]
          · split
            · refine ⟨(ih _ _ _ _ hl).1, fun ps rest he => ?_⟩
              have := (ih _ _ _ _ hl).2 ps rest he
              simp; omega
            · refine ⟨(ih _ _ _ _ hl).1, fun ps rest he => ?_⟩
              have := (ih _ _ _ _ hl).2 ps rest he
              simp; omega

/-- More fuel does not change the answer. -/
theorem parse_mono (f : Nat) : ∀ g s b out cur, f ≤ g → s.length < f →
    parseCollapsed g s b out cur = parseCollapsed f s b out cur := by
  induction f with
  | zero => intro g s b out cur _ h; omega
  | succ f ih =>
    intro g s b out cur hg h
    obtain ⟨g, rfl⟩ : ∃ g', g = g' + 1 := ⟨g - 1, by omega⟩
    have hg' : f ≤ g := by omega
    cases s with
    | nil => simp [parseCollapsed]
    | cons c s =>
      have hl : s.length < f := by simp at h; omega
      simp only [parseCollapsed]
      rw [ih g s b out cur hg' hl, ih g s true [] [] hg' hl, ih g s b (out ++ cur ++ [',']) [] hg' hl,
        ih g s b out (cur ++ [c]) hg' hl]
      cases hr : parseCollapsed f s true [] [] with
      | ok q =>
        obtain ⟨ps, rest⟩ := q
        have := (parse_fuel f s true [] [] hl).2 ps rest hr
        simp only
        rw [ih g rest b _ [] hg' (by omega)]
      | err e => rfl
      | panic => rfl

/-- Skipped characters do not matter. -/
theorem parse_strip (f : Nat) : ∀ s b out cur, s.length < f →
    (∀ ps rest, parseCollapsed f s b out cur = .ok (ps, rest) →
      parseCollapsed f (strip s) b out cur = .ok (ps, strip rest)) ∧
    (∀ e, parseCollapsed f s b out cur = .err e → parseCollapsed f (strip s) b out cur = .err e) := by
  induction f with
  | zero => intro s b out cur h; omega
  | succ f ih =>
    intro s b out cur h
    cases s with
    | nil =>
      simp only [strip, List.filter_nil]
      constructor
      · intro ps rest he
        rw [he]
        simp only [parseCollapsed] at he
        split at he
        · simp at he
        · simp at he; simp [he.2]
      · intro e he; exact he
    | cons c s =>
      have hl : s.length < f := by simp at h; omega
      have hls : (strip s).length ≤ s.length := List.length_filter_le _ _
      by_cases hskip : c = ' ' ∨ c = '\n' ∨ c = '\r'
      · have h1 : strip (c :: s) = strip s := by
          simp [strip, isSkip_iff.2 hskip]
        have h2 : ∀ b out cur, parseCollapsed (f + 1) (c :: s) b out cur = parseCollapsed f s b out cur := by
          intro b out cur; simp only [parseCollapsed]; rw [if_pos hskip]
        rw [h1, h2, parse_mono f (f+1) (strip s) b out cur (by omega) (by omega)]
        exact ih s b out cur hl
      · have h1 : strip (c :: s) = c :: strip s := by
          have : isSkip c = false := by rw [Bool.eq_false_iff, Ne, isSkip_iff]; exact hskip
          simp [strip, this]
        rw [h1]
        simp only [parseCollapsed, if_neg hskip]
        by_cases hb : c = '['
        · simp only [if_pos hb]
          by_cases hcur : cur = []
          · simp [if_pos hcur]
          · simp only [if_neg hcur]
            have i1 := ih s true [] [] hl
            cases hr : parseCollapsed f s true [] [] with
            | ok q =>
              obtain ⟨ps, rest⟩ := q
              have hlen := (parse_fuel f s true [] [] hl).2 ps rest hr
              rw [i1.1 ps rest hr]
              exact ih rest b _ [] (by omega)
            | err e => rw [i1.2 e hr]; simp
            | panic => simp
        · simp only [if_neg hb]
          by_cases hcb : c = ']'
          · simp only [if_pos hcb]
            cases b <;> simp
          · simp only [if_neg hcb]
            by_cases hcm : c = ','
            · simp only [if_pos hcm]
              exact ih s b _ [] hl
            · simp only [if_neg hcm]
              exact ih s b _ _ hl

end Art
