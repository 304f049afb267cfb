import Verif.Props.App
import Verif.Lemmas.Written
import Verif.Props.Modify

/-!
# Properties C34 and C35: `art ls`
-/

namespace Art.Spec

/-- The fields of an artifact. -/
inductive Field where
  | name | file | subnames | parts | partof | impl | text
  deriving DecidableEq, Repr

/-- The letter for a field. -/
def Field.letter : Field → Char
  | .name => 'N'
  | .file => 'F'
  | .subnames => 'S'
  | .parts => 'P'
  | .partof => 'O'
  | .impl => 'I'
  | .text => 'T'

/-- The word for a field. -/
def Field.word : Field → Str
  | .name => c!"name"
  | .file => c!"file"
  | .subnames => c!"subnames"
  | .parts => c!"parts"
  | .partof => c!"partof"
  | .impl => c!"impl"
  | .text => c!"text"

/-- Whether a field is selected. -/
def Selected (f : Flags) : Field → Prop
  | .name => f.name = true
  | .file => f.file = true
  | .subnames => f.subnames = true
  | .parts => f.parts = true
  | .partof => f.partof = true
  | .impl => f.impl = true
  | .text => f.text = true

/-- `w` stands between two commas of `s` (or the ends). -/
def Between (s w : Str) : Prop :=
  ',' ∉ w ∧ ∃ pre post, s = pre ++ w ++ post ∧ (pre = [] ∨ ∃ p, pre = p ++ [',']) ∧ (post = [] ∨ ∃ q, post = ',' :: q)

/-- A capital letter. -/
def Capital (c : Char) : Prop := 'A' ≤ c ∧ c ≤ 'Z'

/-- The words of a selection: separated by commas; or single letters, if there are capitals; or the whole. -/
inductive Word (s : Str) : Str → Prop
  | comma (w) : ',' ∈ s → w ≠ [] → Between s w → Word s w
  | letter (c) : ',' ∉ s → (∃ d ∈ s, Capital d) → c ∈ s → Word s [c]
  | whole : ',' ∉ s → (∀ d ∈ s, ¬ Capital d) → Word s s

/-- The selection names the field. -/
def Names (s : Str) (f : Field) : Prop := Word s [f.letter] ∨ Word s f.word

/-- The selection says "all". -/
def SaysAll (s : Str) : Prop := Word s c!"A" ∨ Word s c!"all"

/-- A word that may be used. -/
def KnownWord (w : Str) : Prop := w = c!"A" ∨ w = c!"all" ∨ ∃ f : Field, w = [f.letter] ∨ w = f.word

/-- The artifact matches in every selected field. -/
structure Hit (m : Str → Bool) (f : Flags) (a : Artifact) : Prop where
  name : Selected f .name → m a.name.raw = true
  file : Selected f .file → m a.file = true
  parts : Selected f .parts → ∃ q ∈ a.parts, m q.raw = true
  partof : Selected f .partof → ∃ q ∈ a.partof, m q.raw = true
  text : Selected f .text → m a.text = true

/-- The column for a field. -/
def Field.column : Field → Column
  | .name => .name
  | .file => .file
  | .subnames => .subnames
  | .parts => .parts
  | .partof => .partof
  | .impl => .impl
  | .text => .text

end Art.Spec

namespace Art
open Spec

/-! ## C35 -/

theorem between_nil (w : Str) : Between [] w ↔ w = [] := by
  constructor
  · rintro ⟨_, pre, post, h, _⟩
    have := h.symm
    simp only [List.append_eq_nil_iff] at this
    exact this.1.2
  · rintro rfl; exact ⟨by simp, [], [], rfl, Or.inl rfl, Or.inl rfl⟩

theorem splitOn_comma_append (d f : Str) : (d ++ ',' :: f).splitOn ',' = d.splitOn ',' ++ f.splitOn ',' := by
  induction d with
  | nil => simp [List.splitOn, List.splitOnP_cons_eq_if_modifyHead]
  | cons c d ih =>
    simp only [List.splitOn] at ih ⊢
    simp only [List.cons_append, List.splitOnP_cons_eq_if_modifyHead, ih]
    split
    · simp
    · cases h : d.splitOnP (fun x => x == ',') with
      | nil => exact absurd h (List.splitOnP_ne_nil _ _)
      | cons a l => simp

theorem splitOn_comma_self {f : Str} (h : ',' ∉ f) : f.splitOn ',' = [f] := by
  induction f with
  | nil => rfl
  | cons c f ih =>
    simp only [List.mem_cons, not_or] at h
    simp only [List.splitOn] at ih ⊢
    rw [List.splitOnP_cons_eq_if_modifyHead, ih h.2, if_neg]
    · rfl
    · simpa using fun e => h.1 e.symm

theorem mem_splitOn (s w : Str) : w ∈ s.splitOn ',' ↔ Between s w := by
  induction hn : s.length using Nat.strong_induction_on generalizing s with
  | _ n ih =>
    by_cases hc : ',' ∈ s
    · obtain ⟨d, f, e, hd⟩ := List.eq_append_cons_of_mem hc
      subst e
      rw [splitOn_comma_append, splitOn_comma_self hd, List.mem_append, List.mem_singleton, ih f.length (by rw [← hn]; simp; omega) f rfl]
      constructor
      · rintro (rfl | ⟨h1, pre, post, rfl, h3, h4⟩)
        · exact ⟨hd, [], ',' :: f, by simp, Or.inl rfl, Or.inr ⟨f, rfl⟩⟩
        · refine ⟨h1, d ++ ',' :: pre, post, by simp, Or.inr ?_, h4⟩
          rcases h3 with rfl | ⟨p, rfl⟩
          · exact ⟨d, rfl⟩
          · exact ⟨d ++ ',' :: p, by simp⟩
      · rintro ⟨h1, pre, post, h2, h3, h4⟩
        rcases h3 with rfl | ⟨p, rfl⟩
        · left
          rcases h4 with rfl | ⟨q, rfl⟩
          · exact absurd (by rw [List.append_nil, List.nil_append] at h2; rw [← h2]; simp) h1
          · rw [List.nil_append] at h2
            exact (until_unique h1 hd h2.symm).1
        · right
          have h2 : d ++ ',' :: f = p ++ ',' :: (w ++ post) := by rw [h2]; simp
          rcases List.append_eq_append_iff.1 h2 with ⟨t, e1, e2⟩ | ⟨t, e1, e2⟩
          · -- p = d ++ t
            cases t with
            | nil =>
              rw [List.nil_append] at e2
              injection e2 with _ e2
              exact ⟨h1, [], post, by simpa using e2, Or.inl rfl, h4⟩
            | cons x t =>
              rw [List.cons_append] at e2
              injection e2 with e0 e2
              exact ⟨h1, t ++ [','], post, by rw [e2]; simp, Or.inr ⟨t, rfl⟩, h4⟩
          · cases t with
            | nil =>
              rw [List.nil_append] at e2
              injection e2 with _ e2
              exact ⟨h1, [], post, by simpa using e2.symm, Or.inl rfl, h4⟩
            | cons x t =>
              rw [List.cons_append] at e2
              injection e2 with e0 e2
              exact absurd (by rw [e1, ← e0]; simp) hd
    · rw [splitOn_comma_self hc, List.mem_singleton]
      constructor
      · rintro rfl; exact ⟨hc, [], [], by simp, Or.inl rfl, Or.inl rfl⟩
      · rintro ⟨h1, pre, post, rfl, h3, h4⟩
        rcases h3 with rfl | ⟨p, rfl⟩
        · rcases h4 with rfl | ⟨q, rfl⟩
          · simp
          · simp at hc
        · simp at hc

theorem mem_fieldWords (s w : Str) : w ∈ fieldWords s ↔ Word s w := by
  unfold fieldWords
  by_cases hc : ',' ∈ s
  · rw [if_pos (by simpa using hc)]
    simp only [List.mem_filter, mem_splitOn, Bool.not_eq_true', List.isEmpty_eq_false_iff]
    constructor
    · rintro ⟨h1, h2⟩; exact .comma w hc h2 h1
    · intro h
      cases h with
      | comma _ _ h2 h1 => exact ⟨h1, h2⟩
      | letter _ h => exact absurd hc h
      | whole h => exact absurd hc h
  · rw [if_neg (by simpa using hc)]
    by_cases hu : ∃ d ∈ s, Capital d
    · rw [if_neg (by
        simp only [Bool.not_eq_true', Bool.not_eq_false, List.any_eq_true, Bool.and_eq_true, decide_eq_true_eq]
        exact hu)]
      constructor
      · intro h
        obtain ⟨c, h1, rfl⟩ := List.mem_map.1 h
        exact .letter c hc hu h1
      · intro h
        cases h with
        | comma _ h => exact absurd h hc
        | letter c _ _ h => exact List.mem_map.2 ⟨c, h, rfl⟩
        | whole _ h => obtain ⟨d, h1, h2⟩ := hu; exact absurd h2 (h d h1)
    · rw [if_pos (by
        simp only [Bool.not_eq_true', List.any_eq_false, Bool.and_eq_true, decide_eq_true_eq]
        exact fun d h1 h2 => hu ⟨d, h1, h2⟩)]
      push Not at hu
      rw [List.mem_singleton]
      constructor
      · rintro rfl; exact .whole hc hu
      · intro h
        cases h with
        | comma _ h => exact absurd h hc
        | letter c _ h => obtain ⟨d, h1, h2⟩ := h; exact absurd h2 (hu d h1)
        | whole => rfl

theorem knownWord_iff (w : Str) : w ∈ validFields ↔ KnownWord w := by
  constructor
  · intro h
    simp only [validFields, List.mem_cons, List.not_mem_nil, or_false] at h
    rcases h with rfl | rfl | rfl | rfl | rfl | rfl | rfl | rfl | rfl | rfl | rfl | rfl | rfl | rfl | rfl | rfl
    · exact Or.inr (Or.inr ⟨.name, Or.inl rfl⟩)
    · exact Or.inr (Or.inr ⟨.file, Or.inl rfl⟩)
    · exact Or.inr (Or.inr ⟨.subnames, Or.inl rfl⟩)
    · exact Or.inr (Or.inr ⟨.parts, Or.inl rfl⟩)
    · exact Or.inr (Or.inr ⟨.partof, Or.inl rfl⟩)
    · exact Or.inr (Or.inr ⟨.impl, Or.inl rfl⟩)
    · exact Or.inr (Or.inr ⟨.text, Or.inl rfl⟩)
    · exact Or.inl rfl
    · exact Or.inr (Or.inr ⟨.name, Or.inr rfl⟩)
    · exact Or.inr (Or.inr ⟨.file, Or.inr rfl⟩)
    · exact Or.inr (Or.inr ⟨.subnames, Or.inr rfl⟩)
    · exact Or.inr (Or.inr ⟨.parts, Or.inr rfl⟩)
    · exact Or.inr (Or.inr ⟨.partof, Or.inr rfl⟩)
    · exact Or.inr (Or.inr ⟨.impl, Or.inr rfl⟩)
    · exact Or.inr (Or.inr ⟨.text, Or.inr rfl⟩)
    · exact Or.inr (Or.inl rfl)
  · rintro (rfl | rfl | ⟨f, rfl | rfl⟩)
    · decide
    · decide
    · cases f <;> decide
    · cases f <;> decide

/-- Which selections are accepted: those that are not empty and consist of known words. There is no other failure than refusal. -/
theorem C35_accepts (s : Str) : ((∃ f, Flags.fromStr s = .ok f) ↔ s ≠ [] ∧ ∀ w, Word s w → KnownWord w) ∧ Flags.fromStr s ≠ .panic := by
  have hv : (fieldWords s).filter (fun w => !validFields.contains w) = [] ↔ ∀ w, Word s w → KnownWord w := by
    simp only [List.filter_eq_nil_iff, mem_fieldWords, Bool.not_eq_true', Bool.not_eq_false, List.contains_iff_mem, knownWord_iff]
  unfold Flags.fromStr
  cases s with
  | nil => exact ⟨⟨fun ⟨_, h⟩ => (nomatch h), fun h => absurd rfl h.1⟩, nofun⟩
  | cons c s =>
    simp only [List.isEmpty_cons, Bool.false_eq_true, if_false]
    rw [← hv]
    generalize (fieldWords (c :: s)).filter (fun w => !validFields.contains w) = inv
    cases inv with
    | nil => exact ⟨⟨fun _ => ⟨by simp, rfl⟩, fun _ => ⟨_, rfl⟩⟩, nofun⟩
    | cons _ _ => exact ⟨⟨fun ⟨_, h⟩ => (nomatch h), fun h => (nomatch h.2)⟩, nofun⟩

/-- What is selected: with "all" the fields that are not named, otherwise the named ones; and if nothing is named, name and parts. -/
theorem C35_selection {s : Str} {f : Flags} (h : Flags.fromStr s = .ok f) (x : Field) :
    (SaysAll s → (Selected f x ↔ ¬ Names s x)) ∧
    (¬ SaysAll s → (∃ y, Names s y) → (Selected f x ↔ Names s x)) ∧
    (¬ SaysAll s → (¬ ∃ y, Names s y) → (Selected f x ↔ x = .name ∨ x = .parts)) := by
  unfold Flags.fromStr at h
  split at h
  · cases h
  dsimp only at h
  split at h
  · cases h
  simp only [Res.ok.injEq] at h
  have fc : ∀ w, (fieldWords s).contains w = true ↔ Word s w := fun w => by rw [List.contains_iff_mem, mem_fieldWords]
  generalize ho : Flags.mk _ _ _ _ _ _ _ = out at h
  have sel : ∀ y, Selected out y ↔ Names s y := by
    intro y
    rw [← ho]
    cases y <;> simp only [Selected, Names, Bool.or_eq_true, fc] <;> exact Iff.rfl
  have all : ((fieldWords s).contains c!"A" || (fieldWords s).contains c!"all") = true ↔ SaysAll s := by
    rw [Bool.or_eq_true, fc, fc]; exact Iff.rfl
  have len : out.len = 0 ↔ ¬ ∃ y, Names s y := by
    simp only [← sel]
    obtain ⟨b1, b2, b3, b4, b5, b6, b7⟩ := out
    constructor
    · rintro h ⟨y, hy⟩
      simp only [Flags.len] at h
      cases y <;> simp only [Selected] at hy <;> subst hy <;> simp at h
    · intro h
      have g : ∀ y, ¬ Selected ⟨b1, b2, b3, b4, b5, b6, b7⟩ y := fun y hy => h ⟨y, hy⟩
      have g1 := g .name
      have g2 := g .file
      have g3 := g .subnames
      have g4 := g .parts
      have g5 := g .partof
      have g6 := g .impl
      have g7 := g .text
      simp only [Selected, Bool.not_eq_true] at g1 g2 g3 g4 g5 g6 g7
      subst g1 g2 g3 g4 g5 g6 g7
      rfl
  have inv : Selected out.invert x ↔ ¬ Selected out x := by cases x <;> simp [Selected, Flags.invert]
  subst h
  unfold Flags.resolve
  refine ⟨fun h => ?_, fun h hy => ?_, fun h hy => ?_⟩
  · rw [if_pos (all.2 h), inv, sel]
  · rw [if_neg (fun e => h (all.1 e)), if_neg (fun e => len.1 e hy), sel]
  · rw [if_neg (fun e => h (all.1 e)), if_pos (len.2 hy)]
    cases x <;> simp [Selected, Flags.default, Flags.empty]

example : Flags.fromStr c!"NT" = .ok { Flags.empty with name := true, text := true } ∧
    Flags.fromStr c!"name,,text" = .ok { Flags.empty with name := true, text := true } ∧
    Flags.fromStr c!"AI" = .ok { Flags.empty.invert with impl := false } ∧ Flags.fromStr c!"nt" = .err .unknown ∧
    Flags.fromStr c!"," = .ok Flags.default := by decide

/-- Order and repetition do not matter. -/
theorem C35_order {s t : Str} (h : ∀ w, Word s w ↔ Word t w) (hs : s ≠ []) (ht : t ≠ []) : Flags.fromStr s = Flags.fromStr t := by
  rcases hfs : Flags.fromStr s with f | e | _
  · have h1 := (C35_accepts s).1.1 ⟨f, hfs⟩
    obtain ⟨g, hg⟩ := (C35_accepts t).1.2 ⟨ht, fun w hw => h1.2 w ((h w).2 hw)⟩
    rw [hg]
    have hn : ∀ x, Names s x ↔ Names t x := fun x => by unfold Names; rw [h, h]
    have ha : SaysAll s ↔ SaysAll t := by unfold SaysAll; rw [h, h]
    have he : ∀ x, Selected f x ↔ Selected g x := by
      intro x
      obtain ⟨a1, a2, a3⟩ := C35_selection hfs x
      obtain ⟨b1, b2, b3⟩ := C35_selection hg x
      by_cases hA : SaysAll s
      · rw [a1 hA, b1 (ha.1 hA), hn]
      · by_cases hy : ∃ y, Names s y
        · rw [a2 hA hy, b2 (fun e => hA (ha.2 e)) (by simpa only [← hn] using hy), hn]
        · rw [a3 hA hy, b3 (fun e => hA (ha.2 e)) (by simpa only [← hn] using hy)]
    congr 1
    obtain ⟨c1, c2, c3, c4, c5, c6, c7⟩ := f
    obtain ⟨d1, d2, d3, d4, d5, d6, d7⟩ := g
    have e1 := he .name
    have e2 := he .file
    have e3 := he .subnames
    have e4 := he .parts
    have e5 := he .partof
    have e6 := he .impl
    have e7 := he .text
    simp only [Selected] at e1 e2 e3 e4 e5 e6 e7
    rw [Bool.eq_iff_iff.2 e1, Bool.eq_iff_iff.2 e2, Bool.eq_iff_iff.2 e3, Bool.eq_iff_iff.2 e4, Bool.eq_iff_iff.2 e5, Bool.eq_iff_iff.2 e6,
      Bool.eq_iff_iff.2 e7]
  · have hn : ¬ ∃ f, Flags.fromStr t = .ok f := by
      intro hg
      have h1 := (C35_accepts t).1.1 hg
      obtain ⟨f, hf⟩ := (C35_accepts s).1.2 ⟨hs, fun w hw => h1.2 w ((h w).1 hw)⟩
      rw [hfs] at hf; cases hf
    have un : ∀ {u : Str} {e : LsErr}, u ≠ [] → Flags.fromStr u = .err e → e = .unknown := by
      intro u e hu he
      unfold Flags.fromStr at he
      rw [if_neg (by simpa using hu)] at he
      dsimp only at he
      split at he
      · cases he; rfl
      · cases he
    rcases hft : Flags.fromStr t with g | e' | _
    · exact absurd ⟨g, hft⟩ hn
    · rw [un hs hfs, un ht hft]
    · exact absurd hft (C35_accepts t).2
  · exact absurd hfs (C35_accepts s).2

example : Flags.fromStr c!"NTN" = Flags.fromStr c!"TN" ∧ Flags.fromStr c!"text,N" = Flags.fromStr c!"T,name" := by decide

/-- The columns of a row are those of the header, and a field has a column exactly if it is selected for display, in a fixed order. -/
theorem C35_columns (f : Flags) : rowColumns f = headerColumns f ∧ (∀ x : Field, x.column ∈ headerColumns f ↔ Selected f x) ∧
    (headerColumns f).Nodup ∧ (headerColumns f).length = 2 + f.len := by
  obtain ⟨b1, b2, b3, b4, b5, b6, b7⟩ := f
  refine ⟨rfl, fun x => ?_, ?_, ?_⟩
  · cases x <;> revert b1 b2 b3 b4 b5 b6 b7 <;> simp only [Selected] <;> decide
  · revert b1 b2 b3 b4 b5 b6 b7; decide
  · revert b1 b2 b3 b4 b5 b6 b7; decide

/-- What is displayed: the chosen fields, or the others with `--all`; and by default name and parts, or everything in the long form. -/
theorem C35_display (cmd : Ls) (x : Field) :
    (cmd.all = true → (Selected (Flags.fromCmd cmd) x ↔ ¬ Selected cmd.shown x)) ∧
    (cmd.all = false → (∃ y, Selected cmd.shown y) → (Selected (Flags.fromCmd cmd) x ↔ Selected cmd.shown x)) ∧
    (cmd.all = false → (¬ ∃ y, Selected cmd.shown y) → (Selected (Flags.fromCmd cmd) x ↔ cmd.long = true ∨ x = .name ∨ x = .parts)) := by
  have len : cmd.shown.len = 0 ↔ ¬ ∃ y, Selected cmd.shown y := by
    obtain ⟨b1, b2, b3, b4, b5, b6, b7⟩ := cmd.shown
    constructor
    · rintro h ⟨y, hy⟩
      simp only [Flags.len] at h
      cases y <;> simp only [Selected] at hy <;> subst hy <;> simp at h
    · intro h
      have g : ∀ y, ¬ Selected ⟨b1, b2, b3, b4, b5, b6, b7⟩ y := fun y hy => h ⟨y, hy⟩
      have g1 := g .name
      have g2 := g .file
      have g3 := g .subnames
      have g4 := g .parts
      have g5 := g .partof
      have g6 := g .impl
      have g7 := g .text
      simp only [Selected, Bool.not_eq_true] at g1 g2 g3 g4 g5 g6 g7
      subst g1 g2 g3 g4 g5 g6 g7
      rfl
  have inv : Selected cmd.shown.invert x ↔ ¬ Selected cmd.shown x := by cases x <;> simp [Selected, Flags.invert]
  refine ⟨fun h => ?_, fun h hy => ?_, fun h hy => ?_⟩
  · unfold Flags.fromCmd Flags.resolve
    simp [h, inv]
  · unfold Flags.fromCmd Flags.resolve
    have : cmd.shown.len ≠ 0 := fun e => len.1 e hy
    simp [h, this]
  · unfold Flags.fromCmd Flags.resolve
    have := len.2 hy
    cases hl : cmd.long with
    | true =>
      simp only [h, this, Bool.not_false, Bool.and_self, beq_self_eq_true, if_true, Bool.false_eq_true, if_false]
      cases x <;> simp [Selected, Flags.invert, Flags.empty, Flags.len]
    | false =>
      simp only [h, this, Bool.not_false, Bool.false_and, if_true, Bool.false_eq_true, if_false]
      cases x <;> simp [Selected, Flags.default, Flags.empty]

/-! ## C34 -/

section
variable {L : Libs} {readToml : Str → Option SettingsRaw} {hash : ArtifactIm → HashIm} {ncpu : Nat} {fs : FS} {base : FilePath}
  {c : Categorized} {p : Project}

theorem keeps_iff (m : Str → Bool) (f : Flags) (a : Artifact) : keeps m f a = true ↔ Hit m f a := by
  have imp : ∀ {a b : Bool} {P : Prop}, (b = true ↔ P) → ((!a || b) = true ↔ (a = true → P)) := by
    intro a b P h; rw [← h]; cases a <;> simp
  have ex : ∀ l : List Name, (!l.all (fun n => !m n.raw)) = true ↔ ∃ q ∈ l, m q.raw = true := by
    intro l; simp
  unfold keeps
  rw [Bool.and_eq_true, Bool.and_eq_true, Bool.and_eq_true, Bool.and_eq_true, imp Iff.rfl, imp Iff.rfl, imp (ex _), imp (ex _), imp Iff.rfl]
  constructor
  · rintro ⟨⟨⟨⟨h1, h2⟩, h3⟩, h4⟩, h5⟩; exact ⟨h1, h2, h3, h4, h5⟩
  · rintro ⟨h1, h2, h3, h4, h5⟩; exact ⟨⟨⟨⟨h1, h2⟩, h3⟩, h4⟩, h5⟩

/-- The artifacts of a project that was read are stored under their own names, and no name occurs twice. -/
theorem reads_names (h : ReadsProject L readToml hash ncpu fs base (.ok (c, p))) :
    IMap.Nodup p.artifacts ∧ (∀ x ∈ p.artifacts, x.2.name = x.1) ∧ p.artifacts.Pairwise (fun x y => x.1.keyStr < y.1.keyStr) := by
  obtain ⟨_, _, s, r, arts, ls, _, _, _, _, hl, _, rfl, _⟩ := reads_parts h
  have inp := joinArtifacts_input r.arts
  obtain ⟨h1, h2, _⟩ := hl.spec inp
  have hn : IMap.Nodup arts := IMap.nodup_of_fst inp.dnodup h1
  refine ⟨?_, ?_, ?_⟩
  · have : IMap.Nodup (sortOn (fun x : Name × Artifact => x.1.keyStr) arts) := (IMap.nodup_perm (sortOn_perm _ _)).2 hn
    exact IMap.nodup_of_fst this (by show List.map _ (List.map _ _) = _; rw [List.map_map]; rfl)
  · intro x hx
    obtain ⟨y, hy, rfl⟩ := List.mem_map.1 hx
    exact h2 y ((mem_sortOn _).1 hy)
  · show (List.map _ (sortOn _ arts)).Pairwise _
    rw [List.pairwise_map]
    have hk : ISet.Nodup (arts.map Prod.fst) := by
      unfold ISet.Nodup
      unfold IMap.Nodup at hn
      rw [List.map_map]; exact hn
    have h2 : (arts.map (fun x => x.1.keyStr)).Nodup := by
      have := nodup_keyStr hk
      rw [List.map_map] at this
      exact this
    have h3 := sortOn_nodup_key _ h2
    rw [List.Nodup, List.pairwise_map] at h3
    exact ((sortOn_sorted _ arts).and h3).imp (fun h => lt_of_le_of_ne h.1 h.2)

/-- The artifacts for a set of names, in order. -/
theorem shown_spec (hn : IMap.Nodup p.artifacts) (hname : ∀ x ∈ p.artifacts, x.2.name = x.1) (P : Name × Artifact → Bool) :
    ∃ as : List Artifact,
      (sortNames (ISet.collect ((p.artifacts.filter P).map Prod.fst))).filterMap (IMap.get? p.artifacts) = as ∧
      Res.mapM' (ε := LsErr) (fun n => match IMap.get? p.artifacts n with
        | some a => .ok a
        | none => .panic) (sortNames (ISet.collect ((p.artifacts.filter P).map Prod.fst))) = .ok as ∧
      (∀ a, a ∈ as ↔ ∃ x ∈ p.artifacts, P x = true ∧ a = x.2) ∧
      as.Pairwise (fun a b => a.name.keyStr < b.name.keyStr) := by
  have hs : ((p.artifacts.filter P).map Prod.fst).Sublist (p.artifacts.map Prod.fst) := (List.filter_sublist).map _
  have hi : ISet.Nodup ((p.artifacts.filter P).map Prod.fst) := by
    unfold ISet.Nodup
    unfold IMap.Nodup at hn
    rw [List.map_map]
    exact hn.sublist ((List.filter_sublist).map _)
  rw [ISet.collect_of_nodup hi]
  have sorted : (sortNames ((p.artifacts.filter P).map Prod.fst)).Pairwise (fun a b => a.keyStr < b.keyStr) := by
    have h1 := sortOn_sorted Name.keyStr ((p.artifacts.filter P).map Prod.fst)
    have h2 := sortOn_nodup_key Name.keyStr (nodup_keyStr hi)
    rw [List.Nodup, List.pairwise_map] at h2
    exact (h1.and h2).imp (fun h => lt_of_le_of_ne h.1 h.2)
  have get : ∀ n ∈ sortNames ((p.artifacts.filter P).map Prod.fst), ∃ x ∈ p.artifacts, P x = true ∧ x.1 = n ∧ IMap.get? p.artifacts n = some x.2 := by
    intro n h
    obtain ⟨x, hx, rfl⟩ := List.mem_map.1 ((sortNames_perm _).mem_iff.1 h)
    obtain ⟨hx, hP⟩ := List.mem_filter.1 hx
    exact ⟨x, hx, hP, rfl, IMap.get?_of_mem hn hx⟩
  have mem : ∀ x ∈ p.artifacts, P x = true → x.1 ∈ sortNames ((p.artifacts.filter P).map Prod.fst) := fun x hx hP =>
    (sortNames_perm _).mem_iff.2 (List.mem_map.2 ⟨x, List.mem_filter.2 ⟨hx, hP⟩, rfl⟩)
  generalize sortNames ((p.artifacts.filter P).map Prod.fst) = ns at sorted get mem
  refine ⟨_, rfl, ?_, fun a => ?_, ?_⟩
  · clear sorted mem
    induction ns with
    | nil => rfl
    | cons n ns ih =>
      obtain ⟨x, _, _, _, e⟩ := get n (by simp)
      have := ih (fun n hn => get n (by simp [hn]))
      simp only [Res.mapM', List.filterMap_cons, e, this]
      rfl
  · rw [List.mem_filterMap]
    constructor
    · rintro ⟨n, h, e⟩
      obtain ⟨x, hx, hP, _, e'⟩ := get n h
      rw [e'] at e
      cases e
      exact ⟨x, hx, hP, rfl⟩
    · rintro ⟨x, hx, hP, rfl⟩
      exact ⟨x.1, mem x hx hP, IMap.get?_of_mem hn hx⟩
  · rw [List.pairwise_filterMap]
    refine sorted.imp_of_mem ?_
    intro n n' h h' hlt b hb b' hb'
    obtain ⟨x, hx, _, rfl, e⟩ := get n h
    obtain ⟨x', hx', _, rfl, e'⟩ := get n' h'
    rw [e] at hb
    rw [e'] at hb'
    cases hb; cases hb'
    rw [hname x hx, hname x' hx']
    exact hlt

/-- `art ls PATTERN` of a project that was read: exactly the artifacts that match in every selected field, each once, in the order of
their names. Whether it is printed as a table, in the long form or as JSON makes no difference, and it does not panic. -/
theorem C34_exact (h : ReadsProject L readToml hash ncpu fs base (.ok (c, p))) {compile : Str → Option (Str → Bool)} {cmd : Ls}
    {pat : Str} {m : Str → Bool} {f : Flags} (hp : cmd.pattern = some pat) (hm : compile (searchPattern pat) = some m)
    (hf : Flags.fromStr cmd.fields = .ok f) (hi : f.impl = false) (ho : cmd.outputTy = c!"list" ∨ cmd.outputTy = c!"json") :
    ∃ as, lsShown compile cmd (.ok (c, p)) = .ok as ∧ (∀ a, a ∈ as ↔ a ∈ artsOf p.artifacts ∧ Hit m f a) ∧
      as.Pairwise (fun a b => a.name.keyStr < b.name.keyStr) := by
  obtain ⟨hn, hname, _⟩ := reads_names h
  obtain ⟨as, h1, h2, h3, h4⟩ := shown_spec hn hname (fun x => keeps m f x.2)
  have e : filterArtifacts compile cmd p.artifacts = .ok (ISet.collect ((p.artifacts.filter (fun x => keeps m f x.2)).map Prod.fst)) := by
    unfold filterArtifacts
    rw [hf]
    show (if f.impl = true then _ else _) = _
    rw [hi, hp]
    simp [hm]
  refine ⟨as, ?_, fun a => ?_, h4⟩
  · unfold lsShown
    simp only [e]
    rcases ho with ho | ho <;> rw [ho]
    · exact h2
    · exact congrArg Res.ok h1
  · rw [h3]
    constructor
    · rintro ⟨x, hx, hk, rfl⟩; exact ⟨List.mem_map.2 ⟨x, hx, rfl⟩, (keeps_iff _ _ _).1 hk⟩
    · rintro ⟨ha, hk⟩
      obtain ⟨x, hx, rfl⟩ := List.mem_map.1 ha
      exact ⟨x, hx, (keeps_iff _ _ _).2 hk, rfl⟩

/-- Without a pattern everything is listed, in order. -/
theorem C34_no_pattern (h : ReadsProject L readToml hash ncpu fs base (.ok (c, p))) {compile : Str → Option (Str → Bool)} {cmd : Ls}
    {f : Flags} (hp : cmd.pattern = none) (hf : Flags.fromStr cmd.fields = .ok f) (hi : f.impl = false)
    (ho : cmd.outputTy = c!"list" ∨ cmd.outputTy = c!"json") : lsShown compile cmd (.ok (c, p)) = .ok (artsOf p.artifacts) := by
  obtain ⟨hn, hname, hord⟩ := reads_names h
  obtain ⟨as, h1, h2, h3, h4⟩ := shown_spec hn hname (fun _ => true)
  have hsort : (artsOf p.artifacts).Pairwise (fun a b => a.name.keyStr < b.name.keyStr) := by
    unfold artsOf
    rw [List.pairwise_map]
    refine hord.imp_of_mem ?_
    intro x y hx hy h
    rw [hname x hx, hname y hy]
    exact h
  have eq : as = artsOf p.artifacts := by
    refine List.Perm.eq_of_pairwise (le := fun a b => a.name.keyStr < b.name.keyStr) ?_ h4 hsort ?_
    · intro a b _ _ h h'; exact absurd h' (lt_asymm h)
    · refine (List.perm_ext_iff_of_nodup ?_ ?_).2 fun a => ?_
      · exact h4.imp (fun h e => by rw [e] at h; exact lt_irrefl _ h)
      · exact hsort.imp (fun h e => by rw [e] at h; exact lt_irrefl _ h)
      · rw [h3]
        simp [artsOf, eq_comm]
  rw [eq] at h1 h2
  have e : filterArtifacts compile cmd p.artifacts = .ok (ISet.collect ((p.artifacts.filter (fun _ => true)).map Prod.fst)) := by
    unfold filterArtifacts
    rw [hf]
    show (if f.impl = true then _ else _) = _
    rw [hi, hp]
    simp
  unfold lsShown
  simp only [e]
  rcases ho with ho | ho <;> rw [ho]
  · exact h2
  · exact congrArg Res.ok h1

/-- When nothing is listed: a selection that is refused or contains `impl`, a pattern that is no regular expression, an unknown type of output.
In particular `art ls` never panics on a project that was read. -/
theorem C34_refused (h : ReadsProject L readToml hash ncpu fs base (.ok (c, p))) {compile : Str → Option (Str → Bool)} {cmd : Ls} :
    lsShown compile cmd (.ok (c, p)) ≠ .panic ∧
    ((∃ as, lsShown compile cmd (.ok (c, p)) = .ok as) ↔ (∃ f, Flags.fromStr cmd.fields = .ok f ∧ f.impl = false) ∧
      (∀ pat, cmd.pattern = some pat → (compile (searchPattern pat)).isSome = true) ∧ (cmd.outputTy = c!"list" ∨ cmd.outputTy = c!"json")) := by
  by_cases hall : (∃ f, Flags.fromStr cmd.fields = .ok f ∧ f.impl = false) ∧
      (∀ pat, cmd.pattern = some pat → (compile (searchPattern pat)).isSome = true) ∧ (cmd.outputTy = c!"list" ∨ cmd.outputTy = c!"json")
  · obtain ⟨⟨f, hf, hi⟩, hpat, ho⟩ := hall
    have : ∃ as, lsShown compile cmd (.ok (c, p)) = .ok as := by
      cases hp : cmd.pattern with
      | none => exact ⟨_, C34_no_pattern h hp hf hi ho⟩
      | some pat =>
        obtain ⟨m, hm⟩ := Option.isSome_iff_exists.1 (hpat pat hp)
        obtain ⟨as, h1, _⟩ := C34_exact h hp hm hf hi ho
        exact ⟨as, h1⟩
    obtain ⟨as, has⟩ := this
    rw [has]
    exact ⟨nofun, ⟨fun _ => ⟨⟨f, hf, hi⟩, hpat, ho⟩, fun _ => ⟨as, rfl⟩⟩⟩
  · have : ∃ e, lsShown compile cmd (.ok (c, p)) = .err e := by
      have ferr : (∃ e, filterArtifacts compile cmd p.artifacts = .err e) ∨ (∃ ns, filterArtifacts compile cmd p.artifacts = .ok ns) ∧
          (∃ f, Flags.fromStr cmd.fields = .ok f ∧ f.impl = false) ∧
          (∀ pat, cmd.pattern = some pat → (compile (searchPattern pat)).isSome = true) := by
        unfold filterArtifacts
        rcases hf : Flags.fromStr cmd.fields with f | e | _
        · show (∃ e, (if f.impl = true then _ else _) = _) ∨ _
          cases hi : f.impl with
          | true => exact Or.inl ⟨_, rfl⟩
          | false =>
            simp only [Bool.false_eq_true, if_false]
            cases hp : cmd.pattern with
            | none => exact Or.inr ⟨⟨_, by simp [bind, Res.bind, hi]; rfl⟩, ⟨f, rfl, hi⟩, nofun⟩
            | some pat =>
              cases hc : compile (searchPattern pat) with
              | none => exact Or.inl ⟨.pattern, by simp only [hc]⟩
              | some m => exact Or.inr ⟨⟨_, by simp [bind, Res.bind, hi, hc]; rfl⟩, ⟨f, rfl, hi⟩, fun pat' e => by cases e; simp [hc]⟩
        · exact Or.inl ⟨e, rfl⟩
        · exact absurd hf (C35_accepts _).2
      unfold lsShown
      rcases ferr with ⟨e, he⟩ | ⟨⟨ns, he⟩, h1, h2⟩
      · exact ⟨e, by simp only [he]; rfl⟩
      · simp only [he]
        have ho : outputJson cmd.outputTy = .err .output := by
          unfold outputJson
          rw [if_neg (fun e => hall ⟨h1, h2, Or.inl e⟩), if_neg (fun e => hall ⟨h1, h2, Or.inr e⟩)]
        exact ⟨.output, by simp only [bind, Res.bind, ho]⟩
    obtain ⟨e, he⟩ := this
    rw [he]
    exact ⟨nofun, ⟨fun ⟨_, h⟩ => (nomatch h), fun h => absurd h hall⟩⟩

/-- The more fields are selected, the fewer artifacts are listed: fields are joined by "and". -/
theorem C34_narrows {m : Str → Bool} {f g : Flags} (hfg : ∀ x, Selected f x → Selected g x) {a : Artifact} (h : Hit m g a) : Hit m f a :=
  ⟨fun s => h.name (hfg _ s), fun s => h.file (hfg _ s), fun s => h.parts (hfg _ s), fun s => h.partof (hfg _ s), fun s => h.text (hfg _ s)⟩

/-- Selecting all fields for the search is always refused, because `impl` is one of them. -/
theorem C35_all_refused {compile : Str → Option (Str → Bool)} {cmd : Ls} (hs : SaysAll cmd.fields) (hn : ¬ Names cmd.fields .impl) :
    ∀ as, lsShown compile cmd (.ok (c, p)) ≠ .ok as := by
  intro as has
  rcases hf : Flags.fromStr cmd.fields with f | e | _
  · have := ((C35_selection hf .impl).1 hs).2 hn
    simp only [Selected] at this
    unfold lsShown filterArtifacts at has
    simp only [hf, bind, Res.bind, this, if_true] at has
    cases has
  · unfold lsShown filterArtifacts at has
    simp only [hf, bind, Res.bind] at has
    cases has
  · exact absurd hf (C35_accepts _).2

example : SaysAll c!"A" ∧ ¬ Names c!"A" .impl := by
  unfold SaysAll Names
  simp only [← mem_fieldWords]
  decide

/-- Searching in the subnames alone lists everything, whatever the pattern. -/
theorem C34_subnames_ignored (h : ReadsProject L readToml hash ncpu fs base (.ok (c, p))) {compile : Str → Option (Str → Bool)} {cmd : Ls}
    {pat : Str} {m : Str → Bool} (hp : cmd.pattern = some pat) (hm : compile (searchPattern pat) = some m)
    (hf : cmd.fields = c!"S" ∨ cmd.fields = c!"subnames") (ho : cmd.outputTy = c!"list") :
    ∃ as, lsShown compile cmd (.ok (c, p)) = .ok as ∧ ∀ a, a ∈ as ↔ a ∈ artsOf p.artifacts := by
  have e : Flags.fromStr cmd.fields = .ok { Flags.empty with subnames := true } := by rcases hf with hf | hf <;> rw [hf] <;> decide
  obtain ⟨as, h1, h2, _⟩ := C34_exact h hp hm e rfl (Or.inl ho)
  refine ⟨as, h1, fun a => (h2 a).trans ⟨fun h => h.1, fun h => ⟨h, ?_⟩⟩⟩
  constructor <;> simp [Selected, Flags.empty]

/-- The filters `--spc` and `--tst` have no effect. -/
theorem C34_completion_ignored (compile : Str → Option (Str → Bool)) (cmd : Ls) (spc tst : Str) (out : Res Categorized (Categorized × Project)) :
    lsShown compile { cmd with spc := spc, tst := tst } out = lsShown compile cmd out := by
  cases out <;> rfl

end

/-- The command `art ls SPC-b -f FIELDS`. -/
def exLs (fields : Str) : Ls := ⟨some c!"SPC-b", fields, false, c!">0", c!">0", Flags.empty, false, c!"list"⟩

/-- A pattern that matches the one text that was written. -/
def exCompile (s : Str) : Option (Str → Bool) := some (fun t => c!"(?i)" ++ t == s)

/-- The help text promises the artifacts that match in the name *or* the text. An artifact that matches in the name is listed with
`-f N`, and not with `-f NT`. -/
theorem C34_help_says_or : ReadsProject exLibs (fun _ => some exRaw) exId 4 exGood c!"/p" (.ok (⟨[], []⟩, exProject)) ∧
    (lsShown exCompile (exLs c!"N") (.ok (⟨[], []⟩, exProject))).toOption.map (fun as => as.map (fun a => a.name.raw)) = some [c!"SPC-b"] ∧
    (lsShown exCompile (exLs c!"NT") (.ok (⟨[], []⟩, exProject))).toOption.map (fun as => as.map (fun a => a.name.raw)) = some [] :=
  ⟨exProject_read, by decide +kernel, by decide +kernel⟩

/-- In the long form the separators between names are printed as if they were names. -/
theorem C34_long_separators (a b : Name) (l : List Name) : c!"- , " ∈ longNames (a :: b :: l) ∧
    (longNames (a :: b :: l)).length = 2 * (l.length + 2) - 1 := by
  constructor
  · unfold longNames nameTexts
    refine List.mem_map.2 ⟨c!", ", ?_, rfl⟩
    simp [List.dropLast_cons_of_ne_nil]
  · unfold longNames nameTexts
    simp [List.length_flatMap]
    omega

end Art
