import Verif.Lemmas.Address
import Verif.Props.Paint

/-!
# C75: the addresses of places in the code
-/

namespace Art
namespace Url

open Spec Spec.Export Spec.Dot Web

variable {S : Formats} {L : Libs} {F : ExportLibs} {readToml : Str → Option SettingsRaw} {hash : ArtifactIm → HashIm} {ncpu : Nat} {fs : FS} {base : FilePath} {c : Categorized} {p : Project}

/-- C75. A pattern is a row of characters, doubled braces and the two values; what is written is what stands for these parts, one after the other. Anything else is refused. -/
theorem C75_format (fmt file line out : Str) : strfmt S fmt file line = some out ↔ Address S fmt file line out := by
  constructor
  · intro h
    obtain ⟨o, e, ha⟩ := scan_sound fmt.length (Nat.le_refl _) h
    rw [e, List.nil_append]
    exact ha
  · rintro ⟨ps, os, rfl, hf, rfl⟩
    exact scan_complete hf []

/-- What is accepted for one place is accepted for every other one. -/
theorem writes_any {p : Piece} {o file line : Str} (h : p.Writes S file line o) (file' line' : Str) : ∃ o', p.Writes S file' line' o' := by
  cases h with
  | plain h1 h2 => exact ⟨_, .plain h1 h2⟩
  | brace => exact ⟨_, .brace⟩
  | close => exact ⟨_, .close⟩
  | hole => exact ⟨_, .hole⟩
  | bare => exact ⟨_, .bare⟩
  | fmt h1 h2 h3 h4 => exact ⟨_, .fmt h1 h2 h3 h4⟩

theorem address_any {fmt file line out : Str} (h : Address S fmt file line out) (file' line' : Str) : ∃ out', Address S fmt file' line' out' := by
  obtain ⟨ps, os, e, hf, e'⟩ := h
  have : ∃ os', List.Forall₂ (Piece.Writes S file' line') ps os' := by
    clear e e'
    induction hf with
    | nil => exact ⟨[], .nil⟩
    | cons hp _ ih =>
      obtain ⟨o, ho⟩ := writes_any hp file' line'
      obtain ⟨os, hos⟩ := ih
      exact ⟨o :: os, .cons ho hos⟩
  obtain ⟨os', h'⟩ := this
  exact ⟨_, ps, os', e, h', rfl⟩

/-- C75. Whether a pattern is accepted does not depend on the place. So the one address that the checks try tells about all addresses. -/
theorem C75_any (fmt file line file' line' : Str) : strfmt S fmt file line = none ↔ strfmt S fmt file' line' = none := by
  have key : ∀ f l f' l', strfmt S fmt f l = none → strfmt S fmt f' l' = none := by
    intro f l f' l' h
    cases h' : strfmt S fmt f' l' with
    | none => rfl
    | some o =>
      obtain ⟨o', ho⟩ := address_any ((C75_format _ _ _ _).1 h') f l
      rw [(C75_format _ _ _ _).2 ho] at h
      cases h
  exact ⟨key _ _ _ _, key _ _ _ _⟩

/-- The two calls of the library, in the export and in the checks. -/
structure Calls (S : Formats) (L : Libs) (F : ExportLibs) : Prop where
  export_ : ∀ fmt file line, F.strfmt fmt file line = strfmt S fmt file line
  checks : ∀ fmt, L.urlErr fmt = none ↔ (tried S fmt).isSome = true

theorem Calls.same (K : Calls S L F) (fmt f l : Str) : F.strfmt fmt f l = none ↔ L.urlErr fmt ≠ none := by
  rw [K.export_, Ne, K.checks, tried, Bool.not_eq_true, Option.isSome_eq_false_iff, Option.isNone_iff_eq_none]
  exact C75_any _ _ _ _ _

/-- C75. The export of a project with artifacts crashes exactly if the checks report an error in the settings. -/
theorem C75_checked (K : Calls S L F) (h : ReadsProject L readToml hash ncpu fs base (.ok (c, p))) (ex : ExportSettings) (hne : p.artifacts ≠ []) :
    (exportParts F ex p).all Res.isOk = false ↔ ∃ l ∈ c.error, l.category = .settings :=
  C55_bad_url h ex K.same hne

/-- C75. If the checks report no error in the settings then the whole document is written, and every place that the web page shows has an address. -/
theorem C75_shown (K : Calls S L F) (h : ReadsProject L readToml hash ncpu fs base (.ok (c, p))) (hc : ∀ l ∈ c.error, l.category ≠ .settings) :
    (∀ ex, (exportParts F ex p).all Res.isOk = true ∧ DocShown F (exporter ex p) ex.header ex.toc (written (exportParts F ex p))) ∧
    (∀ parent t, ¬ Homeless F p parent t) ∧
    ∀ {parent t : Str}, longS ∉ parent → longS ∉ t → ¬ Unshowable F p parent t := by
  have hu : ∀ fmt, p.settings.codeUrl = some fmt → ∀ f l, F.strfmt fmt f l ≠ none := by
    intro fmt e f l hn
    obtain ⟨x, hx, hcat⟩ := (url_linted h).2 ⟨fmt, e, (K.same fmt f l).1 hn⟩
    exact hc x hx hcat
  have hh : ∀ parent t, ¬ Homeless F p parent t := by
    rintro parent t ⟨loc, ps, s, _, _, _, fmt, e, hn⟩
    exact hu fmt e _ _ hn
  refine ⟨fun ex => ?_, hh, fun hp ht hb => hh _ _ ((C60_typed F p hp ht).1 hb)⟩
  have hall : ∀ loc, Addressed p loc → ¬ NoAddress F (exporter ex p) loc := by
    rintro loc _ ⟨fmt, e, hn⟩
    exact hu fmt e _ _ hn
  exact ⟨(C55_document h ex).1.2 hall, (C55_document h ex).2 hall⟩

/-! ## what is in an address -/

/-- Text without braces stands for itself. -/
theorem address_plain {t file line : Str} (h1 : '{' ∉ t) (h2 : '}' ∉ t) : Address S t file line t := by
  induction t with
  | nil => exact ⟨[], [], rfl, .nil, rfl⟩
  | cons a t ih =>
    simp only [List.mem_cons, not_or] at h1 h2
    obtain ⟨ps, os, e, hf, e'⟩ := ih h1.2 h2.2
    refine ⟨.plain a :: ps, [a] :: os, ?_, .cons (.plain (Ne.symm h1.1) (Ne.symm h2.1)) hf, ?_⟩
    · rw [List.map_cons, List.flatten_cons, ← e]; rfl
    · rw [List.flatten_cons, ← e']; rfl

theorem address_append {s t file line o o' : Str} (h : Address S s file line o) (h' : Address S t file line o') : Address S (s ++ t) file line (o ++ o') := by
  obtain ⟨ps, os, rfl, hf, rfl⟩ := h
  obtain ⟨qs, us, rfl, hf', rfl⟩ := h'
  exact ⟨ps ++ qs, os ++ us, by simp, List.rel_append hf hf', by simp⟩

theorem address_hole (v : Value) (file line : Str) : Address S (c!"{" ++ v.name ++ c!"}") file line (v.text file line) :=
  ⟨[.hole v], [v.text file line], by simp [Piece.src], .cons .hole .nil, by simp⟩

/-- A usual pattern. -/
def usual (pre mid post : Str) : Str := pre ++ c!"{file}" ++ mid ++ c!"{line}" ++ post

/-- Text without braces. -/
def NoBrace (t : Str) : Prop := '{' ∉ t ∧ '}' ∉ t

/-- C75. In a usual pattern the two values are put in as they are. -/
theorem C75_usual {pre mid post : Str} (h1 : NoBrace pre) (h2 : NoBrace mid) (h3 : NoBrace post) (file line : Str) :
    strfmt S (usual pre mid post) file line = some (pre ++ file ++ mid ++ line ++ post) :=
  (C75_format _ _ _ _).2 (address_append (address_append (address_append (address_append (address_plain h1.1 h1.2) (address_hole .file file line)) (address_plain h2.1 h2.2))
    (address_hole .line file line)) (address_plain h3.1 h3.2))

/-- The number at the end of a text is determined by the text, if something that is no digit stands before it. -/
theorem number_end {x y m n : Str} {d : Char} (hd : asciiDigit d = false) (hm : ∀ a ∈ m, asciiDigit a = true) (hn : ∀ a ∈ n, asciiDigit a = true)
    (h : x ++ d :: m = y ++ d :: n) : x = y ∧ m = n := by
  rcases List.append_eq_append_iff.1 h with ⟨z, rfl, e⟩ | ⟨z, rfl, e⟩
  · cases z with
    | nil => simpa using e
    | cons a z =>
      simp only [List.cons_append, List.cons.injEq] at e
      have := hm d (by rw [e.2]; simp)
      rw [hd] at this; cases this
  · cases z with
    | nil => simpa using e.symm
    | cons a z =>
      simp only [List.cons_append, List.cons.injEq] at e
      have := hn d (by rw [e.2]; simp)
      rw [hd] at this; cases this

/-- C75. With something that is no digit between file and line an address belongs to one place only: two places in the project with the same address are the same. -/
theorem C75_distinct {pre mid post : Str} {d : Char} (h1 : NoBrace pre) (h2 : NoBrace (mid ++ [d])) (h3 : NoBrace post) (hd : asciiDigit d = false)
    {root x y : Str} {i j : Nat} {u : Str}
    (hx : strfmt S (usual pre (mid ++ [d]) post) (trimBase root (root ++ '/' :: x)) (showNat (i + 1)) = some u)
    (hy : strfmt S (usual pre (mid ++ [d]) post) (trimBase root (root ++ '/' :: y)) (showNat (j + 1)) = some u) : x = y ∧ i = j := by
  rw [(C39_inside root x).1, C75_usual h1 h2 h3] at hx
  rw [(C39_inside root y).1, C75_usual h1 h2 h3] at hy
  have e := Option.some.inj (hx.trans hy.symm)
  have e := List.append_cancel_right e
  simp only [List.append_assoc] at e
  have e := List.append_cancel_left e
  have e : (x ++ mid) ++ d :: showNat (i + 1) = (y ++ mid) ++ d :: showNat (j + 1) := by simpa using e
  obtain ⟨e1, e2⟩ := number_end hd (fun _ => showNat_digit) (fun _ => showNat_digit) e
  exact ⟨List.append_cancel_right e1, Nat.succ.inj (showNat_inj e2)⟩

/-- A format only fills with blanks or with characters that it names. -/
def Fills (S : Formats) : Prop := ∀ s f v a, S s = some f → a ∈ f v → a ∈ v ∨ a ∈ s ∨ a = ' '

/-- C75. Every character of an address is in the pattern, in the file or in the line. -/
theorem C75_chars (hS : Fills S) {fmt file line out : Str} (h : strfmt S fmt file line = some out) {a : Char} (ha : a ∈ out) : a ∈ fmt ∨ a ∈ file ∨ a ∈ line ∨ a = ' ' := by
  obtain ⟨ps, os, rfl, hf, rfl⟩ := (C75_format _ _ _ _).1 h
  clear h
  have hv : ∀ (v : Value), a ∈ v.text file line → a ∈ file ∨ a ∈ line := by
    intro v hm
    cases v
    · exact .inl hm
    · exact .inr hm
  induction hf with
  | nil => simp at ha
  | @cons p o ps os hp _ ih =>
    rw [List.flatten_cons, List.mem_append] at ha
    rw [List.map_cons, List.flatten_cons, List.mem_append]
    rcases ha with ha | ha
    · cases hp with
      | plain _ _ => exact .inl (.inl ha)
      | brace => exact .inl (.inl (by simp at ha; simp [ha, Piece.src]))
      | @close n =>
        refine .inl (.inl ?_)
        simp only [List.mem_append, List.mem_replicate, List.mem_singleton] at ha
        rcases ha with ⟨hn, rfl⟩ | rfl
        · simp only [Piece.src, List.mem_append, List.mem_flatten, List.mem_replicate]
          exact .inl (.inr ⟨_, ⟨hn, rfl⟩, by simp⟩)
        · simp [Piece.src]
      | hole => rcases hv _ ha with h | h <;> simp [h]
      | bare => rcases hv _ ha with h | h <;> simp [h]
      | @fmt v s f _ _ _ hf =>
        rcases hS _ _ _ _ hf ha with h | h | h
        · rcases hv _ h with h | h <;> simp [h]
        · exact .inl (.inl (by simp [Piece.src, h]))
        · simp [h]
    · rcases ih ha with h | h | h | h <;> simp [h]

theorem trimBase_mem {b f : Str} {a : Char} (h : a ∈ trimBase b f) : a ∈ f := by
  unfold trimBase at h
  split at h
  · simp only at h
    split at h
    · exact List.mem_of_mem_drop (List.mem_of_mem_drop h)
    · exact List.mem_of_mem_drop h
  · exact h

/-- C75. The addresses fit on one line if the pattern and the names of the files do. -/
theorem C75_one_line (K : Calls S L F) (hS : Fills S) {parent : Str} (hp : ∀ fmt, p.settings.codeUrl = some fmt → '\n' ∉ fmt)
    (hf : ∀ s loc, Implemented p parent s loc → '\n' ∉ loc.file) : OneLine F p parent := by
  refine ⟨hf, fun s loc fmt u hi e hu hm => ?_⟩
  rw [K.export_] at hu
  rcases C75_chars hS hu hm with h | h | h | h
  · exact hp _ e h
  · exact hf _ _ hi (trimBase_mem h)
  · exact digit_nl _ h
  · cases h

/-- C75. Nothing is done for characters that have a meaning in HTML or in addresses: the name of a file is in the link as it is. -/
theorem C75_raw (K : Calls S L F) {md : SerMd} {pre mid post : Str} (h1 : NoBrace pre) (h2 : NoBrace mid) (h3 : NoBrace post) (hu : md.codeUrl = some (usual pre mid post))
    (x : Str) (i : Nat) :
    md.codeHtml F ⟨md.project.settings.base ++ '/' :: x, i⟩ =
      .ok (c!"<a href=\"" ++ pre ++ x ++ mid ++ showNat (i + 1) ++ post ++ c!"\">" ++ x ++ c!"[" ++ showNat i ++ c!"]</a>") := by
  have e : md.codeUrlOf F ⟨md.project.settings.base ++ '/' :: x, i⟩ = .ok (some (pre ++ x ++ mid ++ showNat (i + 1) ++ post)) := by
    unfold SerMd.codeUrlOf
    simp only [hu, K.export_, (C39_inside _ _).1, C75_usual h1 h2 h3]
  unfold SerMd.codeHtml
  rw [e, (C39_inside _ _).1]
  show Res.ok _ = Res.ok _
  simp

/-- C75. So there are files with a link that ends within their name. -/
theorem C75_breaks (K : Calls S L F) {md : SerMd} {pre mid post : Str} (h1 : NoBrace pre) (h2 : NoBrace mid) (h3 : NoBrace post) (hu : md.codeUrl = some (usual pre mid post))
    (hq : '"' ∉ pre) : ∃ file value rest, '"' ∉ value ∧ md.codeHtml F ⟨file, 0⟩ = .ok (c!"<a href=\"" ++ value ++ c!"\" onclick=\"b()" ++ rest) := by
  refine ⟨md.project.settings.base ++ '/' :: c!"a\" onclick=\"b().rs", pre ++ c!"a",
    c!".rs" ++ mid ++ showNat 1 ++ post ++ c!"\">" ++ c!"a\" onclick=\"b().rs" ++ c!"[" ++ showNat 0 ++ c!"]</a>", by simp [hq], ?_⟩
  rw [C75_raw K h1 h2 h3 hu]
  refine congrArg Res.ok ?_
  simp

/-- C75. Without anything between file and line two places can have the same address, and so can a place outside of the project whose path begins like the project. -/
theorem C75_same : (∃ x y i j, (x, i) ≠ (y, j) ∧ ∀ root, strfmt S (usual [] [] []) (trimBase root (root ++ '/' :: x)) (showNat (i + 1)) =
      strfmt S (usual [] [] []) (trimBase root (root ++ '/' :: y)) (showNat (j + 1))) ∧
    ∀ root x : Str, x.head? ≠ some '/' → root ++ x ≠ root ++ '/' :: x ∧ ∀ fmt line, strfmt S fmt (trimBase root (root ++ x)) line = strfmt S fmt (trimBase root (root ++ '/' :: x)) line := by
  have hn : NoBrace [] := ⟨by simp, by simp⟩
  refine ⟨⟨c!"a1", c!"a", 0, 10, by decide, fun root => ?_⟩, fun root x hx => ⟨fun e => ?_, fun fmt line => ?_⟩⟩
  · rw [(C39_inside _ _).1, (C39_inside _ _).1, C75_usual hn hn hn, C75_usual hn hn hn]
    decide +kernel
  · have := congrArg List.length e
    simp at this
  · have : trimBase root (root ++ x) = x := by
      unfold trimBase
      rw [if_pos (List.isPrefixOf_iff_prefix.2 ⟨x, rfl⟩)]
      simp only [List.drop_left]
      rw [if_neg]
      rw [List.isPrefixOf_iff_prefix]
      rintro ⟨z, rfl⟩
      exact hx rfl
    rw [this, (C39_inside _ _).1]

end Url
end Art
