import Verif.Props.Headings
import Verif.Props.Json

/-! Cases for C87. -/

namespace Art
open Spec Spec.Export Spec.Headings

/-- The parts of a project in which a newline or a `#` could be. -/
def headFine (p : Project) : Bool :=
  p.artifacts.all (fun x => (match x.2.impl with
    | .done d => !d.contains '\n'
    | .code c => c.primary.all fun l => !l.file.contains '\n'
    | .notImpl => true) && !x.2.file.contains '\n' && !x.2.text.contains '#') &&
  p.codeImpls.all (fun x => x.2.secondary.all fun y => !y.2.file.contains '\n') && p.settings.codeUrl.all (fun x => !x.contains '\n')

theorem headFine_unbroken {p : Project} (h : headFine p = true) : Unbroken exF exX p := by
  simp only [headFine, Bool.and_eq_true, List.all_eq_true, Bool.not_eq_true', List.contains_eq_mem, decide_eq_false_iff_not] at h
  obtain ⟨⟨h1, h2⟩, h3⟩ := h
  have ha : ∀ a ∈ arts p, ((match a.impl with
      | .done d => !decide ('\n' ∈ d)
      | .code c => c.primary.all fun l => !decide ('\n' ∈ l.file)
      | .notImpl => true) = true ∧ '\n' ∉ a.file) ∧ '#' ∉ a.text := fun a ha => by
    obtain ⟨x, hx, rfl⟩ := List.mem_map.1 ha
    exact h1 x hx
  refine ⟨fun a h d e => ?_, ?_, ?_, fun _ => (show '\n' ∉ c!"..%" from by decide), fun a h ps head body hc hm => graph_free (ha a h).2 hc hm, fun x y e => (by cases e)⟩
  · have := (ha a h).1.1
    rw [e] at this
    simpa using this
  · rintro loc ⟨a, h, rfl | ⟨code, e, hp⟩ | ⟨ps, s, -, -, n, t, ⟨c, hc, hm⟩, -, -⟩⟩
    · exact (ha a h).1.2
    · have := (ha a h).1.1
      rw [e] at this
      simp only [hp] at this
      simpa using this
    · exact h2 _ hc _ hm
  · intro fmt f l u e hf hl hu
    simp only [exF] at hu
    split at hu
    · cases hu
    · cases hu
      rw [e] at h3
      simp only [Option.all_some, Bool.not_eq_true', decide_eq_false_iff_not] at h3
      simp only [List.mem_append, not_or]
      exact ⟨⟨⟨h3, hf⟩, by decide⟩, hl⟩

/-- `C87_headings`, `C87_once` apply to a project with references, subnames, places in the code and a graph. -/
example : ∃ c p, ReadsProject urlLibs (fun _ => some (exUrlRaw (some c!"http://x/"))) exId 4 exDocFs c!"/p" (.ok (c, p)) ∧ c.error = [] ∧ exX.namePrefix = p.settings.pre ∧
    (∀ x ∈ p.settings.pre, urlLibs.fold x ≠ urlLibs.fold '<') ∧ '\n' ∉ p.settings.pre ∧ Unbroken exF exX p ∧ (exportParts exF exX p).all Res.isOk = true ∧
    (arts p).map (headLine p.settings.pre) = [c!"# REQ-a", c!"# SPC-a"] := by
  have r := exDoc_reads (some c!"http://x/")
  have e : (exDoc (some c!"http://x/")).toOption.map (fun r => (r.1.error, r.2.settings.pre, headFine r.2, (exportParts exF exX r.2).all Res.isOk,
    (arts r.2).map (headLine r.2.settings.pre))) = some ([], [], true, true, [c!"# REQ-a", c!"# SPC-a"]) := by decide +kernel
  generalize exDoc (some c!"http://x/") = o at e r
  cases o with
  | ok x =>
    simp only [Res.toOption, Option.map_some, Option.some.injEq, Prod.mk.injEq] at e
    obtain ⟨e1, e2, e3, e4, e5⟩ := e
    exact ⟨x.1, x.2, r, e1, e2.symm, by rw [e2]; simp, by rw [e2]; simp, headFine_unbroken e3, e4, e5⟩
  | err => cases e
  | panic => cases e

/-! ## sections that are forged -/

/-- A project whose only artifact is done, in three lines. -/
def forgeDone : FS :=
  [(c!"", .dir), (c!"/p", .dir), (c!"/p/.art", .dir), (c!"/p/.art/settings.toml", .file (.text c!"")), (c!"/p/design", .dir),
   (c!"/p/design/a.json", .file (.text c!"{\"SPC-a\": {\"done\": \"yes\\n# REQ-forged\\n\"}}")), (c!"/p/src", .dir)]

/-- What is seen of a project in its document. -/
def forgeSeen (ex : ExportSettings) (r : Categorized × Project) : Bool × Str × Bool × Nat × List Str :=
  (r.1.error.isEmpty && r.1.other.isEmpty, r.2.settings.pre, (exportParts exF ex r.2).all Res.isOk, (arts r.2).length,
    (lines (written (exportParts exF ex r.2))).filter fun l => (nameLineRe foldC []).isFull l)

/-- The `done` field is written as it is: with newlines in it the document of a project without errors or warnings has a section about an artifact that does not exist. -/
theorem C87_forged_done : ∃ c p, ReadsProject exLibs.withJson (fun _ => some exRaw) exId 4 forgeDone c!"/p" (.ok (c, p)) ∧ c.error = [] ∧ c.other = [] ∧ p.settings.pre = [] ∧
    (exportParts exF exX p).all Res.isOk = true ∧ (arts p).length = 1 ∧
    headings exLibs.withJson.fold p.settings.pre (written (exportParts exF exX p)) = [c!"# SPC-a", c!"# REQ-forged"] := by
  have hs : SettingsOf (fun _ => some exRaw) forgeDone c!"/p" exS := ⟨exS.settingsPath, exRaw, rfl, rfl⟩
  have r := readNow_reads (L := exLibs.withJson) (hash := exId) (ncpu := 4) hs (by decide +kernel) (by decide +kernel)
  have e : (readNow exLibs.withJson exId forgeDone exS).toOption.map (forgeSeen exX) = some (true, [], true, 1, [c!"# SPC-a", c!"# REQ-forged"]) := by decide +kernel
  generalize readNow exLibs.withJson exId forgeDone exS = o at e r
  cases o with
  | ok x =>
    simp only [Res.toOption, Option.map_some, Option.some.injEq, forgeSeen, Prod.mk.injEq] at e
    obtain ⟨e1, e3, e4, e5, e6⟩ := e
    rw [Bool.and_eq_true, List.isEmpty_iff, List.isEmpty_iff] at e1
    refine ⟨x.1, x.2, r, e1.1, e1.2, e3, e4, e5, ?_⟩
    rw [headings_eq, e3]
    exact e6
  | err => cases e
  | panic => cases e

/-- A project whose only artifact has a graph with a comment in it. -/
def forgeGraph : FS := exFs c!"# SPC-a\nA graph:\n\n```dot\n# REQ-forged[[.x]]\n```\n" c!"" c!"" c!""

/-- A reference in a graph becomes a node in a line of its own: what comes before it, which was no beginning of an artifact, becomes one. -/
theorem C87_forged_graph : ∃ c p, ReadsProject exLibs (fun _ => some exRaw) exId 4 forgeGraph c!"/p" (.ok (c, p)) ∧ c.error = [] ∧ c.other = [] ∧ p.settings.pre = [] ∧
    (exportParts exF { exX with dot := .removeBraces } p).all Res.isOk = true ∧ (arts p).length = 1 ∧
    headings exLibs.fold p.settings.pre (written (exportParts exF { exX with dot := .removeBraces } p)) = [c!"# SPC-a", c!"# REQ-forged"] := by
  have hs : SettingsOf (fun _ => some exRaw) forgeGraph c!"/p" exS := ⟨exS.settingsPath, exRaw, rfl, rfl⟩
  have r := readNow_reads (L := exLibs) (hash := exId) (ncpu := 4) hs (by decide +kernel) (by decide +kernel)
  have e : (readNow exLibs exId forgeGraph exS).toOption.map (forgeSeen { exX with dot := .removeBraces }) = some (true, [], true, 1, [c!"# SPC-a", c!"# REQ-forged"]) := by
    decide +kernel
  generalize readNow exLibs exId forgeGraph exS = o at e r
  cases o with
  | ok x =>
    simp only [Res.toOption, Option.map_some, Option.some.injEq, forgeSeen, Prod.mk.injEq] at e
    obtain ⟨e1, e3, e4, e5, e6⟩ := e
    rw [Bool.and_eq_true, List.isEmpty_iff, List.isEmpty_iff] at e1
    refine ⟨x.1, x.2, r, e1.1, e1.2, e3, e4, e5, ?_⟩
    rw [headings_eq, e3]
    exact e6
  | err => cases e
  | panic => cases e

end Art
