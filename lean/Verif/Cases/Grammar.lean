import Verif.Props.Grammar
import Verif.Props.SaveEx

/-! # Property C91: concrete cases -/

namespace Art.Grammar
open Spec

/-- A library that knows one document of attributes. -/
def oneDoc : Libs := { nameLibs with yamlRead := fun s => if s = c!"done: yes" then some (some c!"yes", none) else none }

/-- A file as people write them: a title and an attribute block above the first artifact, attributes above `###`, a block of attributes in the middle of a text, and
at the end a block that is not closed, with an artifact after it. -/
def byHand : Str := c!"The design\n```art\nnonsense: [\n```\n# REQ-a\ndone: yes\n###\nwhy\n# SPC-a \nhow\n```yaml art\ndone: yes\n```\nmore\n#TST-a\ntext\n```art\n# TST-b\nnot seen"

/-- It is read as three artifacts. -/
theorem byHand_read : fromMarkdown oneDoc [] byHand = .ok [(nm "REQ-a", ⟨some c!"yes", none, some c!"why"⟩),
    (nm "SPC-a", ⟨some c!"yes", none, some c!"how\nmore\n"⟩), (nm "TST-a", ⟨none, none, some c!"text\n```art\n"⟩)] := by decide +kernel

/-- The grammar says the same about it. -/
theorem byHand_means : ∃ ps, Cut foldC [] (lines byHand) ps ∧ Means oneDoc ps [(nm "REQ-a", ⟨some c!"yes", none, some c!"why"⟩),
    (nm "SPC-a", ⟨some c!"yes", none, some c!"how\nmore\n"⟩), (nm "TST-a", ⟨none, none, some c!"text\n```art\n"⟩)] :=
  (C91_reads oneDoc [] byHand _).1 byHand_read

/-- A file is refused if an artifact has attributes twice, and then the pieces stand for nothing. -/
theorem twice_refused : ∃ ps, Cut foldC [] (lines c!"# REQ-a\ndone: yes\n###\nwhy\n###\n") ps ∧ ∀ out, ¬ Means oneDoc ps out := by
  obtain ⟨⟨ps, h, hu⟩, _⟩ := C91_cut foldC [] (lines c!"# REQ-a\ndone: yes\n###\nwhy\n###\n")
  refine ⟨ps, h, fun out hm => ?_⟩
  have h1 := (C91_reads oneDoc [] c!"# REQ-a\ndone: yes\n###\nwhy\n###\n" out).2 ⟨ps, h, hm⟩
  have h2 : (fromMarkdown oneDoc [] c!"# REQ-a\ndone: yes\n###\nwhy\n###\n").toOption = none := by decide +kernel
  rw [h1] at h2
  cases h2

theorem textLine_of {fold : Char → Char} {pre l : Str}
    (h : (nameLineRe fold pre).isFull l = false ∧ attrsEndRe.isFull l = false ∧ attrsCodeRe.isFull l = false) : TextLine fold pre l :=
  ⟨by rw [← nameLine_iff, h.1]; simp, by rw [← endLine_iff, h.2.1]; simp, by rw [← fenceLine_iff, h.2.2]; simp⟩

/-- The hypotheses of `C91_unclosed` are met: what comes after the open block may be an artifact or a mistake. -/
theorem unclosed_case (L : Libs) : fromMarkdown L [] c!"# REQ-a\nwhy\n```art\n# REQ-b\nmore" = fromMarkdown L [] c!"# REQ-a\nwhy\n```art\n# REQ-a\n###\n###" := by
  have hn : HeadLine L.fold [] c!"# REQ-a" c!"REQ-a" :=
    ⟨[], c!" ", [], rfl, rfl, by unfold AllBlank; decide, (nm "REQ-a").lang, by unfold AllBlank; decide⟩
  have nl : ∀ l : Str, '#' ∉ l → ¬ NameLine L.fold [] l := by
    rintro l hl ⟨p, w, n, w', rfl, _⟩
    exact hl (by simp)
  have ht : TextLine L.fold [] c!"why" := by
    refine ⟨nl _ (by decide), ?_, ?_⟩
    · rw [← endLine_iff]; decide
    · rw [← fenceLine_iff]; decide
  refine C91_unclosed L [] (ls := [c!"# REQ-a", c!"why"]) (o := c!"```art") (lost := [c!"# REQ-b", c!"more"]) (lost' := [c!"# REQ-a", c!"###", c!"###"])
    (.head hn (.text ht .nil)) ?_ (nl _ (by decide)) (fenceLine_iff.1 (by decide)) ?_ ?_ (by decide) (by decide)
  · intro o lost h; simp at h
  · intro l hl
    rw [← closeLine_iff]
    simp only [List.mem_cons, List.not_mem_nil, or_false] at hl
    rcases hl with rfl | rfl <;> decide
  · intro l hl
    rw [← closeLine_iff]
    simp only [List.mem_cons, List.not_mem_nil, or_false] at hl
    rcases hl with rfl | rfl | rfl <;> decide

/-- The hypotheses of `C91_above` are met by a title. -/
theorem above_case (L : Libs) : fromMarkdown L [] c!"The design\n# REQ-a\nwhy" = fromMarkdown L [] c!"# REQ-a\nwhy" := by
  have ht : TextLine L.fold [] c!"The design" := by
    refine ⟨?_, ?_, ?_⟩
    · rintro ⟨p, w, n, w', h, _⟩
      have : '#' ∈ c!"The design" := by rw [h]; simp
      revert this; decide
    · rw [← endLine_iff]; decide
    · rw [← fenceLine_iff]; decide
  exact C91_above L [] (above := [c!"The design"]) (ls := [c!"# REQ-a", c!"why"]) (.text ht .nil) (by intro n h; simp at h)
    (by intro o lost h; simp at h) (by decide) (by decide)

/-- `REQ-b` is written after a block that was not closed. -/
def exOpen : FS :=
  [(c!"", .dir), (c!"/p", .dir), (c!"/p/.art", .dir), (c!"/p/.art/settings.toml", .file (.text c!"")), (c!"/p/design", .dir),
   (c!"/p/design/a.md", .file (.text c!"# REQ-a\nwhy\n```art\n\n# REQ-b\nwhat\n")), (c!"/p/src", .dir)]

/-- Formatting the project, which asks for no change and is not refused, removes `REQ-b` from the disk. -/
theorem C91_removed : ∃ (fs' : FS) (r : Categorized × Project), FS.WF exOpen ∧ Safe exOpen exS ∧
    Modifies nameLibs (fun _ => some exRaw) exId (fun _ => []) 4 exOpen c!"/p" [] (some (.ok r)) fs' ∧
    shown fs' = [("/p/design/a.md", "# REQ-a\nwhy\n```art")] := by
  have w : FS.WF exOpen := FS.isTree_wf (by decide +kernel)
  have hs : SettingsOf (fun _ => some exRaw) exOpen c!"/p" exS := ⟨exS.settingsPath, exRaw, rfl, rfl⟩
  have hw : showNow exOpen exS [] 1000 = some (["/p/design/a.md"], .done, [("/p/design/a.md", "# REQ-a\nwhy\n```art")]) := by decide +kernel
  obtain ⟨files, fs', h1, _, h3⟩ := modifyNow_some hw
  obtain ⟨_, out, ⟨r, rfl⟩, hm⟩ := modifyNow_sound (ncpu := 4) hs (by decide +kernel) (by decide +kernel) h1
  exact ⟨fs', r, w, exSafe_of w (by decide +kernel) (by decide +kernel), hm, h3⟩

end Art.Grammar
