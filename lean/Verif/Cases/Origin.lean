import Verif.Props.Origin
import Verif.Cases.Better

/-! # Property C97: concrete cases -/

namespace Art.Origin
open Spec Grammar Fault Depends Better

/-- Three YAML texts can be read; in the third the name has a letter that only looks like `s`. -/
def fromDoc (t : Str) : Option (Option Str × Option NamesDoc) :=
  if t = c!"done: yes" then some (some c!"yes", none)
  else if t = c!"partof: x" then some (none, some (.seq [c!"REQ-x", c!"req-A"]))
  else if t = c!"partof: y" then some (none, some (.str [longS, 'P', 'C', '-', 'x']))
  else none

def fromLibs : Libs := { exLibs with yamlRead := fromDoc }

def fileA : Str := c!"above\n# SPC-a\npartof: x\n###\nhow  \n"
def fileB : Str := c!"# REQ-a\nwhy\nso\n\n# REQ-x\ndone: yes\n###\n"
def fileC : Str := c!"# REQ-a\nwhy\n# SPC-a\npartof: y\n###\n"

def shownNow (fs : FS) : List ArtifactIm := match readNow fromLibs exId fs exS with
  | .ok r => editable r.2
  | _ => []

theorem shown_reads (a b : Str) (hc : (walkCode (exFs a b [] []) exS).countP (fun f => (codeSent fromLibs (exFs a b [] []) f).dead) < 4)
    (ha : (walkArtifacts (exFs a b [] []) exS).countP (fun f => (artSent fromLibs exS.pre (exFs a b [] []) f).dead) < 4)
    (ho : (readNow fromLibs exId (exFs a b [] []) exS).isOk = true) (hset : ((readNow fromLibs exId (exFs a b [] []) exS).toOption.map fun r => decide (r.2.settings = exS)) = some true) :
    ∃ c p, ReadsProject fromLibs (fun _ => some exRaw) exId 4 (exFs a b [] []) c!"/p" (.ok (c, p)) ∧ shownNow (exFs a b [] []) = editable p ∧ p.settings = exS := by
  have hs : SettingsOf (fun _ => some exRaw) (exFs a b [] []) c!"/p" exS := ⟨_, _, (exFs_settings _ _ _ _).1, (exFs_settings [] [] [] []).2⟩
  have r := readNow_reads (hash := exId) hs hc ha
  unfold shownNow
  generalize readNow fromLibs exId (exFs a b [] []) exS = o at r ho hset ⊢
  cases o with
  | ok x => exact ⟨x.1, x.2, r, rfl, by simpa [Res.toOption] using hset⟩
  | err => cases ho
  | panic => cases ho

/-- The hypotheses of `C97_shown` are met by both files, and both are shown. The link to the requirement with the name of the specification is automatic and not shown;
the white space at the ends of the texts is gone. -/
theorem shown_case : ∃ c p, ReadsProject fromLibs (fun _ => some exRaw) exId 4 (exFs fileA fileB [] []) c!"/p" (.ok (c, p)) ∧
    c!"/p/design/a.md" ∈ walkArtifacts (exFs fileA fileB [] []) p.settings ∧ c!"/p/design/b.md" ∈ walkArtifacts (exFs fileA fileB [] []) p.settings ∧
    ArtFileType.fromPath c!"/p/design/a.md" = some .md ∧ ArtFileType.fromPath c!"/p/design/b.md" = some .md ∧
    (∃ out, Stands fromLibs p.settings.pre fileA out) ∧ (∃ out, Stands fromLibs p.settings.pre fileB out) ∧
    (editable p).map (fun a => (a.name.raw, a.file)) =
      [(c!"REQ-a", c!"/p/design/b.md"), (c!"REQ-x", c!"/p/design/b.md"), (c!"SPC-a", c!"/p/design/a.md")] ∧
    (editable p).map (fun a => (a.done, a.text)) = [(none, c!"why\nso\n"), (some c!"yes", []), (none, c!"how")] ∧
    (editable p).map (fun a => a.partof.map Name.raw) = [[], [], [c!"REQ-x"]] := by
  obtain ⟨c, p, h, e, hs⟩ := shown_reads fileA fileB (by decide +kernel) (by decide +kernel) (by decide +kernel) (by decide +kernel)
  refine ⟨c, p, h, by rw [hs]; decide +kernel, by rw [hs]; decide +kernel, by decide, by decide, ?_, ?_, by rw [← e]; decide +kernel, by rw [← e]; decide +kernel, by rw [← e]; decide +kernel⟩
  · rw [hs]; exact ⟨[(nm "SPC-a", ⟨none, some [nm "REQ-x", nm "req-A"], some c!"how"⟩)], (C91_reads ..).1 (by decide +kernel)⟩
  · rw [hs]; exact ⟨[(nm "REQ-a", ⟨none, none, some c!"why\nso\n"⟩), (nm "REQ-x", ⟨some c!"yes", none, none⟩)], (C91_reads ..).1 (by decide +kernel)⟩

/-- The second alternative of `C97_shown` happens: a link with a wrong letter, and neither the artifact nor the one above it in the file is shown. The project is read without an
error, and a file with one artifact less is not noticed. -/
theorem left_out_case : ∃ c p, ReadsProject fromLibs (fun _ => some exRaw) exId 4 (exFs c!"# REQ-b\n" fileC [] []) c!"/p" (.ok (c, p)) ∧
    c!"/p/design/b.md" ∈ walkArtifacts (exFs c!"# REQ-b\n" fileC [] []) p.settings ∧ Breaks fromLibs p.settings.pre fileC ∧
    (editable p).map (fun a => a.name.raw) = [c!"REQ-b"] := by
  obtain ⟨c, p, h, e, hs⟩ := shown_reads c!"# REQ-b\n" fileC (by decide +kernel) (by decide +kernel) (by decide +kernel) (by decide +kernel)
  refine ⟨c, p, h, by rw [hs]; decide +kernel, ?_, by rw [← e]; decide +kernel⟩
  rw [hs]
  exact (C94_reported fromLibs exS.pre fileC none).1 (by unfold Failed; decide +kernel)

end Art.Origin
