import Verif.Props.Entries
import Verif.Cases.Origin
import Verif.Cases.Headings

/-! # Property C98: concrete cases -/

namespace Art.Entries
open Spec Origin Depends Better

def dataFs (t : Str) : FS :=
  [(c!"", .dir), (c!"/p", .dir), (c!"/p/.art", .dir), (c!"/p/.art/settings.toml", .file (.text c!"")), (c!"/p/design", .dir),
   (c!"/p/design/a.json", .file (.text t)), (c!"/p/src", .dir)]

def dataLibs : Libs := exLibs.withJson

/-- Two of the three entries have the same name in different spelling. -/
def dataText : Str := c!"{\"REQ-a\": {}, \"SPC-b\": {\"partof\": \"REQ-a\", \"text\": \"x\"}, \"spc-B\": {\"done\": \"y\"}}"

def dataDoc : List (Str × ArtDoc) :=
  [(c!"REQ-a", ⟨none, none, none⟩), (c!"SPC-b", ⟨none, some (.str c!"REQ-a"), some c!"x"⟩), (c!"spc-B", ⟨some c!"y", none, none⟩)]

theorem data_read : dataLibs.jsonRead dataText = some dataDoc := by decide +kernel

def dataEntries : List (Name × ArtifactRaw) :=
  [(nm "REQ-a", ⟨none, none, none⟩), (nm "SPC-b", ⟨none, some [nm "REQ-a"], some c!"x"⟩), (nm "spc-B", ⟨some c!"y", none, none⟩)]

theorem data_entries : List.Forall₂ Entry dataDoc dataEntries := by
  refine .cons ⟨by decide +kernel, rfl, .inl ⟨rfl, rfl⟩, .inl ⟨rfl, rfl⟩⟩ (.cons ⟨by decide +kernel, rfl, .inr ⟨_, rfl, by decide +kernel⟩, .inr ⟨_, _, rfl, by decide +kernel, rfl⟩⟩
    (.cons ⟨by decide +kernel, rfl, .inl ⟨rfl, rfl⟩, .inl ⟨rfl, rfl⟩⟩ .nil))

/-- The hypotheses of `C98_lost` are met: of three entries two are left, and the text and the link of the specification are lost. -/
theorem lost_case : List.Forall₂ Entry dataDoc dataEntries ∧ ¬ IMap.Nodup dataEntries ∧
    mapDe dataDoc [] = .ok [(nm "REQ-a", ⟨none, none, none⟩), (nm "SPC-b", ⟨some c!"y", none, none⟩)] := by
  refine ⟨data_entries, by unfold IMap.Nodup; decide +kernel, by decide +kernel⟩

/-- Both sides of `C98_reads` are met. -/
theorem entries_case : ∃ es, List.Forall₂ Entry dataDoc es ∧ Left es [(nm "REQ-a", ⟨none, none, none⟩), (nm "SPC-b", ⟨some c!"y", none, none⟩)] :=
  (C98_reads _ _).1 ⟨_, lost_case.2.2, .refl _⟩

/-- Both sides of `C98_fails` are met: the second entry is not a name, and what is wrong with the third is not reported. -/
theorem bad_case : FirstBad [(c!"SPC-a", ⟨none, none, none⟩), (c!"b", ⟨none, none, none⟩), ([longS, 'P', 'C', '-', 'x'], ⟨none, none, none⟩)] (some .invalidName) ∧
    FirstBad [(c!"SPC-a", ⟨none, none, none⟩), ([longS, 'P', 'C', '-', 'x'], ⟨none, none, none⟩), (c!"b", ⟨none, none, none⟩)] none :=
  ⟨(C98_fails _ _ []).1 (by unfold Stops; decide +kernel), (C98_fails _ _ []).1 (by unfold Stops; decide +kernel)⟩

/-- The hypotheses of `C98_shown` are met by a file in which an artifact is lost; the project is read without an error or a warning. -/
theorem data_case : ∃ c p, ReadsProject dataLibs (fun _ => some exRaw) exId 4 (dataFs dataText) c!"/p" (.ok (c, p)) ∧
    c!"/p/design/a.json" ∈ walkArtifacts (dataFs dataText) p.settings ∧ ArtFileType.fromPath c!"/p/design/a.json" = some .json ∧
    c.error = [] ∧ c.other = [] ∧ (editable p).map (fun a => a.partof) = [[], []] ∧
    (editable p).map (fun a => (a.name.raw, a.done, a.text)) = [(c!"REQ-a", none, []), (c!"SPC-b", some c!"y", [])] := by
  have hs : SettingsOf (fun _ => some exRaw) (dataFs dataText) c!"/p" exS := ⟨_, _, rfl, (exFs_settings [] [] [] []).2⟩
  have r := readNow_reads (L := dataLibs) (hash := exId) (ncpu := 4) hs (by decide +kernel) (by decide +kernel)
  have hk : ((readNow dataLibs exId (dataFs dataText) exS).toOption.map fun r => decide (r.2.settings = exS) && (decide (r.1.error = [] ∧ r.1.other = [] ∧ (editable r.2).map (fun a => a.partof) = [[], []])) &&
      decide ((editable r.2).map (fun a => (a.name.raw, a.done, a.text)) = [(c!"REQ-a", none, []), (c!"SPC-b", some c!"y", [])])) = some true := by decide +kernel
  generalize readNow dataLibs exId (dataFs dataText) exS = o at r hk
  cases o with
  | ok x =>
    simp only [Res.toOption, Option.map_some, Option.some.injEq, Bool.and_eq_true, decide_eq_true_eq] at hk
    exact ⟨x.1, x.2, r, by rw [hk.1.1]; decide +kernel, by decide, hk.1.2.1, hk.1.2.2.1, hk.1.2.2.2, hk.2⟩
  | err => cases hk
  | panic => cases hk

end Art.Entries
