import Verif.Cases.Disk
import Verif.Props.Float
import Verif.Props.Json
import Verif.Props.Wire
import Verif.Props.LiveEx
import Verif.Props.Yaml
import Verif.Props.Toml

/-!
# Cases: numbers, JSON, messages and writing while walking
The theorems of `Props/Float.lean`, `Props/Json.lean`, `Props/Wire.lean`, `Props/Live.lean`, `Props/Yaml.lean` and `Props/Toml.lean` applied to concrete cases that
meet their hypotheses.
-/

namespace Art
open Spec Whole

/-! ## numbers -/

theorem caseThird : RoundedF32 (((333 : Nat) : ℚ) / 1000) (f32 (333 / 1000)) := by exact_mod_cast (C58_ieee (333 / 1000)).2

example : tenthsF (f32 (333 / 1000)) = 333 ∧ hundredthsF (f32 (333 / 1000)) = 3330 := C58_printed (k := 333) (by decide) caseThird
example := C58_no_tie (k := 333) (by decide) caseThird
example := C58_points (k := 333) (j := 333) (by decide) (by decide) (c := ⟨f32 (333 / 1000), f32 (333 / 1000)⟩) caseThird caseThird
example : 1000 * floatError 1000 100 < 1 / 2 := C58_small (by decide)

/-! ## JSON -/

example : JsonText exVal.show exVal ∧ JsonText (exVal.pretty 3) exVal := ⟨(C62_written exTree_ok.1).1, (C62_written exTree_ok.1).2.2 3⟩
example (v : Json) (h : JsonText exVal.show v) : v = exVal := C62_unambiguous h (C62_written exTree_ok.1).1
example (v : Json) (h : NumsOk v) (e : v.show = exVal.show) : v = exVal := C62_injective h exTree_ok.1 e
example : Survives exLibs.withJson exS c!"/p/design/a.json" exJsonArts := C62_survives _ _ (by decide) _

/-- A project of JSON files is written and read again. -/
example : ∃ res fs', Modifies exLibs.withJson (fun _ => some exRaw) exId (fun _ => []) 4 exJson c!"/p" [] (some (.ok res)) fs' ∧
    ((∀ a ∈ editable res.2, ArtFileType.fromPath a.file = some .json) → ∀ out, ReadsProject exLibs.withJson (fun _ => some exRaw) exId 4 fs' c!"/p" out →
      (Crashing res.2 ∧ out = .panic) ∨ (¬ Crashing res.2 ∧ ∃ c2 q2, out = .ok (c2, q2) ∧ foldCase q2 = foldCase res.2)) := by
  obtain ⟨c, p, res, fs', h1, h2, h3, h4, h5, h6, h7, h8, -⟩ := exJson_fmt
  obtain ⟨_, _, _, _, _, ap, _⟩ := exKept
  refine ⟨res, fs', h8, fun hj out ho => C62_reload h1 exJson_settings h2 ap (by intro op ho; cases ho) (by intro op ho; cases ho) h8 hj ho⟩

/-! ## messages -/

example := C63_request (.read 7 true) exCalls.2.2.1 (by decide)
example := C63_request _ exCalls.2.2.2 (by decide)
example (q : Web.Req) (h : Asks q 7) (e : q.body = (Web.Req.read 7 true).body) : q = .read 7 true := C63_injective h exCalls.2.2.1 (by decide) (by decide) e
example (c : Categorized) (hc : LintsSound c) (h : c.display = exLints.display) : c = exLints := C63_lints hc exLints_sound.1 h

theorem caseServed : ∃ x : ProjectResult, ReadsProject nameLibs (fun _ => some exRaw) exId 4 exGood c!"/p" (.ok (x.lints, x.project)) ∧ ProjectSound x.project ∧
    RatiosBack exDec exUndec x.project := by
  obtain ⟨s, hist, t, x, h1, h2, h3, h4, h5, h6, h7⟩ := exServed
  exact ⟨x, h5, (read_sendable h5).sound h7, (read_sendable h5).back exNumbers⟩

/-- The answer with the project and some lints arrives. -/
example : ∃ (c : Categorized) (p : Project) (body : Str) (q : Project), ReadsProject nameLibs (fun _ => some exRaw) exId 4 exGood c!"/p" (.ok (c, p)) ∧
    Reply.body exDec WireExport.default [] (.num (showNat 7)) (.success ⟨p, exLints⟩) = some body ∧ SameProject p q := by
  obtain ⟨x, h, hp, hr⟩ := caseServed
  obtain ⟨body, q, h1, -, h3⟩ := C63_answer false WireExport.default (r := ⟨x.project, exLints⟩) hp hr exLints_sound.1 (jid := 7) (by decide) []
  exact ⟨x.lints, x.project, body, q, h, h1, h3⟩

/-- The page does the same whatever the lints are. -/
example : ∃ (p : Project) (m : _), ∀ body body', Reply.body exDec WireExport.default [] (.num (showNat 7)) (.success ⟨p, exLints⟩) = some body →
    Reply.body exDec WireExport.default [] (.num (showNat 7)) (.success ⟨p, ⟨[], []⟩⟩) = some body' →
    handleResponse ⟨true, exUndec, fun _ => []⟩ true [] body = .ok (some m) ∧ handleResponse ⟨true, exUndec, fun _ => []⟩ true [] body' = .ok (some m) := by
  obtain ⟨x, h, hp, hr⟩ := caseServed
  have hn : LintsSound ⟨[], []⟩ := by intro l hl; cases hl
  obtain ⟨b1, _, e1, -⟩ := C63_answer false WireExport.default (r := ⟨x.project, exLints⟩) hp hr exLints_sound.1 (jid := 7) (by decide) []
  obtain ⟨b2, _, e2, -⟩ := C63_answer false WireExport.default (r := ⟨x.project, ⟨[], []⟩⟩) hp hr hn (jid := 7) (by decide) []
  obtain ⟨m, h1, h2⟩ := C63_lints_unseen ⟨true, exUndec, fun _ => []⟩ WireExport.default hp hr exLints_sound.1 hn (jid := 7) (by decide) [] [] e1 e2
  refine ⟨x.project, m, fun body body' h h' => ?_⟩
  rw [e1] at h
  rw [e2] at h'
  cases h
  cases h'
  exact ⟨h1, h2⟩

example : ∃ p : Project, ∃ l, Json.parse (lsJson exDec p [nm "SPC-a", nm "SPC-gone"]) = some (.arr l) ∧ l.length = 2 := by
  obtain ⟨x, h, -, -⟩ := caseServed
  obtain ⟨l, h1, h2⟩ := C63_ls false exNumbers h exFits [nm "SPC-a", nm "SPC-gone"]
  exact ⟨x.project, l, h1, h2.length_eq.symm⟩

example := caseServed.imp fun _ h => C63_static ⟨true, exUndec, fun _ => []⟩ exNumbers WireExport.default [] h.1 exFits
example := caseServed.imp fun _ h => fun (x' : ProjectResult) (h' : ReadsProject nameLibs (fun _ => some exRaw) exId 4 exGood c!"/p" (.ok (x'.lints, x'.project))) (e e' : WireExport)
  he => C63_text_injective exNumbers h.1 exFits h' exFits (e := e) (e' := e') he

/-! ## writing while walking -/

example := C64_complete exGood_wf (fun x hx => (supported_ext (case_orderly.files x hx)).2) (caseCfg_reaches 10)
example := C64_overlap_doomed (L := nameLibs) (files := []) exNested_wf (by decide +kernel) exNested_twice

example : ∃ r fs', LiveModifies nameLibs (fun _ => some exRaw) exId (fun _ => []) 4 exGood c!"/p" exOps (some (.ok r)) fs' ∧
    ∀ q, IMap.get? fs' q ≠ IMap.get? exGood q → MayTouch nameLibs (fun _ => some exRaw) exId (fun _ => []) 4 exGood c!"/p" exOps exS q := by
  obtain ⟨r, fs', hm⟩ := caseDone
  have h := (C64_modify exGood_wf exGood_settings exOps_ok.2.1 exGood_separate _).2 hm
  exact ⟨r, fs', h, (C64_safe exGood_wf exGood_settings exOps_ok.2.1 exGood_separate exGood_safe h).2.1⟩

/-! ## YAML and TOML -/

example (v : Option Str × Option NamesDoc) (h : YamlAttrsText c!"partof: REQ-a\ndone: by hand" v) : v = (some c!"by hand", some (.str c!"REQ-a")) :=
  C67_unambiguous h ((C67_reads _ _).1 (by decide +kernel))

theorem caseDoneText : DoneOk c!"it's: done " := by
  unfold DoneOk YamlChar
  decide

example : DoneKept exNum c!"it's: done " := C67_doneOk caseDoneText exNum
example : YamlOk exYamlLibs ⟨some c!"it's: done ", some [nm "REQ-a"], none⟩ :=
  C67_yamlOk exYamlLibs_ok (by rintro d ⟨⟩; exact C67_doneOk caseDoneText exNum) (by rintro p ⟨⟩ h; cases h)
example : ¬ YamlOk exYamlLibs ⟨some ['x', Char.ofNat 0xa0], some [nm "REQ-a"], none⟩ := by
  intro h
  have h := (C67_yamlOk_iff exLibs exNum (r := ⟨some ['x', Char.ofNat 0xa0], some [nm "REQ-a"], none⟩) (by rintro p ⟨⟩ h; cases h)).1 h _ rfl
  revert h
  rintro (h | ⟨-, h'⟩)
  · revert h; decide
  · exact absurd (h' _ rfl) (by decide)

example (v : List (Str × ArtDoc)) (h : TomlArtsText c!"[REQ-a]\ndone = 'x'" v) : v = [(c!"REQ-a", ⟨some c!"x", none, none⟩)] :=
  C68_unambiguous h ((C68_reads _ _).1 (by decide +kernel))
example (v : List (Str × ArtDoc)) : ¬ TomlArtsText (tomlDocs [(c!"REQ-a", ⟨none, none, some [Char.ofNat 0x7f]⟩)]) v :=
  C68_unreadable (x := (c!"REQ-a", ⟨none, none, some [Char.ofNat 0x7f]⟩)) (by simp) (by simp [DocKept, TomlKept]) v
example : Survives exAllLibs exS c!"/p/design/b.toml" [⟨nm "REQ-a", c!"/p/design/b.toml", [], some c!"by hand", c!"say \"hi\""⟩] :=
  C68_survives exAllLibs_ok.2 (by decide) (by decide) (by
    intro a ha
    cases List.mem_singleton.1 ha
    unfold TomlKept
    refine ⟨by decide, ?_⟩
    rintro d ⟨⟩
    decide)
example : ¬ Survives exAllLibs exS c!"/p/design/b.toml" [⟨nm "REQ-a", c!"/p/design/b.toml", [], none, [Char.ofNat 0x7f]⟩] := by
  intro h
  have h := ((C68_survives_iff (exLibs.withYaml exNum) (by decide) (by decide)).1 h _ (List.mem_singleton.2 rfl)).1
  revert h
  unfold TomlKept
  decide

end Art
