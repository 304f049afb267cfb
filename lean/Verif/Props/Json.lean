import Verif.Lemmas.Json
import Verif.Props.FmtTwice

/-!
# C62: JSON
The reader and the writer of JSON against the grammar of RFC 8259, and what that means for artifact files.
-/

namespace Art
open Spec

/-- C62: a text is read if and only if it is a JSON text whose arrays and objects are nested at most 127 deep, and it is read as the value that it is. -/
theorem C62_reads (s : Str) (v : Json) : Json.parse s = some v ↔ JsonText s v ∧ nesting v ≤ 127 := parse_iff s v

/-- C62: a text is the text of one value only. -/
theorem C62_unambiguous {s : Str} {v v' : Json} (h : JsonText s v) (h' : JsonText s v') : v = v' := jsonText_unique h h'

/-- C62: what is written is a JSON text of the value; in the short form it has no line ends or other control characters, whatever the strings contain. -/
theorem C62_written {v : Json} (h : NumsOk v) : JsonText v.show v ∧ (∀ c ∈ v.show, 0x20 ≤ c.toNat) ∧ ∀ i, JsonText (v.pretty i) v :=
  ⟨jsonText_of_value (show_value v h), noControl_show v h, fun i => jsonText_of_value (pretty_value v i h)⟩

/-- C62: what is written is read back. -/
theorem C62_back {v : Json} (h : NumsOk v) (hn : nesting v ≤ 127) : Json.parse v.show = some v ∧ ∀ i, Json.parse (v.pretty i) = some v :=
  ⟨(parse_iff _ _).2 ⟨(C62_written h).1, hn⟩, fun i => (parse_iff _ _).2 ⟨(C62_written h).2.2 i, hn⟩⟩

/-- C62: different values are written differently, at any depth. -/
theorem C62_injective {v v' : Json} (h : NumsOk v) (h' : NumsOk v') (e : v.show = v'.show) : v = v' :=
  jsonText_unique (C62_written h).1 (e ▸ (C62_written h').1)

/-- C62: the artifacts in a JSON file are those that its text says. The members of an artifact that are not `done`, `partof` or `text` are ignored. -/
theorem C62_file (s : Str) (l : List (Str × ArtDoc)) : jsonFileRead s = some l ↔
    ∃ m, JsonText s (.obj m) ∧ nesting (.obj m) ≤ 127 ∧ List.Forall₂ (fun e x => e.1 = x.1 ∧ ArtifactIs e.2 x.2) m l := jsonFileRead_iff s l

/-- C62: an artifact in an object has one reading only. -/
theorem C62_file_unique {v : Json} {d d' : ArtDoc} (h : ArtifactIs v d) (h' : ArtifactIs v d') : d = d' := by
  rw [← toArtDoc_iff] at h h'
  rw [h] at h'
  exact Option.some.inj h'

/-- C62: a JSON file that was written is read back: JSON files need none of the conditions of C46. -/
theorem C62_survives (L : Libs) (s : Settings) {f : FilePath} (hf : ArtFileType.fromPath f = some .json) (ims : List ArtifactIm) :
    Survives L.withJson s f ims := by
  unfold Survives
  rw [hf]
  exact fun l _ => jsonFile_back _

section
variable {L : Libs} {readToml : Str → Option SettingsRaw} {hash : ArtifactIm → HashIm} {dbg : ArtifactIm → Str} {ncpu ncpu' : Nat} {fs fs' : FS}
  {base : FilePath} {s : Settings} {ops : List ArtifactOp} {c : Categorized} {p q : Project}

/-- C62: if all artifacts are in JSON files, reading again after a modification gives the project that was returned, whatever the texts of the artifacts are and without
any assumption on a library. -/
theorem C62_reload (w : FS.WF fs) (hs : SettingsOf readToml fs base s) (hsafe : Safe fs s) (ap : Apart s) (hl : LinkSets ops)
    (once : ∀ op ∈ ops, ∀ a, Brings op a → ReadOnce s a.file)
    (h : Modifies L.withJson readToml hash dbg ncpu fs base ops (some (.ok (c, q))) fs')
    (json : ∀ a ∈ editable q, ArtFileType.fromPath a.file = some .json)
    {out : Res Categorized (Categorized × Project)} (h' : ReadsProject L.withJson readToml hash ncpu' fs' base out) :
    (Crashing q ∧ out = .panic) ∨ (¬ Crashing q ∧ ∃ c2 q2, out = .ok (c2, q2) ∧ foldCase q2 = foldCase q) :=
  C46_reload w hs hsafe ap hl once h (fun a ha => C62_survives L s (json a ha) _) h'

/-- C62: if all artifacts are in JSON files, formatting keeps every artifact, whatever the texts of the artifacts are and without any assumption on a library. -/
theorem C62_fmt (w : FS.WF fs) (hs : SettingsOf readToml fs base s) (hsafe : Safe fs s) (ap : Apart s)
    (hr : ReadsProject L.withJson readToml hash ncpu fs base (.ok (c, p))) (hcol : NoCollision hash p [])
    (json : ∀ a ∈ editable p, ArtFileType.fromPath a.file = some .json)
    {res : Categorized × Project} (h : Modifies L.withJson readToml hash dbg ncpu' fs base [] (some (.ok res)) fs')
    {n : Nat} {out : Res Categorized (Categorized × Project)} (h' : ReadsProject L.withJson readToml hash n fs' base out) :
    ∃ c2 q2, out = .ok (c2, q2) ∧ foldCase q2 = foldCase p :=
  C46_fmt w hs hsafe ap hr hcol (fun a ha => C62_survives L s (json a ha) _) h h'

end

/-! ## examples -/

/-- A value with everything in it: a quote, a backslash, a line end and a bell in strings, numbers, nesting. -/
def exVal : Json :=
  .obj [(c!"a\"b", .arr [.num c!"-12.5e+3", .bool true, .null, .arr [], .obj []]), (c!"", .str (c!"line\n\\end" ++ [Char.ofNat 7, 'é', '😀']))]

theorem jsonNum_of {s : Str} (h : readNum s = some (s, [])) : JsonNum s := (readNum_spec h).1

theorem exTree_ok : NumsOk exVal ∧ nesting exVal ≤ 127 := by
  refine ⟨?_, by decide +kernel⟩
  simp [exVal, NumsOk, NumsOks, NumsOkm]
  exact jsonNum_of (by decide +kernel)

example : String.ofList exVal.show = "{\"a\\\"b\":[-12.5e+3,true,null,[],{}],\"\":\"line\\n\\\\end\\u0007é😀\"}" := by decide +kernel

example : String.ofList (exVal.pretty 0) =
    "{\n  \"a\\\"b\": [\n    -12.5e+3,\n    true,\n    null,\n    [],\n    {}\n  ],\n  \"\": \"line\\n\\\\end\\u0007é😀\"\n}" := by decide +kernel

example : Json.parse exVal.show = some exVal ∧ ∀ i, Json.parse (exVal.pretty i) = some exVal := C62_back exTree_ok.1 exTree_ok.2

/-- Texts that are no JSON texts. -/
example : ∀ s ∈ [c!"", c!"[1,]", c!"{\"a\":1,}", c!"[01]", c!"[1.]", c!"[+1]", c!"'a'", c!"\"a\nb\"", c!"\"\\ud800\"", c!"\"\\x\"", c!"nul", c!"[1] 2", c!"{a:1}", c!"[", c!"-"],
    ∀ v, ¬ (JsonText s v ∧ nesting v ≤ 127) := by
  intro s hs v h
  have h := (C62_reads s v).2 h
  have key : ∀ s ∈ [c!"", c!"[1,]", c!"{\"a\":1,}", c!"[01]", c!"[1.]", c!"[+1]", c!"'a'", c!"\"a\nb\"", c!"\"\\ud800\"", c!"\"\\x\"", c!"nul", c!"[1] 2", c!"{a:1}", c!"[", c!"-"],
      (Json.parse s).isSome = false := by decide +kernel
  have := key s hs
  rw [h] at this
  cases this

/-- A pair of escapes is one character. -/
example : JsonText c!" [ \"\\ud83d\\uDE00\" ] " (.arr [.str ['😀']]) :=
  ((C62_reads _ _).1 (by
    have : (Json.parse c!" [ \"\\ud83d\\uDE00\" ] ").map (fun v => match v with | .arr [.str s] => s | _ => []) = some ['😀'] := by decide +kernel
    obtain ⟨v, hv, h⟩ := Option.map_eq_some_iff.1 this
    rw [hv]
    revert h
    split
    · rintro rfl; rfl
    · intro h; cases h)).1

/-- A JSON project. The second artifact has a misspelled field. -/
def exJson : FS :=
  [(c!"", .dir), (c!"/p", .dir), (c!"/p/.art", .dir), (c!"/p/.art/settings.toml", .file (.text c!"")), (c!"/p/design", .dir),
   (c!"/p/design/a.json", .file (.text c!"{\"REQ-a\": {\"text\": \"say \\\"hi\\\" in\\nC:\\\\dir\\u000b!\"},\n \"SPC-b\": {\"partof\": \"REQ-a\", \"txt\": \"important\"}}")), (c!"/p/src", .dir)]

theorem exJson_settings : SettingsOf (fun _ => some exRaw) exJson c!"/p" exS := ⟨exS.settingsPath, exRaw, rfl, rfl⟩

/-- The artifacts of the example. -/
def exJsonArts : List ArtifactIm :=
  [⟨Name.lit c!"REQ-a", c!"/p/design/a.json", [], none, (c!"say \"hi\" in\nC:\\dir" ++ [Char.ofNat 11, '!', '\n'])⟩, ⟨Name.lit c!"SPC-b", c!"/p/design/a.json", [Name.lit c!"REQ-a"], none, []⟩]

theorem exJson_now : (match readNow exLibs.withJson exId exJson exS with | .ok r => some (r.1.error, r.1.other.length, editable r.2) | _ => none) =
      some ([], 0, exJsonArts) ∧
    (modifyNow exLibs.withJson exId exJson exS [] 1000).map (fun r => (r.2.1, shown r.2.2)) =
      some (.done, [("/p/design/a.json",
        "{\"REQ-a\":{\"done\":null,\"partof\":null,\"text\":\"say \\\"hi\\\" in\\nC:\\\\dir\\u000b!\\n\"},\"SPC-b\":{\"done\":null,\"partof\":\"REQ-a\",\"text\":null}}")]) := by
  decide +kernel

/-- A case that meets the hypotheses of `C62_fmt`, with a text that has to be escaped. -/
theorem exJson_fmt : ∃ c p res fs', FS.WF exJson ∧ Safe exJson exS ∧ ReadsProject exLibs.withJson (fun _ => some exRaw) exId 4 exJson c!"/p" (.ok (c, p)) ∧
    NoCollision exId p [] ∧ (∀ a ∈ editable p, ArtFileType.fromPath a.file = some .json) ∧ c.error = [] ∧ editable p = exJsonArts ∧
    Modifies exLibs.withJson (fun _ => some exRaw) exId (fun _ => []) 4 exJson c!"/p" [] (some (.ok res)) fs' ∧
    shown fs' = [("/p/design/a.json",
        "{\"REQ-a\":{\"done\":null,\"partof\":null,\"text\":\"say \\\"hi\\\" in\\nC:\\\\dir\\u000b!\\n\"},\"SPC-b\":{\"done\":null,\"partof\":\"REQ-a\",\"text\":null}}")] := by
  have w : FS.WF exJson := FS.isTree_wf (by decide +kernel)
  have hr := readNow_reads (L := exLibs.withJson) (hash := exId) (ncpu := 4) exJson_settings (by decide +kernel) (by decide +kernel)
  have h1 := exJson_now.1
  cases hn : readNow exLibs.withJson exId exJson exS with
  | ok r =>
    obtain ⟨c, p⟩ := r
    rw [hn] at hr h1
    simp only [Option.some.injEq, Prod.mk.injEq] at h1
    obtain ⟨h0, -, h1⟩ := h1
    obtain ⟨⟨files, ph, fs'⟩, h2, h3⟩ := Option.map_eq_some_iff.1 exJson_now.2
    simp only [Prod.mk.injEq] at h3
    obtain ⟨rfl, h3⟩ := h3
    obtain ⟨_, out, ⟨res, rfl⟩, hm⟩ := modifyNow_sound (ncpu := 4) exJson_settings (by decide +kernel) (by decide +kernel) h2
    refine ⟨c, p, res, fs', w, exSafe_of w (by decide +kernel) (by decide +kernel), hr, noCollision_of ?_, ?_, h0, h1, hm, h3⟩
    · rw [h1]; decide +kernel
    · rw [h1]; decide +kernel
  | err e => rw [hn] at h1; cases h1
  | panic => rw [hn] at h1; cases h1

/-- A misspelled field is dropped without an error: the text of an artifact is in the file before `art fmt` and in no file afterwards, although nothing in C62_fmt
fails. -/
theorem C62_unknown_lost : ∃ (fs' : FS) (c : Categorized) (p : Project) (res : Categorized × Project), FS.WF exJson ∧ Safe exJson exS ∧
    ReadsProject exLibs.withJson (fun _ => some exRaw) exId 4 exJson c!"/p" (.ok (c, p)) ∧ c.error = [] ∧
    Modifies exLibs.withJson (fun _ => some exRaw) exId (fun _ => []) 4 exJson c!"/p" [] (some (.ok res)) fs' ∧
    (∃ s, IMap.get? exJson c!"/p/design/a.json" = some (.file (.text s)) ∧ c!"important" <:+: s) ∧
    ∀ f ∈ shown fs', ¬ (c!"important" <:+: f.2.toList) := by
  obtain ⟨c, p, res, fs', w, hs, hr, _, _, h0, _, hm, hsh⟩ := exJson_fmt
  refine ⟨fs', c, p, res, w, hs, hr, h0, hm, ⟨_, rfl, by decide +kernel⟩, ?_⟩
  rw [hsh]
  decide +kernel

end Art
