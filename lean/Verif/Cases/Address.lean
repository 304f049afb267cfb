import Verif.Props.Address

/-!
# Cases for C75
-/

namespace Art
namespace Url

open Spec Spec.Export Spec.Dot Web

/-- One format for the examples: at least five wide, at the right. -/
def exWide : Formats := fun s => if s = c!">5" then some fun v => List.replicate (5 - v.length) ' ' ++ v else none

theorem exWide_fills : Fills exWide := by
  intro s f v a h ha
  unfold exWide at h
  split at h
  · cases h
    rw [List.mem_append, List.mem_replicate] at ha
    rcases ha with ⟨_, e⟩ | e
    · exact .inr (.inr e)
    · exact .inl e
  · cases h

/-- Patterns and what they give for one place: values, doubled braces, a format; what the library makes of braces between closing braces. -/
example : strfmt exWide c!"http://x/{file}#L{line}" c!"src/a.rs" c!"7" = some c!"http://x/src/a.rs#L7" ∧
    strfmt exWide c!"{{{file}}}{line:>5}|{line:}" c!"a" c!"12" = some c!"{a}   12|12" ∧
    strfmt exWide c!"}{{{{}" c!"a" c!"1" = some c!"{{}" ∧
    strfmt exWide c!"no values" c!"a" c!"1" = some c!"no values" := by decide +kernel

/-- Patterns that are refused: unknown values, unknown formats, braces that are not closed or not opened. -/
example : [c!"{name}", c!"{}", c!"{:>5}", c!"{file:<5}", c!"{file", c!"a}", c!"{fi{le}", c!"}a}", c!"}{}}", c!"{file }", c!"{File}"].all (fun f => (strfmt exWide f c!"a" c!"1").isNone) = true := by decide +kernel

/-- `C75_format` in both directions. -/
example : Address exWide c!"{{{file}}}{line:>5}" c!"a" c!"12" c!"{a}   12" ∧ ¬ ∃ o, Address exWide c!"}{}}" c!"a" c!"12" o := by
  refine ⟨(C75_format _ _ _ _).1 (by decide +kernel), fun ⟨o, h⟩ => ?_⟩
  have := (C75_format _ _ _ _).2 h
  rw [show strfmt exWide c!"}{}}" c!"a" c!"12" = none from by decide +kernel] at this
  cases this

/-- The libraries with these calls. -/
def addrLibs : Libs := { exLibs with urlErr := fun fmt => if (tried exWide fmt).isSome then none else some c!"invalid" }

/-- The libraries of the export with these calls. -/
def addrF : ExportLibs := { exF with strfmt := strfmt exWide }

theorem addr_calls : Calls exWide addrLibs addrF :=
  ⟨fun _ _ _ => rfl, fun fmt => by
    show (if (tried exWide fmt).isSome then none else some c!"invalid") = none ↔ _
    split <;> simp_all⟩

/-- What reading the project of the example gives. -/
def addrDoc (url : Str) : Res Categorized (Categorized × Project) := readNow addrLibs exId exDocFs (exUrlS (some url))

theorem addrDoc_reads (url : Str) : ReadsProject addrLibs (fun _ => some (exUrlRaw (some url))) exId 4 exDocFs c!"/p" (addrDoc url) := by
  have f : (walkCode exDocFs exS).countP (fun f => (codeSent addrLibs exDocFs f).dead) < 4 ∧
    (walkArtifacts exDocFs exS).countP (fun f => (artSent addrLibs exS.pre exDocFs f).dead) < 4 := by decide +kernel
  have hs : SettingsOf (fun _ => some (exUrlRaw (some url))) exDocFs c!"/p" (exUrlS (some url)) := ⟨exS.settingsPath, exUrlRaw (some url), rfl, rfl⟩
  unfold addrDoc
  generalize exDocFs = g at f hs
  exact readNow_reads hs f.1 f.2

/-- The pattern of the example. -/
abbrev goodUrl : Str := c!"http://x/{file}#L{line}"

/-- `C75_checked` and `C75_shown` for a project with artifacts: with a good pattern there is no error in the settings, with a bad one there is. -/
theorem addrDoc_checked : ∃ c p c' p', ReadsProject addrLibs (fun _ => some (exUrlRaw (some goodUrl))) exId 4 exDocFs c!"/p" (.ok (c, p)) ∧ p.artifacts ≠ [] ∧
      (∀ l ∈ c.error, l.category ≠ .settings) ∧ p.settings.codeUrl = some goodUrl ∧
    ReadsProject addrLibs (fun _ => some (exUrlRaw (some c!"{name}"))) exId 4 exDocFs c!"/p" (.ok (c', p')) ∧ p'.artifacts ≠ [] ∧ ∃ l ∈ c'.error, l.category = .settings := by
  have e : (addrDoc goodUrl).toOption.map (fun r => (r.2.artifacts.isEmpty, r.2.settings.codeUrl)) = some (false, some goodUrl) := by decide +kernel
  have e' : (addrDoc c!"{name}").toOption.map (fun r => (r.2.artifacts.isEmpty, r.2.settings.codeUrl)) = some (false, some c!"{name}") := by decide +kernel
  have r := addrDoc_reads goodUrl
  have r' := addrDoc_reads c!"{name}"
  generalize addrDoc goodUrl = o at e r
  generalize addrDoc c!"{name}" = o' at e' r'
  cases o with
  | err => cases e
  | panic => cases e
  | ok x =>
    cases o' with
    | err => cases e'
    | panic => cases e'
    | ok y =>
      simp only [Res.toOption, Option.map_some, Option.some.injEq, Prod.mk.injEq] at e e'
      refine ⟨x.1, x.2, y.1, y.2, r, fun h => (by rw [h] at e; cases e.1), fun l hl hc => ?_, e.2, r', fun h => (by rw [h] at e'; cases e'.1), ?_⟩
      · obtain ⟨fmt, hf, hb⟩ := (url_linted r).1 ⟨l, hl, hc⟩
        rw [e.2] at hf
        cases hf
        exact hb (by decide +kernel)
      · exact (url_linted r').2 ⟨c!"{name}", e'.2, by decide +kernel⟩

/-- The export works with the first pattern and crashes with the second. -/
example (ex : ExportSettings) : ∃ p p' : Project, (exportParts addrF ex p).all Res.isOk = true ∧ (exportParts addrF ex p').all Res.isOk = false ∧ p.artifacts ≠ [] ∧
    ∀ parent, ¬ Homeless addrF p parent c!"[[.x]]" := by
  obtain ⟨c, p, c', p', h, hne, hc, _, h', hne', hc'⟩ := addrDoc_checked
  exact ⟨p, p', ((C75_shown addr_calls h hc).1 ex).1, (C75_checked addr_calls h' ex hne').2 hc', hne, fun _ => (C75_shown addr_calls h hc).2.1 _ _⟩

theorem exNoBrace : NoBrace c!"http://x/" ∧ NoBrace (c!"#" ++ c!"L") ∧ NoBrace [] := by unfold NoBrace; decide

/-- `C75_usual`, `C75_distinct`: the pattern of the example keeps places apart. -/
example : goodUrl = usual c!"http://x/" (c!"#" ++ c!"L") [] ∧
    ∀ x y i j u, strfmt exWide goodUrl (trimBase c!"/p" (c!"/p" ++ '/' :: x)) (showNat (i + 1)) = some u →
      strfmt exWide goodUrl (trimBase c!"/p" (c!"/p" ++ '/' :: y)) (showNat (j + 1)) = some u → x = y ∧ i = j :=
  ⟨rfl, fun _ _ _ _ _ hx hy => C75_distinct (d := 'L') (mid := c!"#") exNoBrace.1 exNoBrace.2.1 exNoBrace.2.2 (by decide) hx hy⟩

/-- `C75_one_line` for the project of the example, in which a subname is implemented. -/
example : ∃ p : Project, p.settings.codeUrl = some goodUrl ∧ (∃ x ∈ p.codeImpls, x.2.secondary ≠ []) ∧ ∀ parent, OneLine addrF p parent := by
  have e : (addrDoc goodUrl).toOption.map (fun r => (r.2.settings.codeUrl, r.2.codeImpls.any (fun x => !x.2.secondary.isEmpty),
    r.2.codeImpls.all fun x => x.2.secondary.all fun y => !(y.2.file.contains '\n'))) = some (some goodUrl, true, true) := by decide +kernel
  generalize addrDoc goodUrl = o at e
  cases o with
  | err => cases e
  | panic => cases e
  | ok r =>
    simp only [Res.toOption, Option.map_some, Option.some.injEq, Prod.mk.injEq] at e
    obtain ⟨e1, e2, e3⟩ := e
    refine ⟨r.2, e1, ?_, fun parent => C75_one_line addr_calls exWide_fills (fun fmt e => by rw [e1] at e; cases e; decide) ?_⟩
    · obtain ⟨x, hx, h⟩ := List.any_eq_true.1 e2
      exact ⟨x, hx, by simpa using h⟩
    · rintro s loc ⟨n, t, ⟨x, h1, h2⟩, _⟩
      have := List.all_eq_true.1 (List.all_eq_true.1 e3 _ h1) _ h2
      simpa using this

/-- `C75_raw`, `C75_breaks`: the link to a file with a quote in its name, as it is written for this pattern. -/
example : (SerMd.codeHtml addrF ⟨⟨exUrlS (some goodUrl), [], []⟩, some goodUrl, .list, .ignore, []⟩ ⟨c!"/p/src/a\" onclick=\"b().rs", 2⟩).toOption =
      some c!"<a href=\"http://x/src/a\" onclick=\"b().rs#L3\">src/a\" onclick=\"b().rs[2]</a>" ∧
    ∃ file value rest, '"' ∉ value ∧ SerMd.codeHtml addrF ⟨⟨exUrlS (some goodUrl), [], []⟩, some goodUrl, .list, .ignore, []⟩ ⟨file, 0⟩ = .ok (c!"<a href=\"" ++ value ++ c!"\" onclick=\"b()" ++ rest) :=
  ⟨by decide +kernel, C75_breaks addr_calls (pre := c!"http://x/") (mid := c!"#" ++ c!"L") (post := []) exNoBrace.1 exNoBrace.2.1 exNoBrace.2.2 rfl (by decide)⟩

end Url
end Art
