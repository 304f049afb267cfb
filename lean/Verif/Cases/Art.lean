import Verif.Cases.Data
import Verif.Props.Art

/-!
# Concrete cases for C71
-/

namespace Art
namespace Cli
open Spec Whole

/-- A small web page. -/
def caseSite : List (List Str × Content) :=
  [([c!"index.html"], .text c!"<html></html>"), ([c!"css", c!"main.css"], .text c!"body {}"), ([c!"css", c!"img", c!"a.png"], .binary [] 7),
   ([c!"initial.json"], .text c!"{}")]

theorem caseSite_good : GoodSite caseSite := ⟨by decide, by decide, .text c!"{}", by decide⟩

/-- The program with this page. -/
def caseSetup : Setup := ⟨exEnv nameLibs, exF, exX, WireExport.default, fun _ => none, exDec, caseSite⟩

/-- The page goes into a directory that is not there, and a second time. -/
example : Ready exGood c!"/p/out" caseSite := C71_fresh exGood_wf caseSite_good (by decide +kernel) (by decide +kernel)
example : (exportHtml caseSite exGood c!"/p/out" c!"T").1 = 0 ∧
    IMap.get? (exportHtml caseSite exGood c!"/p/out" c!"T").2 c!"/p/out/css/img/a.png" = some (.file (.binary [] 7)) ∧
    IMap.get? (exportHtml caseSite exGood c!"/p/out" c!"T").2 c!"/p/out/initial.json" = some (.file (.text c!"T")) ∧
    (exportHtml caseSite (exportHtml caseSite exGood c!"/p/out" c!"T").2 c!"/p/out" c!"U").1 = 0 := by decide +kernel

/-- It does not go where a file is in its way, where there is nothing around it, or where a file is. -/
example : (exportHtml caseSite (IMap.insert (IMap.insert exGood c!"/p/out" .dir) c!"/p/out/css" (.file (.text []))) c!"/p/out" c!"T").1 = 1 ∧
    (exportHtml caseSite exGood c!"/p/no/out" c!"T").1 = 1 ∧ (exportHtml caseSite exGood c!"/p/src/x.rs" c!"T").1 = 1 := by decide +kernel
example : ¬ Ready exGood c!"/p/no/out" caseSite := fun h => absurd ((C71_html_iff caseSite_good c!"T").2 h) (by decide +kernel)

/-- An export that fails may have changed files: `index.html` is replaced before the directory cannot be made. -/
theorem C71_half : ∃ (site : List (List Str × Content)) (fs : FS) (dest : FilePath), GoodSite site ∧ (exportHtml site fs dest c!"T").1 = 1 ∧
    IMap.get? fs (dest ++ c!"/index.html") = some (.file (.text c!"mine")) ∧
    IMap.get? (exportHtml site fs dest c!"T").2 (dest ++ c!"/index.html") ≠ some (.file (.text c!"mine")) :=
  ⟨caseSite, [(c!"", .dir), (c!"/o", .dir), (c!"/o/css", .file (.text [])), (c!"/o/index.html", .file (.text c!"mine"))], c!"/o", caseSite_good,
    by decide +kernel, by decide +kernel, by decide +kernel⟩

/-- `art export HTML ../out` in `/p/src`. -/
theorem caseExport : ∃ fs', Ends caseSetup exGood c!"/p/src" (.export 0 none c!"HTML" c!"../out") 0 fs' := by
  obtain ⟨s, hist, t, x, h1, h2, h3, h4, h5, h6, h7⟩ := exServed
  have hr := exGood_repo
  have hready : Ready exGood c!"/p/out" caseSite := C71_fresh exGood_wf caseSite_good (by decide +kernel) (by decide +kernel)
  exact (C71_html_iff_ready (S := caseSetup) caseSite_good (by decide)).2 ⟨c!"/p/src", c!"/p", x.lints, x.project, c!"/p/out", rfl, hr, h5, by decide +kernel, hready⟩

/-- What `C71_html` says of it: the page shows the project. -/
example : ∃ (fs' : FS) (p : Web.Proj) (text : Str), IMap.get? fs' c!"/p/out/initial.json" = some (.file (.text text)) ∧
    ∀ strict debug, ∃ t, handleInitial ⟨strict, exUndec, debug⟩ true [] text = .ok (.recvInitial (some p) t) := by
  obtain ⟨fs', h⟩ := caseExport
  obtain ⟨d, repo, c, p, dest, text, h1, h2, h3, h4, h5, h6⟩ := C71_html caseSite_good (by decide) h
  have e : dest = c!"/p/out" := by
    have : absPath c!"/p/src" c!"../out" = some c!"/p/out" := by decide +kernel
    rw [this] at h4
    exact (Option.some.inj h4).symm
  subst e
  obtain ⟨s, hist, t, x, _, _, _, _, _, hf, _⟩ := exServed
  exact ⟨fs', _, text, h5.initial, fun strict debug => ⟨_, h6 ⟨strict, exUndec, debug⟩ exNumbers hf []⟩⟩

/-- The same with words. -/
example : ∃ fs', Main caseSetup exGood c!"/p/src" [c!"export", c!"HTML", c!"../out"] 0 fs' := by
  obtain ⟨fs', h⟩ := caseExport
  refine ⟨fs', ?_⟩
  unfold Main
  rw [show commandOf [c!"export", c!"HTML", c!"../out"] = .ok (.export 0 none c!"HTML" c!"../out") from by decide +kernel]
  exact h

/-- A relative path is below the current directory, also with `--work-dir`. -/
example : absPath c!"/h" c!"out" = some c!"/h/out" ∧ workDir [(c!"", .dir), (c!"/h", .dir), (c!"/h/p", .dir)] c!"/h" (some c!"p") = some c!"/h/p" := by decide +kernel
example := C71_path (l := [c!"h"]) (c := c!"p") (cs := [c!"out"]) (by decide) (by unfold PlainName; decide) c!"x" (by unfold PlainName; decide)

/-- Outside of the project. -/
example (st : Nat) (fs' : FS) : Ends caseSetup exGood c!"" (.check 0 (some c!"/")) st fs' ↔ st = 1 ∧ fs' = exGood :=
  C71_outside (.check 0) (by
    intro d hd
    have : workDir exGood c!"" (some c!"/") = some c!"" := by decide +kernel
    rw [this] at hd
    cases hd
    decide +kernel) st

/-- `/p/src/none` is not there, and `/p/design/a.md` is a file. -/
example (st : Nat) (fs' : FS) : Ends caseSetup exGood c!"/p" (.init 0 (some c!"src/none")) st fs' ↔ st = 1 ∧ fs' = exGood :=
  C71_no_dir (l := [c!"p"]) (c := c!"src") (cs := [c!"none"]) (by decide) (by unfold PlainName; decide) (by decide +kernel) (.inr ⟨0, rfl⟩) st
example (st : Nat) (fs' : FS) : Ends caseSetup exGood c!"/p" (.check 0 (some c!"design/a.md")) st fs' ↔ st = 1 ∧ fs' = exGood :=
  C71_no_dir (l := [c!"p"]) (c := c!"design") (cs := [c!"a.md"]) (by decide) (by unfold PlainName; decide) (by decide +kernel) (.inl (.check 0)) st

/-- A page that was read from files, on which a reload was tried: the project of the file is shown. -/
example (X p0 : Web.Proj) : ∃ tr w, Web.Runs Web.exNd 1000 (Web.World.init p0 .graph) tr w ∧ FilesOnly X tr ∧ w.ui.shared = X ∧ w.ui.webType = .static := by
  have r := (((Web.Runs.nil (nd := Web.exNd) (lim := 1000) (Web.World.init p0 .graph)).snoc
    (.response (a := []) (q := .initial) (b := []) rfl (.initial (some X) .static))).snoc (.deliver (r := ⟨_, _⟩) rfl rfl rfl)).snoc (.page (r := ⟨_, _⟩) rfl .reload rfl)
  have hf : FilesOnly X ((([] ++ [Web.Event.response .initial (.recvInitial (some X) .static)]) ++ [Web.Event.handled (.recvInitial (some X) .static) []]) ++
      [Web.Event.handled (.fetchProject true) []]) := by
    intro q m hm
    simp only [List.nil_append, List.cons_append, List.mem_cons, Web.Event.response.injEq, reduceCtorEq, List.not_mem_nil, or_false] at hm
    exact .inl hm
  have h := C71_hosted r hf
  exact ⟨_, _, r, hf, h.2.1 ⟨some X, .static, [], by simp⟩, h.1⟩

/-- `fmt --type` and without. -/
example (st : Nat) (fs' : FS) : Ends caseSetup exGood c!"/p" (.fmt 0 none (some c!"toml")) st fs' ↔ Ends caseSetup exGood c!"/p" (.fmt 0 none none) st fs' := C71_fmt_type 0 0 none _ _ st

/-- A change by the export is one that it may make. -/
example : ∃ fs', Ends caseSetup exGood c!"/p/src" (.export 0 none c!"HTML" c!"../out") 0 fs' ∧
    ∀ q, IMap.get? fs' q ≠ IMap.get? exGood q → Touches caseSetup exGood c!"/p/src" (.export 0 none c!"HTML" c!"../out") q := by
  obtain ⟨fs', h⟩ := caseExport
  exact ⟨fs', h, fun q hq => C71_changes exGood_wf caseSite_good.initial h (by simp) hq⟩

/-- Words that do not fit. -/
example (st : Nat) (fs' : FS) : Main caseSetup exGood c!"/p" (checkApp.name :: [c!"x"]) st fs' ↔ st = 1 ∧ fs' = exGood :=
  C71_refused (by decide) (.arg (by unfold Word; decide) .nil) (fun h => absurd h.few (by decide)) st

/-- A server that was asked to read. -/
example (v : ProjectResult) : ∃ hist t, Art.Runs (exEnv nameLibs) (Server.init exGood v) hist t ∧ Art.Event.finish 0 (.read none) (.success v) ∈ hist ∧ t.disk = exGood := by
  have r := ((Art.Runs.nil (E := exEnv nameLibs) (s := Server.init exGood v)).snoc (.arrive (i := 0) (r := .read none) rfl rfl)).snoc (.lock (i := 0) rfl rfl (by simp) rfl rfl)
  have r := r.snoc (.work (i := 0) rfl rfl rfl (.read (.inl rfl)))
  exact ⟨_, _, r, List.mem_append_right _ (List.mem_singleton.2 rfl), C71_serve_reads r (by simp) (by simp) (by simp)⟩

end Cli
end Art
