import Verif.Cases.Project
import Verif.Props.Serve
import Verif.Props.App
import Verif.Props.Export
import Verif.Props.Init

/-!
# Cases: the server, the program, `art export` and `art init`
The theorems of `Props/Serve.lean`, `Props/App.lean`, `Props/Export.lean` and `Props/Init.lean` applied to concrete cases that meet their hypotheses.
-/

namespace Art
open Spec

/-! ## the server -/

/-- Two reads at the same time, then an interrupt. -/
def caseHist (v : ProjectResult) : List Event :=
  [.arrive 0 (.read none), .arrive 1 (.read (some (some false))), .lock 1, .finish 1 (.read (some (some false))) (.success v), .lock 0, .send 1 (.success v),
   .finish 0 (.read none) (.success v), .quit]

theorem caseRuns (E : Env) (fs : FS) (v : ProjectResult) : ∃ u, Runs E (Server.init fs v) (caseHist v) u :=
  ⟨_, .cons (.arrive rfl rfl) <| .cons (.arrive rfl rfl) <| .cons (.lock (r := .read (some (some false))) rfl rfl nofun rfl rfl) <|
    .cons (.work (out := (.success v, v)) rfl rfl rfl (.read (Or.inr rfl))) <| .cons (.lock (r := .read none) rfl rfl nofun rfl rfl) <|
    .cons (.send rfl rfl) <| .cons (.work (out := (.success v, v)) rfl rfl rfl (.read (Or.inl rfl))) <| .cons (.quit rfl rfl) .nil⟩

example (E : Env) (fs : FS) (v : ProjectResult) : ∃ log, Explains (caseHist v) log ∧ Sequential v log := by
  obtain ⟨u, h⟩ := caseRuns E fs v
  exact C36_linearizable h

example (E : Env) (fs : FS) (v : ProjectResult) : ∀ i, Event.lock i ∈ caseHist v → ∃ r a, Event.finish i r a ∈ caseHist v := by
  obtain ⟨u, h⟩ := caseRuns E fs v
  exact (C52_interrupt h (by simp [caseHist])).2

/-- A request with an id that is too long, after which nothing is answered. -/
example (E : Env) (hE : E.strict = false) (fs : FS) (v : ProjectResult) : ∃ u, Runs E (Server.init fs v)
    ([.arrive 0 (.modify (some (some exLongId))), .lock 0] ++ .finish 0 (.modify (some (some exLongId))) .dropped :: [.arrive 1 (.read none), .finish 1 (.read none) .dropped]) u ∧
    ∀ j r' a, Event.finish j r' a ∈ [Event.arrive 1 (.read none), .finish 1 (.read none) .dropped] → r' ≠ .garbage → a = .dropped := by
  have h : ∃ u, Runs E (Server.init fs v) ([.arrive 0 (.modify (some (some exLongId))), .lock 0] ++
      .finish 0 (.modify (some (some exLongId))) .dropped :: [.arrive 1 (.read none), .finish 1 (.read none) .dropped]) u :=
    ⟨_, .cons (.arrive rfl rfl) <| .cons (.lock (r := .modify (some (some exLongId))) rfl rfl nofun rfl rfl) <|
      .cons (.work (out := (.dropped, v)) rfl rfl rfl (.modifyPanic (by rw [hE]; exact exLongId_panics))) <| .cons (.arrive rfl rfl) <|
      .cons (.poisoned (r := .read none) rfl rfl nofun rfl rfl) .nil⟩
  obtain ⟨u, h⟩ := h
  exact ⟨u, h, C36_crash_is_final h⟩

/-- All answers of a real session are projects that were loaded. -/
example : ∃ s0 hist u v, Starts (exEnv keptLibs) exGood c!"/p/src" c!"/p" s0 ∧ Runs (exEnv keptLibs) s0 hist u ∧ Event.send 0 (.success v) ∈ hist ∧
    Loaded (exEnv keptLibs) c!"/p" v ∧ Loaded (exEnv keptLibs) c!"/p" u.value := by
  obtain ⟨s0, hist, u, v, h1, h2, h3, -⟩ := C36_create_then_reload
  exact ⟨s0, hist, u, v, h1, h2, h3, (C36_loaded h1 h2).2.2 _ _ h3, (C36_loaded h1 h2).1⟩

/-- The step of a read. -/
theorem caseStep (E : Env) (fs : FS) (v : ProjectResult) : ∃ s t, Step E s (.finish 0 (.read none) (.success v)) t ∧ s.disk = fs ∧ s.value = v :=
  ⟨_, _, .work (s := ⟨fs, v, false, some (.thread 0), fun _ => .working (.read none), true⟩) (out := (.success v, v)) rfl rfl rfl (.read (Or.inl rfl)), rfl, rfl⟩

example (E : Env) (fs : FS) (v : ProjectResult) : ∃ s t, Step E s (.finish 0 (.read none) (.success v)) t ∧ t.value = v ∧ t.disk = s.disk := by
  obtain ⟨s, t, h, -, -⟩ := caseStep E fs v
  exact ⟨s, t, h, (C36_failed_unchanged h).2 v rfl, C36_disk_unchanged h (by simp [LeavesDisk])⟩

example : (WireOp.delete c!"REQ-a" c!"__79BAUGBwgJCgsMDQ4PEAAA").read false = .panic :=
  (C36_panics (Name.lit c!"REQ-a") (id := c!"__79BAUGBwgJCgsMDQ4PEAAA") (m := [longS] ++ c!"PC-a") (by unfold UrlSafe; decide +kernel) (by decide) (by decide) (by decide +kernel)).1

/-! ## the program -/

/-- Printed numbers and colours of the artifacts of a loaded project. -/
example : ∀ a ∈ artsOf caseArts, (a.completed.termColor = .ok .green ↔ tenths a.completed.spc = 1000 ∧ tenths a.completed.tst = 1000) :=
  fun _ ha => (C38_printed (exInput exProj exProj_nodup) caseArts_loads ha).1

example : ¬ Under c!"/foo" c!"/foobar/x" ∧ trimBase c!"/foo" c!"/foobar/x" ≠ c!"/foobar/x" := by
  rcases C39_iff c!"/foo" c!"/foobar/x" (by decide) with ⟨x, h, -⟩ | ⟨-, h, -⟩ | ⟨h, -, h2, -⟩
  · exact absurd (startsWith_iff.2 h) (by decide)
  · exact absurd (by decide) h
  · exact ⟨h, h2⟩

example : ∃ d, findRepo exGood c!"/p/src" = some d ∧ ∀ d', Under d' c!"/p/src" → HasArt exGood d' → Under d' d :=
  ⟨_, exGood_repo, ((C45_nearest exGood (l := [c!"p", c!"src"]) (by unfold PlainName; decide) c!"/p").1 exGood_repo).2.2⟩

/-! ## `art init` -/

example : (initRun exNew c!"/p").1 = 0 := (C56_started exNew_wf).2 exNew_startable
example : FS.WF (initKilled exNew c!"/p" 2) := C56_tree exNew_wf 2
example : initRun (initKilled exNew c!"/p" 2) c!"/p" = (1, initKilled exNew c!"/p" 2) := C56_never_resumed (by decide) 1
example : initRun exNew c!"/p/src/a.rs" = (1, exNew) := C56_refused (.inl (by decide))
example := C56_half_made exFileDesign_wf (work := c!"/p") (by decide) (by decide) (fun h => by
  exact h.design (.text c!"a picture") (by decide +kernel))

end Art
