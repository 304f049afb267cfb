import Verif.Props.Live
import Verif.Props.SaveEx
import Verif.Lemmas.LiveRun

/-!
# C64: examples
-/

namespace Art
open Spec

/-- The project of the examples meets the hypotheses of C64: there is one artifact path and it is a directory. -/
theorem exGood_separate : SeparateDirs exGood exS.artifactPaths := ⟨by decide +kernel, by
  have : exS.artifactPaths = [c!"/p/design"] := by decide +kernel
  rw [this]
  exact List.pairwise_singleton _ _⟩

/-- A file is renamed before the walk has found the next one, and the walk meets the backup it made room for. -/
def exPicks : List Pick :=
  [.root, .entry c!"/p/design/a.md", .act 0, .entry c!"/p/design/a.artbk", .entry c!"/p/design/b.md", .close, .act 1, .next,
   .act 0, .act 0, .act 0, .act 0, .next,
   .root, .entry c!"/p/design/b.artbk", .act 0, .entry c!"/p/design/a.md", .entry c!"/p/design/a.artbk", .close, .act 1, .next]

/-- What the run leaves behind. -/
def exLiveShown (n : Nat) : Option (Phase × List (String × String) × Nat) :=
  (liveRun nameLibs exS [(c!"/p/design/a.md", c!"hi")] (exPicks.take n) (LiveCfg.init exGood exS)).map
    (fun c => (c.phase, shown c.fs, c.lints.length))

theorem exLive : exLiveShown 21 = some (.done, [("/p/design/a.md", "hi")], 0) ∧
    exLiveShown 4 = some (.backup, [("/p/design/b.md", "# SPC-b\nmore\n"), ("/p/design/a.artbk", "# REQ-a\nwhat\n# SPC-a\nhow [[.x]]\n")], 0) := by
  decide +kernel

/-- This is a run of the model, so C64 applies to it. -/
example : ∃ c, LiveReaches nameLibs exS [(c!"/p/design/a.md", c!"hi")] (LiveCfg.init exGood exS) c ∧ c.phase = .done ∧
    shown c.fs = [("/p/design/a.md", "hi")] ∧
    ∃ c', Reaches nameLibs exS [(c!"/p/design/a.md", c!"hi")] (Cfg.init nameLibs exGood exS) c' ∧ c'.fs = c.fs ∧ c'.phase = c.phase ∧ c'.lints = c.lints := by
  have h := exLive.1
  unfold exLiveShown at h
  obtain ⟨c, h1, h2⟩ := Option.map_eq_some_iff.1 h
  have h3 := liveRun_sound h1
  simp only [Prod.mk.injEq] at h2
  refine ⟨c, h3, h2.1, h2.2.1, C64_sound exGood_wf exGood_separate ?_ h3⟩
  intro x hx
  rw [List.mem_singleton] at hx
  subst hx
  exact ⟨c!"/p/design", c!"a.md", rfl, by decide, by decide⟩

/-- A whole modification with the walks running at the same time. -/
example : ∃ r fs', LiveModifies nameLibs (fun _ => some exRaw) exId (fun _ => []) 4 exGood c!"/p" exOps (some (.ok r)) fs' := by
  obtain ⟨files, fs', h1, _, _⟩ := modifyNow_some exWrite.1
  obtain ⟨_, out, ⟨r, rfl⟩, hm⟩ := modifyNow_sound (ncpu := 4) exGood_settings (by decide +kernel) (by decide +kernel) h1
  exact ⟨r, fs', (C64_modify exGood_wf exGood_settings exOps_ok.2.1 exGood_separate _).2 hm⟩

/-! ## paths inside one another -/

/-- A directory that is configured along with the one around it; the file in it has no artifact. -/
def exNested : FS := [([], .dir), (c!"/d", .dir), (c!"/d/e", .dir), (c!"/d/e/x.md", .file (.text c!"no artifact"))]

def exNestedS : Settings := { exS with artifactPaths := [c!"/d", c!"/d/e"], excludeArtifactPaths := [] }

theorem exNested_wf : FS.WF exNested where
  nodup := by unfold IMap.Nodup; decide
  root := rfl
  parent := by
    intro e he hne
    simp only [exNested, List.mem_cons, List.not_mem_nil, or_false] at he
    rcases he with rfl | rfl | rfl | rfl
    · exact absurd rfl hne
    · exact ⟨[], c!"d", rfl, by decide, by decide, rfl⟩
    · exact ⟨c!"/d", c!"e", rfl, by decide, by decide, rfl⟩
    · exact ⟨c!"/d/e", c!"x.md", rfl, by decide, by decide, rfl⟩

theorem exNested_twice : FoundTwice exNested exNestedS c!"/d/e/x.md" := by
  have hf : IsFile exNested c!"/d/e/x.md" := exNested_wf.isFile_iff.2 ⟨_, rfl⟩
  have hs : Supported c!"/d/e/x.md" := ⟨c!"/d/e", c!"x", c!"md", rfl, by decide, by decide, Or.inr (Or.inl rfl)⟩
  refine ⟨[], c!"/d", [], c!"/d/e", [], rfl, ⟨hf, Or.inr ⟨Or.inr ⟨c!"e/x.md", rfl⟩, hs, ?_⟩⟩, ⟨hf, Or.inr ⟨Or.inr ⟨c!"x.md", rfl⟩, hs, ?_⟩⟩⟩
  · intro e he; cases he
  · intro e he; cases he

/-- The walk of the inner path begins when the file is already renamed. -/
def exLate : List Pick :=
  [.root, .entry c!"/d/e", .entry c!"/d/e/x.md", .act 0, .close, .close, .root, .entry c!"/d/e/x.artbk", .close, .next, .next,
   .root, .entry c!"/d/e", .entry c!"/d/e/x.artbk", .act 0, .close, .close, .root, .close, .next]

/-- C64, negative: if an artifact path lies inside another, whether saving succeeds depends on how fast the threads are. Here it can end without error, and
it can also come to a point from which it can only fail; no action fails for an outside reason. -/
theorem C64_overlap_depends_on_timing : ∃ (fs : FS) (s : Settings), FS.WF fs ∧ (∀ r ∈ s.artifactPaths, IMap.get? fs r = some .dir) ∧
    ∀ L : Libs,
      (∃ c, LiveReaches L s [] (LiveCfg.init fs s) c ∧ c.phase = .done ∧ c.lints = []) ∧
      (∃ c, LiveReaches L s [] (LiveCfg.init fs s) c ∧ c.fs = fs ∧ c.lints = [] ∧
        ∀ d, LiveReaches L s [] c d → d.phase = .backup ∨ d.phase = .failed .createBackups) := by
  have hr : ∀ r ∈ exNestedS.artifactPaths, IMap.get? exNested r = some .dir := by decide +kernel
  refine ⟨exNested, exNestedS, exNested_wf, hr, ?_⟩
  intro L
  refine ⟨?_, C64_overlap_doomed exNested_wf hr exNested_twice⟩
  have h : (liveRun L exNestedS [] exLate (LiveCfg.init exNested exNestedS)).map (fun c => (c.phase, c.lints)) = some (.done, []) := rfl
  obtain ⟨c, h1, h2⟩ := Option.map_eq_some_iff.1 h
  simp only [Prod.mk.injEq] at h2
  exact ⟨c, liveRun_sound h1, h2.1, h2.2⟩

end Art
