import Verif.Cases.Art
import Verif.Props.Session

/-!
# Concrete cases for C72
-/

namespace Art
namespace Cli
open Spec Whole

/-- The program of the cases. -/
def sessSetup : Setup := { caseSetup with E := exEnv keptLibs }

theorem sess_apart : Apart exS := by
  obtain ⟨_, _, _, _, _, h, _⟩ := exKept
  exact h

theorem sess_out {q : FilePath} (h : ([c!"/p/design", c!"/p/src"].any (fun r => startsWith q r) || q == exS.settingsPath) = false) : ¬ InProject exS q := by
  rintro (e | ⟨r, hr, hu⟩)
  · simp [e] at h
  · rw [← startsWith_iff] at hu
    simp only [Bool.or_eq_false_iff, List.any_eq_false, List.mem_cons, List.not_mem_nil, or_false] at h
    refine h.1 r ?_ hu
    rcases hr with hr | hr
    · exact .inl (List.mem_singleton.1 hr)
    · exact .inr (List.mem_singleton.1 hr)

/-- `art init` in the root of the disk does not touch the project in `/p`. -/
theorem sess_init {fs : FS} (h : workDir fs c!"" none = some c!"") : ∀ q, Touches sessSetup fs c!"" (.init 0 none) q → ¬ InProject exS q := by
  intro q ht
  cases ht with
  | init hw hq =>
    rw [h] at hw
    cases hw
    simp only [projectPaths, List.mem_cons, List.not_mem_nil, or_false] at hq
    rcases hq with rfl | rfl | rfl | rfl <;> exact sess_out (by decide)

/-- A session: `art fmt` in `/p/src`, then `art init` in `/`, then another program writes `/notes`. -/
theorem sess_case : ∃ c p fs1 fs2, ReadsProject keptLibs (fun _ => some exRaw) exId 4 exGood c!"/p" (.ok (c, p)) ∧ NoCollision exId p [] ∧
    (∀ a ∈ editable p, Survives keptLibs exS a.file ((editable p).filter (fun b => decide (b.file = a.file)))) ∧
    Ends sessSetup exGood c!"/p/src" (.fmt 0 none none) 0 fs1 ∧ Ends sessSetup fs1 c!"" (.init 0 none) (initRun fs1 c!"").1 fs2 ∧
    Session sessSetup c!"/p" exS fs1 fs2 ∧ Session sessSetup c!"/p" exS exGood fs2 := by
  obtain ⟨c, p, res, fs1, hr, hcol, hk, hm⟩ := exFmt
  have hw : workDir fs1 c!"" none = some c!"" := rfl
  have hf : Ends sessSetup exGood c!"/p/src" (.fmt 0 none none) 0 fs1 := by
    have e : (workDir exGood c!"/p/src" none).bind (findRepo exGood) = some c!"/p" := exGood_repo
    simp only [Ends, e]
    exact ⟨_, hm, rfl⟩
  have hi : Ends sessSetup fs1 c!"" (.init 0 none) (initRun fs1 c!"").1 (initRun fs1 c!"").2 := by
    simp only [Ends, hw]
  exact ⟨c, p, fs1, _, hr, hcol, hk, hf, hi, .command .start hi nofun (sess_init hw), .command (.format .start rfl exGood_repo hf) hi nofun (sess_init hw)⟩

/-- What the theorems say of it. -/
example : ∃ c p fs1 fs2, ReadsProject keptLibs (fun _ => some exRaw) exId 4 exGood c!"/p" (.ok (c, p)) ∧ FS.WF fs2 ∧ SettingsOf (fun _ => some exRaw) fs2 c!"/p" exS ∧ Safe fs2 exS ∧
    (∀ m out, ReadsProject keptLibs (fun _ => some exRaw) exId m fs2 c!"/p" out → ∃ c2 q2, out = .ok (c2, q2) ∧ foldCase q2 = foldCase p) ∧
    (∀ x, InProject exS x → ¬ IsBackup x → IMap.get? fs2 x = IMap.get? fs1 x) := by
  obtain ⟨c, p, fs1, fs2, hr, hcol, hk, hf, hi, hs1, hs⟩ := sess_case
  obtain ⟨a1, a2, a3, a4⟩ := C72_session (S := sessSetup) exGood_wf caseSite_good exGood_settings exGood_safe sess_apart hr hcol hk hs
  exact ⟨c, p, fs1, fs2, hr, a1, a2, a3, a4, C72_files (S := sessSetup) exGood_wf caseSite_good exGood_settings exGood_safe sess_apart hr hcol hk rfl exGood_repo hf hs1⟩

/-- `art check` in `/p/src` before and in `/p` after. -/
example : ∃ fs2, Session sessSetup c!"/p" exS exGood fs2 ∧ ∀ st st',
    Checks keptLibs (fun _ => some exRaw) exId 4 exGood c!"/p/src" st → Checks keptLibs (fun _ => some exRaw) exId 4 fs2 c!"/p" st' → st' = st := by
  obtain ⟨c, p, fs1, fs2, hr, hcol, hk, hf, hi, hs1, hs⟩ := sess_case
  obtain ⟨a1, a2, -⟩ := C72_session (S := sessSetup) exGood_wf caseSite_good exGood_settings exGood_safe sess_apart hr hcol hk hs
  have hd : findRepo fs2 c!"/p" = some c!"/p" := by
    obtain ⟨x, hx⟩ := settings_file a2
    have : IMap.get? fs2 c!"/p/.art" = some .dir := a1.above hx (.inr ⟨c!"settings.toml", rfl⟩) (by decide)
    unfold findRepo findRepoLoop
    rw [show pathOf (pathComps c!"/p") = c!"/p" from by decide +kernel]
    rw [if_pos (by rw [show c!"/p" ++ c!"/.art" = c!"/p/.art" from rfl, this]; rfl)]
  exact ⟨fs2, hs, fun st st' k k' => C72_check (S := sessSetup) exGood_wf caseSite_good exGood_settings exGood_safe sess_apart hr hcol hk hs exGood_repo hd k k'⟩

/-- A note beside the project does not change what is read; the commands leave a tree. -/
example (out : Res Categorized (Categorized × Project)) : ReadsProject keptLibs (fun _ => some exRaw) exId 4 exGood c!"/p" out ↔
    ReadsProject keptLibs (fun _ => some exRaw) exId 4 (IMap.insert exGood c!"/p/notes" (.file (.text c!"#SPC-b"))) c!"/p" out := by
  have h : ∀ q, InProject exS q → IMap.get? (IMap.insert exGood c!"/p/notes" (.file (.text c!"#SPC-b"))) q = IMap.get? exGood q := by
    intro q hq
    rw [IMap.get?_insert, if_neg]
    rintro rfl
    exact sess_out (by decide) hq
  refine C72_local exGood_wf ?_ exGood_settings h out
  exact wf_put_file exGood_wf ⟨c!"/p", c!"notes", rfl, by decide, by decide⟩ (by decide +kernel) (by decide +kernel) _
example : ∃ fs1 fs2, Ends sessSetup fs1 c!"" (.init 0 none) (initRun fs1 c!"").1 fs2 ∧ FS.WF fs1 ∧ FS.WF fs2 ∧
    ∀ out, ReadsProject keptLibs (fun _ => some exRaw) exId 4 fs1 c!"/p" out ↔ ReadsProject keptLibs (fun _ => some exRaw) exId 4 fs2 c!"/p" out := by
  obtain ⟨c, p, fs1, fs2, hr, hcol, hk, hf, hi, hs1, hs⟩ := sess_case
  have w1 := C72_tree (S := sessSetup) exGood_wf caseSite_good hf nofun
  obtain ⟨-, s1, -⟩ := C72_session (S := sessSetup) exGood_wf caseSite_good exGood_settings exGood_safe sess_apart hr hcol hk (.format .start rfl exGood_repo hf)
  exact ⟨fs1, fs2, hi, w1, C72_tree w1 caseSite_good hi nofun, C72_apart w1 caseSite_good s1 hi nofun (sess_init rfl)⟩

/-! ## exporting into the project -/

/-- What `art export md` in `/p/src` leaves. -/
def sessExport (fs : FS) (dest : FilePath) : FS :=
  match readNow keptLibs exId fs exS with
  | .ok r => (exportMarkdown exF exX fs dest r.2).2
  | _ => fs

/-- What the next command reads. -/
def sessCheck (fs : FS) : Option (Nat × List Str) :=
  match readNow keptLibs exId fs exS with
  | .ok r => some (r.1.error.length, r.2.codeImpls.map (fun x => x.1.raw))
  | _ => none

/-- One artifact that nothing implements. -/
def sessOne : FS := exFs c!"# SPC-b\nmore\n" c!"" c!"// nothing" c!""

theorem sess_ends {fs : FS} (path dest : FilePath) (hr : findRepo fs c!"/p/src" = some c!"/p") (hp : absPath c!"/p/src" path = some dest)
    (h : SettingsOf (fun _ => some exRaw) fs c!"/p" exS)
    (hc : (walkCode fs exS).countP (fun f => (codeSent keptLibs fs f).dead) < 4) (ha : (walkArtifacts fs exS).countP (fun f => (artSent keptLibs exS.pre fs f).dead) < 4)
    (ho : (match readNow keptLibs exId fs exS with | .ok r => (exportMarkdown exF exX fs dest r.2).1 == 0 | _ => false) = true) :
    Ends sessSetup fs c!"/p/src" (.export 0 none c!"md" path) 0 (sessExport fs dest) := by
  have hread := readNow_reads (L := keptLibs) (hash := exId) (ncpu := 4) h hc ha
  have hw : workDir fs c!"/p/src" none = some c!"/p/src" := rfl
  simp only [Ends, hw, hp]
  unfold Exports sessExport
  rw [hr]
  refine ⟨_, hread, ?_⟩
  split at ho
  · rename_i r hr
    rw [hr]
    obtain ⟨c, p⟩ := r
    simp only [show lower c!"md" = c!"md" from by decide, show (c!"md" = c!"html") = False from by decide, if_false, if_true]
    exact Prod.ext (beq_iff_eq.1 ho).symm rfl
  · cases ho

theorem sess_settings (a b x y : Str) : SettingsOf (fun _ => some exRaw) (exFs a b x y) c!"/p" exS := ⟨_, _, (exFs_settings a b x y).1, (exFs_settings a b x y).2⟩

/-- A document that is exported into a code path implements the artifacts: the links of its table of contents (`href="#SPC-B"`) are code references. Before, nothing implements
`SPC-b`; after `art export md doc.md` in `/p/src` the document does. -/
theorem C72_export_into_code : ∃ fs fs' c p c' p', Ends sessSetup fs c!"/p/src" (.export 0 none c!"md" c!"doc.md") 0 fs' ∧
    ReadsProject keptLibs (fun _ => some exRaw) exId 4 fs c!"/p" (.ok (c, p)) ∧ p.codeImpls = [] ∧
    ReadsProject keptLibs (fun _ => some exRaw) exId 4 fs' c!"/p" (.ok (c', p')) ∧ c'.error = [] ∧ p'.codeImpls.map (fun x => x.1.raw) = [c!"SPC-B"] := by
  have r1 := readNow_reads (L := keptLibs) (hash := exId) (fs := sessOne) (ncpu := 4) (sess_settings _ _ _ _) (by decide +kernel) (by decide +kernel)
  have s2 : SettingsOf (fun _ => some exRaw) (sessExport sessOne c!"/p/src/doc.md") c!"/p" exS := by
    obtain ⟨path, raw, h1, h2⟩ := sess_settings c!"# SPC-b\nmore\n" c!"" c!"// nothing" c!""
    exact ⟨path, raw, (load_same (by decide +kernel) (by decide +kernel)).trans h1, h2⟩
  have r2 := readNow_reads (L := keptLibs) (hash := exId) (ncpu := 4) s2 (by decide +kernel) (by decide +kernel)
  have e1 : sessCheck sessOne = some (0, []) := by decide +kernel
  have e2 : sessCheck (sessExport sessOne c!"/p/src/doc.md") = some (0, [c!"SPC-B"]) := by decide +kernel
  have he := sess_ends (fs := sessOne) c!"doc.md" c!"/p/src/doc.md" (by decide +kernel) (by decide +kernel) (sess_settings _ _ _ _) (by decide +kernel) (by decide +kernel) (by decide +kernel)
  unfold sessCheck at e1 e2
  split at e1
  · split at e2
    · rename_i _ x hx _ y hy
      rw [hx] at r1
      rw [hy] at r2
      simp only [Option.some.injEq, Prod.mk.injEq, List.length_eq_zero_iff, List.map_eq_nil_iff] at e1 e2
      exact ⟨_, _, _, _, _, _, he, r1, e1.2, r2, e2⟩
    · cases e2
  · cases e1

/-- A document that is exported into an artifact path makes the project unreadable: every artifact is there twice. `art check` had succeeded before. -/
theorem C72_export_into_design : ∃ fs fs', Ends sessSetup fs c!"/p/src" (.export 0 none c!"md" c!"../design/doc.md") 0 fs' ∧
    (∃ c p, ReadsProject keptLibs (fun _ => some exRaw) exId 4 fs c!"/p" (.ok (c, p))) ∧ ∃ c, ReadsProject keptLibs (fun _ => some exRaw) exId 4 fs' c!"/p" (.err c) := by
  have r1 := readNow_reads (L := keptLibs) (hash := exId) (fs := sessOne) (ncpu := 4) (sess_settings _ _ _ _) (by decide +kernel) (by decide +kernel)
  have s2 : SettingsOf (fun _ => some exRaw) (sessExport sessOne c!"/p/design/doc.md") c!"/p" exS := by
    obtain ⟨path, raw, h1, h2⟩ := sess_settings c!"# SPC-b\nmore\n" c!"" c!"// nothing" c!""
    exact ⟨path, raw, (load_same (by decide +kernel) (by decide +kernel)).trans h1, h2⟩
  have r2 := readNow_reads (L := keptLibs) (hash := exId) (ncpu := 4) s2 (by decide +kernel) (by decide +kernel)
  have e1 : sessCheck sessOne = some (0, []) := by decide +kernel
  have e2 : (match readNow keptLibs exId (sessExport sessOne c!"/p/design/doc.md") exS with | .err _ => true | _ => false) = true := by decide +kernel
  have he := sess_ends (fs := sessOne) c!"../design/doc.md" c!"/p/design/doc.md" (by decide +kernel) (by decide +kernel) (sess_settings _ _ _ _) (by decide +kernel) (by decide +kernel)
    (by decide +kernel)
  unfold sessCheck at e1
  split at e1
  · split at e2
    · rename_i _ x hx _ y hy
      rw [hx] at r1
      rw [hy] at r2
      exact ⟨_, _, he, ⟨_, _, r1⟩, _, r2⟩
    · cases e2
  · cases e1

end Cli
end Art
