import Verif.Props.Save

/-!
# Writing a project: concrete disks
The hypotheses of C27 and C49 on concrete projects, and what is lost without them.
-/

namespace Art
open Spec

/-! ## running the model -/

/-- Is this list of entries a tree? -/
def FS.isTree (fs : FS) : Bool :=
  decide (List.map (fun p : FilePath × Node => key p.1) fs).Nodup && decide (IMap.get? fs [] = some .dir) &&
  fs.all (fun e => decide (e.1 = [] ∨ (e.1 = parentDir e.1 ++ '/' :: e.1.drop ((parentDir e.1).length + 1) ∧
    e.1.drop ((parentDir e.1).length + 1) ≠ [] ∧ '/' ∉ e.1.drop ((parentDir e.1).length + 1) ∧ IMap.get? fs (parentDir e.1) = some .dir)))

theorem FS.isTree_wf {fs : FS} (h : fs.isTree = true) : FS.WF fs := by
  simp only [FS.isTree, Bool.and_eq_true, decide_eq_true_eq, List.all_eq_true] at h
  obtain ⟨⟨h1, h2⟩, h3⟩ := h
  refine ⟨h1, h2, ?_⟩
  intro e he hne
  rcases h3 e he with h | ⟨h4, h5, h6, h7⟩
  · exact absurd h hne
  · exact ⟨_, _, h4, h5, h6, h7⟩

/-- One outcome of reading: everything arrives in the order of the files. -/
def readNow (L : Libs) (hash : ArtifactIm → HashIm) (fs : FS) (s : Settings) : Res Categorized (Categorized × Project) :=
  Run.now L hash s ⟨allLocs L fs s, allArts L fs s, sentLints L fs s (allLocs L fs s) (allArts L fs s)⟩

theorem readNow_reads {L : Libs} {readToml : Str → Option SettingsRaw} {hash : ArtifactIm → HashIm} {ncpu : Nat} {fs : FS} {base : FilePath} {s : Settings}
    (hs : SettingsOf readToml fs base s) (hc : (walkCode fs s).countP (fun f => (codeSent L fs f).dead) < 4)
    (ha : (walkArtifacts fs s).countP (fun f => (artSent L s.pre fs f).dead) < ncpu) :
    ReadsProject L readToml hash ncpu fs base (readNow L hash fs s) := by
  obtain ⟨path, raw, h1, h2⟩ := hs
  unfold ReadsProject
  simp only [h1, h2]
  exact ⟨_, ⟨hc, ha, List.Perm.refl _, List.Perm.refl _, List.Perm.refl _⟩, Run.now_gives _ _ _ _⟩

/-- The first job that is not finished. -/
def splitJobs : List (List Act) → Option (List (List Act) × Act × List Act × List (List Act))
  | [] => none
  | [] :: l => (splitJobs l).map (fun x => ([] :: x.1, x.2))
  | (a :: r) :: l => some ([], a, r, l)

theorem splitJobs_some {l : List (List Act)} {x : List (List Act) × Act × List Act × List (List Act)} (h : splitJobs l = some x) :
    l = x.1 ++ (x.2.1 :: x.2.2.1) :: x.2.2.2 := by
  induction l generalizing x with
  | nil => cases h
  | cons j l ih =>
    cases j with
    | nil =>
      simp only [splitJobs, Option.map_eq_some_iff] at h
      obtain ⟨y, hy, rfl⟩ := h
      rw [ih hy]
      rfl
    | cons a r =>
      cases h
      rfl

theorem splitJobs_none {l : List (List Act)} (h : splitJobs l = none) : ∀ j ∈ l, j = [] := by
  induction l with
  | nil => intro j hj; cases hj
  | cons j l ih =>
    cases j with
    | nil =>
      simp only [splitJobs, Option.map_eq_none_iff] at h
      intro k hk
      rcases List.mem_cons.1 hk with rfl | hk
      · rfl
      · exact ih h k hk
    | cons a r => cases h

/-- One step: the first action of the first unfinished job; actions fail only when they cannot be done. -/
def stepNow (L : Libs) (s : Settings) (files : List (FilePath × Str)) (c : Cfg) : Cfg :=
  match splitJobs c.jobs with
  | some (before, a, rest, after) =>
    match a.apply c.fs with
    | some fs' => { c with fs := fs', jobs := before ++ rest :: after }
    | none => { c with jobs := before ++ [] :: after, lints := c.lints ++ [failLint c.phase a []] }
  | none =>
    match c.phase with
    | .backup => if hasError c.lints then { c with phase := .failed .createBackups } else { c with phase := .save, jobs := files.map saveJob }
    | .save => if hasError c.lints then { c with phase := .failed .saveProject } else
        { c with phase := .remove, jobs := removeJobs c.fs s,
                 lints := c.lints ++ walkLints L c.fs (backupFilter s.excludeArtifactPaths) s.artifactPaths }
    | .remove => { c with phase := .done }
    | _ => c

theorem stepNow_reaches (L : Libs) (s : Settings) (files : List (FilePath × Str)) (c : Cfg) : Reaches L s files c (stepNow L s files c) := by
  unfold stepNow
  split
  · rename_i before a rest after h
    have hj := splitJobs_some h
    split
    · rename_i fs' hf
      exact .single (.act c before after a rest fs' hj hf)
    · exact .single (.fail c before after a rest [] hj)
  · rename_i h
    have hj := splitJobs_none h
    split
    · rename_i hp
      split
      · rename_i he; exact .single (.backupErr c hp hj he)
      · rename_i he; exact .single (.backupOk c hp hj (by simpa using he))
    · rename_i hp
      split
      · rename_i he; exact .single (.saveErr c hp hj he)
      · rename_i he; exact .single (.saveOk c hp hj (by simpa using he))
    · rename_i hp; exact .single (.removeOk c hp hj)
    · exact .refl

/-- `n` steps. -/
def runNow (L : Libs) (s : Settings) (files : List (FilePath × Str)) : Nat → Cfg → Cfg
  | 0, c => c
  | n + 1, c => runNow L s files n (stepNow L s files c)

theorem runNow_reaches (L : Libs) (s : Settings) (files : List (FilePath × Str)) (n : Nat) (c : Cfg) : Reaches L s files c (runNow L s files n c) := by
  induction n generalizing c with
  | zero => exact .refl
  | succ n ih => exact (stepNow_reaches L s files c).trans (ih _)

/-- The result of a modification that stops after `n` steps of writing: the number of written files, the phase and the disk. -/
def modifyNow (L : Libs) (hash : ArtifactIm → HashIm) (fs : FS) (s : Settings) (ops : List ArtifactOp) (n : Nat) :
    Option (List (FilePath × Str) × Phase × FS) :=
  match readNow L hash fs s with
  | .ok (c, p) =>
    match planNow L hash (fun _ => []) c p ops with
    | .ok (_, p') =>
      match projectFiles L p' with
      | .ok files => let c := runNow L p'.settings files n (Cfg.init L fs p'.settings); some (files, c.phase, c.fs)
      | _ => none
    | _ => none
  | _ => none

/-- The outcome that `Modifies` has for a phase: none if the process is stopped before the end. -/
def Outcome (out : Option (Res ModifyError (Categorized × Project))) : Phase → Prop
  | .done => ∃ r, out = some (.ok r)
  | .failed k => ∃ e, out = some (.err e) ∧ e.kind = k
  | _ => out = none

theorem modifyNow_sound {L : Libs} {readToml : Str → Option SettingsRaw} {hash : ArtifactIm → HashIm} {ncpu : Nat} {fs : FS} {base : FilePath}
    {s : Settings} {ops : List ArtifactOp} {n : Nat} {files : List (FilePath × Str)} {ph : Phase} {fs' : FS}
    (hs : SettingsOf readToml fs base s) (hc : (walkCode fs s).countP (fun f => (codeSent L fs f).dead) < 4)
    (ha : (walkArtifacts fs s).countP (fun f => (artSent L s.pre fs f).dead) < ncpu) (h : modifyNow L hash fs s ops n = some (files, ph, fs')) :
    (∃ p', Accepted L readToml hash (fun _ => []) ncpu fs base ops p' ∧ projectFiles L p' = .ok files) ∧
    ∃ out, Outcome out ph ∧ Modifies L readToml hash (fun _ => []) ncpu fs base ops out fs' := by
  have hr := readNow_reads (L := L) (hash := hash) hs hc ha
  unfold modifyNow at h
  split at h
  · rename_i c p he
    rw [he] at hr
    split at h
    · rename_i c' p' hp
      have hpl : PlansRead L hash (fun _ => []) ops (.ok (c, p)) (.ok (c', p')) := by
        have := C23_total L hash (fun _ => []) c p ops
        rw [hp] at this
        exact this
      split at h
      · rename_i files' hf
        simp only [Option.some.injEq, Prod.mk.injEq] at h
        obtain ⟨rfl, h1, h2⟩ := h
        refine ⟨⟨p', ⟨_, _, hr, hpl⟩, hf⟩, ?_⟩
        have hre := runNow_reaches L p'.settings files' n (Cfg.init L fs p'.settings)
        rw [← h2]
        cases ph with
        | done => exact ⟨_, ⟨_, rfl⟩, .done hr hpl hf hre h1⟩
        | failed k => exact ⟨_, ⟨_, rfl, rfl⟩, .failed hr hpl hf hre h1⟩
        | _ => exact ⟨_, rfl, .crash hr hpl hf hre⟩
      · cases h
    · cases h
  · cases h

/-! ## examples -/

/-- Libraries for the examples: a toml file is a name and nothing else. -/
def nameLibs : Libs :=
  { exLibs with tomlRead := fun t => if t = [] then some [] else some [(t, ⟨none, none, none⟩)], tomlWrite := fun d => d.flatMap (fun x => x.1) }

/-- What is on a disk below `/p/design`. -/
def shown (fs : FS) : List (String × String) :=
  fs.filterMap (fun e => match e.2 with
    | .file (.text s) => if startsWith e.1 c!"/p/design" then some (String.ofList e.1, String.ofList s) else none
    | _ => none)

/-- What is on the disk below `/p/design` after `n` steps of writing, the names of the new files, and how far it got. -/
def showNow (fs : FS) (s : Settings) (ops : List ArtifactOp) (n : Nat) : Option (List String × Phase × List (String × String)) :=
  (modifyNow nameLibs exId fs s ops n).map (fun r => (r.1.map (fun x => String.ofList x.1), r.2.1, shown r.2.2))

theorem exGood_wf : FS.WF exGood := exFs_wf _ _ _ _

theorem exGood_settings : SettingsOf (fun _ => some exRaw) exGood c!"/p" exS := ⟨_, _, exFs_settings _ _ _ _⟩

theorem exSafe_of {fs : FS} {s : Settings} (w : FS.WF fs) (h1 : ∀ r ∈ s.artifactPaths, (match IMap.get? fs r with | some (.file _) => false | _ => true) = true)
    (h2 : ((walkArtifacts fs s).map backupPath).Nodup) : Safe fs s := by
  refine ⟨?_, ?_⟩
  · intro r hr hf
    obtain ⟨c, hc⟩ := w.isFile_iff.1 hf
    have := h1 r hr
    rw [hc] at this
    cases this
  · intro p q hp hq hs
    have hsup : Supported p := by
      obtain ⟨r, hr, hf, hu⟩ := hp
      rcases hu with rfl | hu
      · obtain ⟨c, hc⟩ := w.isFile_iff.1 hf
        have := h1 _ hr
        rw [hc] at this
        cases this
      · exact hu.2.1
    have hp := (C29_mem w s p).2 hp
    have hq := (C29_mem w s q).2 hq
    refine List.inj_on_of_nodup_map h2 hp hq ?_
    obtain ⟨d, n, x, y, rfl, rfl, h3, h4, h5, h6, h7⟩ := hs
    by_cases hn : n = []
    · subst hn
      exfalso
      cases he : extension (d ++ '/' :: ([] ++ '.' :: x)) with
      | none =>
        have := supported_from hsup
        unfold ArtFileType.fromPath at this
        rw [he] at this
        cases this
      | some y =>
        have hs : '/' ∉ ([] ++ '.' :: x : Str) := by
          simp only [List.nil_append, List.mem_cons, not_or]
          exact ⟨by decide, h4⟩
        obtain ⟨m, hm, e, _⟩ := (extension_child d hs).1 he
        cases m with
        | nil => exact hm rfl
        | cons a m =>
          rw [List.nil_append, List.cons_append] at e
          exact h6 (List.tail_eq_of_cons_eq e ▸ List.mem_append_right _ List.mem_cons_self)
    · rw [backupPath_of_ext hn h3 h4 h6, backupPath_of_ext hn h3 h5 h7]

/-- The project of the examples meets the hypotheses of C27. -/
theorem exGood_safe : Safe exGood exS := exSafe_of exGood_wf (by decide +kernel) (by decide +kernel)

/-- Changing, creating and deleting artifacts: the disk at the end, in the middle of the backups and in the middle of writing. -/
theorem exWrite : showNow exGood exS exOps 1000 =
      some (["/p/design/a.md", "/p/design/c.toml", "/p/design/b.md"], .done,
        [("/p/design/a.md", "# REQ-a\nwhat"), ("/p/design/c.toml", "SPC-c"), ("/p/design/b.md", "# SPC-b\npartof: REQ-a\n###\neven more")]) ∧
    showNow exGood exS exOps 1 =
      some (["/p/design/a.md", "/p/design/c.toml", "/p/design/b.md"], .backup,
        [("/p/design/b.md", "# SPC-b\nmore\n"), ("/p/design/a.artbk", "# REQ-a\nwhat\n# SPC-a\nhow [[.x]]\n")]) ∧
    showNow exGood exS exOps 10 =
      some (["/p/design/a.md", "/p/design/c.toml", "/p/design/b.md"], .save,
        [("/p/design/a.artbk", "# REQ-a\nwhat\n# SPC-a\nhow [[.x]]\n"), ("/p/design/b.artbk", "# SPC-b\nmore\n"), ("/p/design/a.md", "# REQ")]) := by
  decide +kernel

theorem modifyNow_some {fs : FS} {s : Settings} {ops : List ArtifactOp} {n : Nat} {names : List String} {ph : Phase} {disk : List (String × String)}
    (h : showNow fs s ops n = some (names, ph, disk)) :
    ∃ files fs', modifyNow nameLibs exId fs s ops n = some (files, ph, fs') ∧ files.map (fun x => String.ofList x.1) = names ∧ shown fs' = disk := by
  unfold showNow at h
  obtain ⟨⟨files, ph', fs'⟩, h1, h2⟩ := Option.map_eq_some_iff.1 h
  simp only [Prod.mk.injEq] at h2
  obtain ⟨h3, rfl, h4⟩ := h2
  exact ⟨files, fs', h1, h3, h4⟩

/-- These are executions of the model: the first one returns, the others are crashes. -/
example : (∃ r fs', Modifies nameLibs (fun _ => some exRaw) exId (fun _ => []) 4 exGood c!"/p" exOps (some (.ok r)) fs' ∧
      shown fs' = [("/p/design/a.md", "# REQ-a\nwhat"), ("/p/design/c.toml", "SPC-c"), ("/p/design/b.md", "# SPC-b\npartof: REQ-a\n###\neven more")]) ∧
    FS.WF exGood ∧ SettingsOf (fun _ => some exRaw) exGood c!"/p" exS ∧ Safe exGood exS ∧ LinkSets exOps := by
  refine ⟨?_, exGood_wf, exGood_settings, exGood_safe, exOps_ok.2.1⟩
  obtain ⟨files, fs', h1, _, h3⟩ := modifyNow_some exWrite.1
  obtain ⟨_, out, ⟨r, rfl⟩, hm⟩ := modifyNow_sound (ncpu := 4) exGood_settings (by decide +kernel) (by decide +kernel) h1
  exact ⟨r, fs', hm, h3⟩

/-! ## two files with one backup -/

/-- `a.md` and `a.toml` in one directory. -/
def exTwins : FS :=
  [(c!"", .dir), (c!"/p", .dir), (c!"/p/.art", .dir), (c!"/p/.art/settings.toml", .file (.text c!"")), (c!"/p/design", .dir),
   (c!"/p/design/a.md", .file (.text c!"# REQ-a\nwhat\n")), (c!"/p/design/a.toml", .file (.text c!"SPC-t")), (c!"/p/src", .dir)]

theorem exTwins_settings : SettingsOf (fun _ => some exRaw) exTwins c!"/p" exS := ⟨exS.settingsPath, exRaw, rfl, rfl⟩

/-- No file of the disk has this content. -/
def nowhere (fs : FS) (c : Content) : Bool := fs.all (fun e => decide (e.2 ≠ .file c))

theorem nowhere_content {fs : FS} {c : Content} (h : nowhere fs c = true) (q : FilePath) : contentAt fs q ≠ some c := by
  unfold contentAt
  intro hq
  cases hg : IMap.get? fs q with
  | none => rw [hg] at hq; cases hq
  | some n =>
    rw [hg] at hq
    cases n with
    | dir => cases hq
    | file c' =>
      cases hq
      obtain ⟨a', _, he⟩ := IMap.mem_of_get? hg
      simp only [nowhere, List.all_eq_true, decide_eq_true_eq] at h
      exact h _ he rfl

/-- The statement of `C27_modify` without the condition on the names of the files is false. Here `a.md` and `a.toml` are moved to the same backup
`a.artbk`, one after the other; if the process dies now, the content of `a.md` is nowhere on the disk and nothing was written. -/
theorem C27_same_stem_loses : ∃ (fs fs' : FS) (q : FilePath), FS.WF fs ∧ SettingsOf (fun _ => some exRaw) fs c!"/p" exS ∧
    (∀ r ∈ exS.artifactPaths, ¬ IsFile fs r) ∧ LinkSets [] ∧
    Modifies nameLibs (fun _ => some exRaw) exId (fun _ => []) 4 fs c!"/p" [] none fs' ∧
    ArtifactFile fs exS q ∧ (∃ c, contentAt fs q = some c ∧ ∀ b, contentAt fs' b ≠ some c) ∧
    ∃ p' files, Accepted nameLibs (fun _ => some exRaw) exId (fun _ => []) 4 fs c!"/p" [] p' ∧ projectFiles nameLibs p' = .ok files ∧
      ∃ x ∈ files, contentAt fs' x.1 ≠ some (.text x.2) := by
  have w : FS.WF exTwins := FS.isTree_wf (by decide +kernel)
  have hw : (modifyNow nameLibs exId exTwins exS [] 2).map (fun r => (r.2.1, nowhere r.2.2 (.text c!"# REQ-a\nwhat\n"),
      r.1.any (fun x => decide (contentAt r.2.2 x.1 = none)))) = some (.backup, true, true) := by decide +kernel
  obtain ⟨⟨files, ph, fs'⟩, h1, h2⟩ := Option.map_eq_some_iff.1 hw
  simp only [Prod.mk.injEq] at h2
  obtain ⟨rfl, h3, h4⟩ := h2
  obtain ⟨⟨p', ha, hf⟩, out, ho, hm⟩ := modifyNow_sound (ncpu := 4) exTwins_settings (by decide +kernel) (by decide +kernel) h1
  cases (ho : out = none)
  simp only [List.any_eq_true, decide_eq_true_eq] at h4
  obtain ⟨x, hx, h4⟩ := h4
  refine ⟨exTwins, fs', c!"/p/design/a.md", w, exTwins_settings, ?_, (by intro op ho; cases ho), hm, ?_,
    ⟨_, (by decide +kernel : contentAt exTwins c!"/p/design/a.md" = some (.text c!"# REQ-a\nwhat\n")), nowhere_content h3⟩, p', files, ha, hf, x, hx,
    by rw [h4]; simp⟩
  · intro r hr hf
    obtain ⟨c, hc⟩ := w.isFile_iff.1 hf
    rw [List.mem_singleton.1 hr] at hc
    cases hc
  · exact (C29_mem w exS _).1 (by decide +kernel)

/-! ## an artifact path that is a file -/

/-- Settings whose artifact path is a file. -/
def exRawFile : SettingsRaw := ⟨[c!"design/a.md"], [], [c!"src"], [], none, .default, .hashes⟩
def exSFile : Settings := { exS with artifactPaths := [c!"/p/design/a.md"] }

theorem exFile_settings : SettingsOf (fun _ => some exRawFile) exGood c!"/p" exSFile := ⟨exS.settingsPath, exRawFile, rfl, rfl⟩

/-- The statement of `C27_modify` without the condition on the artifact paths is false: when the backups are removed, a configured path that is a file is
removed as well, whatever its extension. Here the modification returns without error and the only artifact file is gone. -/
theorem C27_file_root_removed : ∃ (fs fs' : FS) (r : Categorized × Project), FS.WF fs ∧ SettingsOf (fun _ => some exRawFile) fs c!"/p" exSFile ∧
    (∀ p q, ArtifactFile fs exSFile p → ArtifactFile fs exSFile q → SameStem p q → p = q) ∧
    Modifies nameLibs (fun _ => some exRawFile) exId (fun _ => []) 4 fs c!"/p" [] (some (.ok r)) fs' ∧
    ArtifactFile fs exSFile c!"/p/design/a.md" ∧ ¬ IsFile fs' c!"/p/design/a.md" ∧
    contentAt fs' c!"/p/design/a.artbk" = contentAt fs c!"/p/design/a.md" := by
  have hw : (modifyNow nameLibs exId exGood exSFile [] 1000).map (fun r => (r.2.1, FS.isTree r.2.2, contentAt r.2.2 c!"/p/design/a.md",
      contentAt r.2.2 c!"/p/design/a.artbk")) = some (.done, true, none, contentAt exGood c!"/p/design/a.md") := by decide +kernel
  obtain ⟨⟨files, ph, fs'⟩, h1, h2⟩ := Option.map_eq_some_iff.1 hw
  simp only [Prod.mk.injEq] at h2
  obtain ⟨rfl, h3, h4, h5⟩ := h2
  obtain ⟨_, out, ⟨r, rfl⟩, hm⟩ := modifyNow_sound (ncpu := 4) exFile_settings (by decide +kernel) (by decide +kernel) h1
  have hone : walkArtifacts exGood exSFile = [c!"/p/design/a.md"] := by decide +kernel
  refine ⟨exGood, fs', r, exGood_wf, exFile_settings, ?_, hm, (C29_mem exGood_wf exSFile _).1 (by rw [hone]; simp), ?_, h5⟩
  · intro p q hp hq _
    have hp := (C29_mem exGood_wf exSFile p).2 hp
    have hq := (C29_mem exGood_wf exSFile q).2 hq
    rw [hone, List.mem_singleton] at hp hq
    rw [hp, hq]
  · intro hf
    obtain ⟨c, hc⟩ := (FS.isTree_wf h3).isFile_iff.1 hf
    unfold contentAt at h4
    rw [hc] at h4
    cases h4

/-! ## errors after the disk was changed -/

/-- An artifact in a directory that does not exist. -/
def exOpsDir : List ArtifactOp := [.create { exImC with file := c!"/p/design/new/c.md" }]

/-- C23 is about refused operations only. An artifact whose directory does not exist is accepted, and the error comes when it is written: the artifact files were
already moved to their backups, and those are not moved back. -/
theorem C23_save_error_changes_disk : ∃ (e : ModifyError) (fs' : FS),
    Modifies nameLibs (fun _ => some exRaw) exId (fun _ => []) 4 exGood c!"/p" exOpsDir (some (.err e)) fs' ∧ e.kind = .saveProject ∧
    shown fs' = [("/p/design/a.artbk", "# REQ-a\nwhat\n# SPC-a\nhow [[.x]]\n"), ("/p/design/b.artbk", "# SPC-b\nmore\n"),
      ("/p/design/a.md", "# REQ-a\nwhat\n\n\n# SPC-a\nhow [[.x]]"), ("/p/design/b.md", "# SPC-b\nmore")] := by
  have hw : showNow exGood exS exOpsDir 1000 = some (["/p/design/a.md", "/p/design/b.md", "/p/design/new/c.md"], .failed .saveProject,
    [("/p/design/a.artbk", "# REQ-a\nwhat\n# SPC-a\nhow [[.x]]\n"), ("/p/design/b.artbk", "# SPC-b\nmore\n"),
      ("/p/design/a.md", "# REQ-a\nwhat\n\n\n# SPC-a\nhow [[.x]]"), ("/p/design/b.md", "# SPC-b\nmore")]) := by decide +kernel
  obtain ⟨files, fs', h1, _, h3⟩ := modifyNow_some hw
  obtain ⟨_, out, ⟨e, rfl, hk⟩, hm⟩ := modifyNow_sound (ncpu := 4) exGood_settings (by decide +kernel) (by decide +kernel) h1
  exact ⟨e, fs', hm, hk, h3⟩

/-- The disk after a crash in the middle of writing: `a.md` is written, `b.md` is empty, both backups are there. -/
def exHalf : FS := ((modifyNow nameLibs exId exGood exS [] 40).map (fun r => r.2.2)).getD []

theorem exHalf_settings : SettingsOf (fun _ => some exRaw) exHalf c!"/p" exS := by
  refine ⟨exS.settingsPath, exRaw, ?_, rfl⟩
  have h1 : IMap.get? exHalf c!"/p" = some .dir := by decide +kernel
  have h2 : IMap.get? exHalf (c!"/p" ++ c!"/.art/settings.toml") = some (.file (.text [])) := by decide +kernel
  unfold loadSettingsRaw
  rw [h1]
  dsimp only
  rw [h2]
  rfl

/-- C27 is about one modification. If the process dies while it writes and the project is then modified again without moving the backups back, the second
run removes the backups of the first: the content of `b.md` is nowhere, although nothing was asked to be changed and the second run returns without error. -/
theorem C27_second_run_loses : ∃ (fs fs1 fs2 : FS) (r : Categorized × Project), FS.WF fs ∧ FS.WF fs1 ∧ SettingsOf (fun _ => some exRaw) fs c!"/p" exS ∧
    SettingsOf (fun _ => some exRaw) fs1 c!"/p" exS ∧ Safe fs exS ∧ Safe fs1 exS ∧
    Modifies nameLibs (fun _ => some exRaw) exId (fun _ => []) 4 fs c!"/p" [] none fs1 ∧
    Modifies nameLibs (fun _ => some exRaw) exId (fun _ => []) 4 fs1 c!"/p" [] (some (.ok r)) fs2 ∧
    ∃ q c, ArtifactFile fs exS q ∧ contentAt fs q = some c ∧ (∃ b, contentAt fs1 b = some c) ∧ ∀ b, contentAt fs2 b ≠ some c := by
  have w1 : FS.WF exHalf := FS.isTree_wf (by decide +kernel)
  have hw : (modifyNow nameLibs exId exGood exS [] 40).map (fun r => r.2.1) = some .save := by decide +kernel
  obtain ⟨⟨files, ph, fs1⟩, h1, h2⟩ := Option.map_eq_some_iff.1 hw
  simp only at h2
  subst h2
  have e1 : fs1 = exHalf := by unfold exHalf; rw [h1]; rfl
  obtain ⟨_, out, ho, hm⟩ := modifyNow_sound (ncpu := 4) exGood_settings (by decide +kernel) (by decide +kernel) h1
  cases (ho : out = none)
  have hw2 : (modifyNow nameLibs exId exHalf exS [] 1000).map (fun r => (r.2.1, nowhere r.2.2 (.text c!"# SPC-b\nmore\n"))) = some (.done, true) := by
    decide +kernel
  obtain ⟨⟨files2, ph2, fs2⟩, h3, h4⟩ := Option.map_eq_some_iff.1 hw2
  simp only [Prod.mk.injEq] at h4
  obtain ⟨rfl, h5⟩ := h4
  obtain ⟨_, out, ⟨r, rfl⟩, hm2⟩ := modifyNow_sound (ncpu := 4) exHalf_settings (by decide +kernel) (by decide +kernel) h3
  refine ⟨exGood, exHalf, fs2, r, exGood_wf, w1, exGood_settings, exHalf_settings, exGood_safe, exSafe_of w1 (by decide +kernel) (by decide +kernel),
    e1 ▸ hm, hm2, c!"/p/design/b.md", .text c!"# SPC-b\nmore\n", (C29_mem exGood_wf exS _).1 (by decide +kernel), by decide +kernel,
    ⟨c!"/p/design/b.artbk", by decide +kernel⟩, nowhere_content h5⟩

/-! ## files that define nothing -/

/-- `a.md` defines an artifact and begins with a title, `notes.md` defines none. -/
def exNotes : FS :=
  [(c!"", .dir), (c!"/p", .dir), (c!"/p/.art", .dir), (c!"/p/.art/settings.toml", .file (.text c!"")), (c!"/p/design", .dir),
   (c!"/p/design/a.md", .file (.text c!"Our design.\n\n# REQ-a\nwhat\n")), (c!"/p/design/notes.md", .file (.text c!"Remember the milk.\n")), (c!"/p/src", .dir)]

theorem exNotes_settings : SettingsOf (fun _ => some exRaw) exNotes c!"/p" exS := ⟨exS.settingsPath, exRaw, rfl, rfl⟩

/-- C46 is about artifacts only: formatting a project, which asks for no change, removes an artifact file that defines no artifact, and drops the text above the first
artifact of a file. -/
theorem C46_notes_removed : ∃ (fs' : FS) (r : Categorized × Project), FS.WF exNotes ∧ Safe exNotes exS ∧
    Modifies nameLibs (fun _ => some exRaw) exId (fun _ => []) 4 exNotes c!"/p" [] (some (.ok r)) fs' ∧
    ArtifactFile exNotes exS c!"/p/design/notes.md" ∧ shown fs' = [("/p/design/a.md", "# REQ-a\nwhat")] := by
  have w : FS.WF exNotes := FS.isTree_wf (by decide +kernel)
  have hw : showNow exNotes exS [] 1000 = some (["/p/design/a.md"], .done, [("/p/design/a.md", "# REQ-a\nwhat")]) := by decide +kernel
  obtain ⟨files, fs', h1, _, h3⟩ := modifyNow_some hw
  obtain ⟨_, out, ⟨r, rfl⟩, hm⟩ := modifyNow_sound (ncpu := 4) exNotes_settings (by decide +kernel) (by decide +kernel) h1
  exact ⟨fs', r, w, exSafe_of w (by decide +kernel) (by decide +kernel), hm, (C29_mem w exS _).1 (by decide +kernel), h3⟩

/-- The last case of C49 does occur: `old.artbk` is no backup of an artifact file, and formatting removes it. -/
def exOld : FS :=
  [(c!"", .dir), (c!"/p", .dir), (c!"/p/.art", .dir), (c!"/p/.art/settings.toml", .file (.text c!"")), (c!"/p/design", .dir),
   (c!"/p/design/a.md", .file (.text c!"# REQ-a\nwhat\n")), (c!"/p/design/old.artbk", .file (.text c!"older")), (c!"/p/src", .dir)]

theorem exOld_settings : SettingsOf (fun _ => some exRaw) exOld c!"/p" exS := ⟨exS.settingsPath, exRaw, rfl, rfl⟩

theorem C49_foreign_backup_removed : ∃ (fs' : FS) (r : Categorized × Project), FS.WF exOld ∧ Safe exOld exS ∧
    Modifies nameLibs (fun _ => some exRaw) exId (fun _ => []) 4 exOld c!"/p" [] (some (.ok r)) fs' ∧
    contentAt exOld c!"/p/design/old.artbk" = some (.text c!"older") ∧ shown fs' = [("/p/design/a.md", "# REQ-a\nwhat")] := by
  have w : FS.WF exOld := FS.isTree_wf (by decide +kernel)
  have hw : showNow exOld exS [] 1000 = some (["/p/design/a.md"], .done, [("/p/design/a.md", "# REQ-a\nwhat")]) := by decide +kernel
  obtain ⟨files, fs', h1, _, h3⟩ := modifyNow_some hw
  obtain ⟨_, out, ⟨r, rfl⟩, hm⟩ := modifyNow_sound (ncpu := 4) exOld_settings (by decide +kernel) (by decide +kernel) h1
  exact ⟨fs', r, w, exSafe_of w (by decide +kernel) (by decide +kernel), hm, by decide +kernel, h3⟩

end Art
