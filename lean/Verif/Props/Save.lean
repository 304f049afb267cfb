import Verif.Lemmas.SaveInv
import Verif.Lemmas.Written

/-!
# Writing a project: crash safety and what is changed (C27, C49)
-/

namespace Art.Spec

/-- The settings of the project at `base`. -/
def SettingsOf (readToml : Str → Option SettingsRaw) (fs : FS) (base : FilePath) (s : Settings) : Prop :=
  ∃ path raw, loadSettingsRaw readToml fs base = some (path, raw) ∧ resolveSettings base path raw = .ok s

/-- The operations are accepted and `p'` is the new project. -/
def Accepted (L : Libs) (readToml : Str → Option SettingsRaw) (hash : ArtifactIm → HashIm) (dbg : ArtifactIm → Str) (ncpu : Nat) (fs : FS)
    (base : FilePath) (ops : List ArtifactOp) (p' : Project) : Prop :=
  ∃ read c, ReadsProject L readToml hash ncpu fs base read ∧ PlansRead L hash dbg ops read (.ok (c, p'))

/-- The content of `q` on the disk `fs` is still on the disk `fs'`: in place or in the backup of `q`. -/
def StillThere (fs fs' : FS) (q : FilePath) : Prop :=
  contentAt fs' q = contentAt fs q ∨ ∃ b, BackupOf q b ∧ contentAt fs' b = contentAt fs q

/-- `b` is the name of the backup of `q`; a file without an extension gets one. -/
def BackupName (q b : FilePath) : Prop := BackupOf q b ∨ (¬ ∃ b', BackupOf q b') ∧ b = q ++ c!".artbk"

/-- The configured artifact paths are not files and no two artifact files of a directory differ only in the extension. -/
structure Safe (fs : FS) (s : Settings) : Prop where
  roots : ∀ r ∈ s.artifactPaths, ¬ IsFile fs r
  stems : ∀ p q, ArtifactFile fs s p → ArtifactFile fs s q → SameStem p q → p = q

end Art.Spec

namespace Art
open Spec

section
variable {L : Libs} {readToml : Str → Option SettingsRaw} {hash : ArtifactIm → HashIm} {dbg : ArtifactIm → Str} {ncpu : Nat} {fs fs' : FS}
  {base : FilePath} {ops : List ArtifactOp} {s : Settings} {files : List (FilePath × Str)} {cfg : Cfg} {p' : Project}

/-! ## while the files are written -/

theorem content_eq {fs fs' : FS} {p q : FilePath} (h : IMap.get? fs' q = IMap.get? fs p) : contentAt fs' q = contentAt fs p := by
  unfold contentAt
  rw [h]

theorem kept_of_inv (o : Orderly fs s files) (h : ∀ p ∈ walkArtifacts fs s, IMap.get? cfg.fs p = IMap.get? fs p ∨ Moved fs cfg.fs p) :
    ∀ q, ArtifactFile fs s q → StillThere fs cfg.fs q := by
  intro q hq
  have hq := (C29_mem o.wf s q).2 hq
  rcases h q hq with h | h
  · exact Or.inl (content_eq h)
  · exact Or.inr ⟨backupPath q, (supported_backup (o.supported hq)).1, content_eq h.2⟩

theorem kept_of_backup (o : Orderly fs s files) (h : ∀ p ∈ walkArtifacts fs s, IMap.get? cfg.fs (backupPath p) = IMap.get? fs p) :
    ∀ q, ArtifactFile fs s q → StillThere fs cfg.fs q := by
  intro q hq
  have hq := (C29_mem o.wf s q).2 hq
  exact Or.inr ⟨backupPath q, (supported_backup (o.supported hq)).1, content_eq (h q hq)⟩

theorem written_content (h : Written fs s files cfg.fs) : ∀ x ∈ files, contentAt cfg.fs x.1 = some (.text x.2) := by
  intro x hx
  unfold contentAt
  rw [h.all x hx]

/-- C27, for any set of files to write. Whenever the process dies while it writes, with any interleaving of the workers and whatever actions
failed before: the content of every artifact file is still on the disk, in place or in its backup, or all the new files are
completely written. -/
theorem C27_crash_safe (o : Orderly fs s files) (h : Reaches L s files (Cfg.init L fs s) cfg) :
    (∀ q, ArtifactFile fs s q → StillThere fs cfg.fs q) ∨ ∀ x ∈ files, contentAt cfg.fs x.1 = some (.text x.2) := by
  have hi := inv_reaches o h
  unfold Inv at hi
  split at hi
  · exact Or.inl (kept_of_inv o hi.safe)
  · exact Or.inl (kept_of_backup o hi.kept)
  · exact Or.inr (written_content hi.written)
  · exact Or.inr (written_content hi.1.written)
  · exact Or.inl (kept_of_inv o hi.1.safe)
  · exact Or.inl (kept_of_backup o hi.1.kept)
  · exact hi.elim

/-- C27: if writing ends with an error then no content of an artifact file is lost. -/
theorem C27_failed (o : Orderly fs s files) (h : Reaches L s files (Cfg.init L fs s) cfg) {k : ModifyErrorKind} (hp : cfg.phase = .failed k) :
    ∀ q, ArtifactFile fs s q → StillThere fs cfg.fs q := by
  have hi := inv_reaches o h
  unfold Inv at hi
  rw [hp] at hi
  cases k with
  | createBackups => exact kept_of_inv o hi.1.safe
  | saveProject => exact kept_of_backup o hi.1.kept
  | _ => exact hi.elim

/-- C27: if writing ends without an error then all files are written, the artifact files that are not among them are gone, and every
backup file that the loader of backups finds was removed or is reported. -/
theorem C27_done (o : Orderly fs s files) (h : Reaches L s files (Cfg.init L fs s) cfg) (hp : cfg.phase = .done) :
    (∀ x ∈ files, contentAt cfg.fs x.1 = some (.text x.2)) ∧
    (∀ q, ArtifactFile fs s q → (∀ x ∈ files, q ≠ x.1) → ¬ IsFile cfg.fs q) ∧
    ∀ q b, ArtifactFile fs s q → BackupOf q b → b ∉ s.excludeArtifactPaths → IsFile cfg.fs b →
      ∃ d ∈ cfg.lints, d.category = .removeBackups ∧ d.path = some b := by
  have hok : ∀ x ∈ files, FilePathOk x.1 := fun x hx => (supported_ext (o.files x hx)).2
  have w' := tree_reaches o.wf hok h
  have hi := inv_reaches o h
  unfold Inv at hi
  rw [hp] at hi
  obtain ⟨hi, hj⟩ := hi
  refine ⟨written_content hi.written, ?_, ?_⟩
  · intro q hq hqf hfile
    obtain ⟨c, hc⟩ := w'.isFile_iff.1 hfile
    rw [hi.written.gone q ((C29_mem o.wf s q).2 hq) hqf] at hc
    cases hc
  · intro q b hq hb hx hfile
    obtain ⟨r, hr, hf, hu⟩ := hq
    have hu : Under r q ∧ Supported q ∧ ∀ e ∈ s.excludeArtifactPaths, Under r e → ¬ Under e q := by
      rcases hu with rfl | hu
      · exact absurd hf (o.roots _ hr)
      · exact hu
    have hfound : Finds cfg.fs s.excludeArtifactPaths (fun q => extension q = some c!"artbk") r b := by
      have hbk := backup_eq hb
      obtain ⟨d, n, x, rfl, h1, h2, h3, h4, rfl⟩ := hb
      have hs : '/' ∉ n ++ '.' :: x := by
        simp only [List.mem_append, List.mem_cons, not_or]
        exact ⟨h2, by decide, h3⟩
      have hs' : '/' ∉ n ++ c!".artbk" := by
        simp only [List.mem_append, not_or]
        exact ⟨h2, by decide⟩
      have hrd : Under r d := by
        rcases hu.1.child hs with h | h
        · exact absurd (h ▸ hf) (o.roots _ hr)
        · exact h
      refine ⟨hfile, Or.inr ⟨hrd.trans (Or.inr ⟨_, rfl⟩), ?_, ?_⟩⟩
      · rw [← hbk]; exact (supported_backup hu.2.1).2.1
      · intro e he h5 h6
        rcases h6.child hs' with rfl | h6
        · exact hx he
        · exact hu.2.2 e he h5 (h6.trans (Or.inr ⟨_, rfl⟩))
    rcases hi.todo b ⟨r, hr, hfound⟩ with h | h
    · cases hj _ h
    · exact h

/-! ## a whole modification -/

theorem planned (h : Accepted L readToml hash dbg ncpu fs base ops p') : ∃ c p c', ReadsProject L readToml hash ncpu fs base (.ok (c, p)) ∧
    Plans L hash dbg c p ops (.ok (c', p')) := by
  obtain ⟨read, c, h1, h2⟩ := h
  unfold PlansRead at h2
  cases read with
  | ok r => obtain ⟨c0, p⟩ := r; exact ⟨c0, p, c, h1, h2⟩
  | err e =>
    exfalso
    simp only [checkLints_eq] at h2
    split at h2 <;> cases h2
  | panic => cases h2

theorem settings_of_read {c : Categorized} {p : Project} (hs : SettingsOf readToml fs base s) (h : ReadsProject L readToml hash ncpu fs base (.ok (c, p))) :
    p.settings = s := by
  obtain ⟨path, raw, h1, h2⟩ := hs
  obtain ⟨raw', path', s', r, arts, ls, h3, h4, _, _, _, _, rfl, _⟩ := reads_parts h
  rw [h1] at h3
  cases h3
  rw [h2] at h4
  cases h4
  rfl

theorem accepted_settings (w : FS.WF fs) (hs : SettingsOf readToml fs base s) (hl : LinkSets ops) (h : Accepted L readToml hash dbg ncpu fs base ops p') :
    p'.settings = s ∧ NamesDistinct p' ∧ ∀ a ∈ editable p', Supported a.file ∧ ∃ r ∈ s.artifactPaths, Under r a.file := by
  obtain ⟨c, p, c', h1, h2⟩ := planned h
  obtain ⟨h3, h4⟩ := modify_files w h1 hl h2
  have h5 := settings_of_read hs h1
  rw [h5] at h4
  exact ⟨h3.trans h5, h4⟩

theorem supported_from {p : FilePath} (h : Supported p) : (ArtFileType.fromPath p).isSome = true := by
  obtain ⟨d, n, x, rfl, h1, h2, h3, h4, h5⟩ := supported_shape h
  have : extension (d ++ '/' :: (n ++ '.' :: x)) = some x := by
    refine (extension_child d ?_).2 ⟨n, h1, rfl, h4⟩
    simp only [List.mem_append, List.mem_cons, not_or]
    exact ⟨h2, by decide, h3⟩
  unfold ArtFileType.fromPath
  rw [this]
  rcases h5 with rfl | rfl | rfl <;> decide

/-- C46: a project that was read and modified can always be written: no artifact makes the writers panic and every file has a known
extension. -/
theorem C46_renders (w : FS.WF fs) (hs : SettingsOf readToml fs base s) (hl : LinkSets ops) (h : Accepted L readToml hash dbg ncpu fs base ops p') :
    ∃ files, projectFiles L p' = .ok files := by
  obtain ⟨_, h2, h3⟩ := accepted_settings w hs hl h
  exact projectFiles_ok h2 (fun a ha => supported_from (h3 a ha).1)

theorem accepted_orderly (w : FS.WF fs) (hs : SettingsOf readToml fs base s) (hl : LinkSets ops) (hsafe : Safe fs s)
    (h : Accepted L readToml hash dbg ncpu fs base ops p') (hf : projectFiles L p' = .ok files) : Orderly fs p'.settings files := by
  obtain ⟨h1, h2, h3⟩ := accepted_settings w hs hl h
  obtain ⟨h4, h5, h6⟩ := projectFiles_spec h2 hf
  rw [h1]
  refine ⟨w, hsafe.roots, hsafe.stems, ?_, h4⟩
  intro x hx
  obtain ⟨h7, _⟩ := h6 x hx
  obtain ⟨a, ha⟩ := List.exists_mem_of_ne_nil _ h7
  obtain ⟨h8, h9⟩ := mem_inFile.1 ha
  exact h9 ▸ (h3 a h8).1

/-- C27: whatever `modify_project` does and whenever the process dies. If it returns an error the content of every artifact file is still there;
if it returns without error all files of the new project are completely written; and if it dies, one of the two holds. -/
theorem C27_modify (w : FS.WF fs) (hs : SettingsOf readToml fs base s) (hsafe : Safe fs s) (hl : LinkSets ops)
    {out : Option (Res ModifyError (Categorized × Project))} (h : Modifies L readToml hash dbg ncpu fs base ops out fs') :
    ((∀ r, out ≠ some (.ok r)) ∧ ∀ q, ArtifactFile fs s q → StillThere fs fs' q) ∨
    ((∀ e, out ≠ some (.err e)) ∧ ∃ p' files, Accepted L readToml hash dbg ncpu fs base ops p' ∧ projectFiles L p' = .ok files ∧
      ∀ x ∈ files, contentAt fs' x.1 = some (.text x.2)) := by
  cases h with
  | early => exact Or.inl ⟨by simp, fun q _ => Or.inl rfl⟩
  | refused h1 h2 h3 => exact Or.inl ⟨fun r hr => h3 r (Option.some.inj hr), fun q _ => Or.inl rfl⟩
  | crash h1 h2 h3 h4 =>
    have ha : Accepted L readToml hash dbg ncpu fs base ops _ := ⟨_, _, h1, h2⟩
    have o := accepted_orderly w hs hl hsafe ha h3
    rcases C27_crash_safe o h4 with h | h
    · rw [(accepted_settings w hs hl ha).1] at h
      exact Or.inl ⟨by simp, h⟩
    · exact Or.inr ⟨by simp, _, _, ha, h3, h⟩
  | failed h1 h2 h3 h4 h5 =>
    have ha : Accepted L readToml hash dbg ncpu fs base ops _ := ⟨_, _, h1, h2⟩
    have o := accepted_orderly w hs hl hsafe ha h3
    have h := C27_failed o h4 h5
    rw [(accepted_settings w hs hl ha).1] at h
    exact Or.inl ⟨by simp, h⟩
  | done h1 h2 h3 h4 h5 =>
    have ha : Accepted L readToml hash dbg ncpu fs base ops _ := ⟨_, _, h1, h2⟩
    have o := accepted_orderly w hs hl hsafe ha h3
    exact Or.inr ⟨by simp, _, _, ha, h3, (C27_done o h4 h5).1⟩

/-! ## what is changed -/

theorem backupName_path {q : FilePath} (h : FilePathOk q) : BackupName q (backupPath q) := by
  obtain ⟨d, n, rfl, h1, h2⟩ := h
  cases he : extension (d ++ '/' :: n) with
  | some x =>
    obtain ⟨m, hm, rfl, hx⟩ := (extension_child d h2).1 he
    simp only [List.mem_append, List.mem_cons, not_or] at h2
    exact Or.inl ⟨d, m, x, rfl, hm, h2.1, h2.2.2, hx, backupPath_of_ext hm h2.1 h2.2.2 hx⟩
  | none =>
    refine Or.inr ⟨?_, by unfold backupPath; rw [he]⟩
    rintro ⟨b, d', m, x, e, hm, h3, h4, h5, _⟩
    have hs : '/' ∉ m ++ '.' :: x := by
      simp only [List.mem_append, List.mem_cons, not_or]
      exact ⟨h3, by decide, h4⟩
    have := (extension_child d' hs).2 ⟨m, hm, rfl, h5⟩
    rw [← e, he] at this
    cases this

/-- What a modification may touch. -/
def MayTouch (L : Libs) (readToml : Str → Option SettingsRaw) (hash : ArtifactIm → HashIm) (dbg : ArtifactIm → Str) (ncpu : Nat) (fs : FS)
    (base : FilePath) (ops : List ArtifactOp) (s : Settings) (q : FilePath) : Prop :=
  ArtifactFile fs s q ∨
  (∃ f, ArtifactFile fs s f ∧ BackupName f q) ∨
  (∃ p', Accepted L readToml hash dbg ncpu fs base ops p' ∧ ∃ a ∈ editable p', a.file = q) ∨
  ∃ r ∈ s.artifactPaths, Under r q ∧ extension q = some c!"artbk"

theorem frame_modify (w : FS.WF fs) (hs : SettingsOf readToml fs base s) (hl : LinkSets ops) (ha : Accepted L readToml hash dbg ncpu fs base ops p')
    (hf : projectFiles L p' = .ok files) (h : Reaches L p'.settings files (Cfg.init L fs p'.settings) cfg) :
    (∀ q, IMap.get? cfg.fs q ≠ IMap.get? fs q → MayTouch L readToml hash dbg ncpu fs base ops s q) ∧
    (∀ q, IMap.get? cfg.fs q = some .dir ↔ IMap.get? fs q = some .dir) := by
  obtain ⟨h1, h2, h3⟩ := accepted_settings w hs hl ha
  obtain ⟨h4, h5, h6⟩ := projectFiles_spec h2 hf
  have hi := frame_reaches h
  refine ⟨?_, hi.dirs⟩
  intro q hq
  have : Allowed fs p'.settings files q := by
    by_contra hna
    exact hq (hi.same q hna)
  rw [h1] at this
  rcases this with h | ⟨f, hf, rfl⟩ | ⟨x, hx, rfl⟩ | h
  · exact Or.inl ((C29_mem w s q).1 h)
  · obtain ⟨c, hc⟩ := walkArtifacts_file w hf
    exact Or.inr (Or.inl ⟨f, (C29_mem w s f).1 hf, backupName_path (w.fileOk hc).1⟩)
  · obtain ⟨a, ha'⟩ := List.exists_mem_of_ne_nil _ (h6 x hx).1
    obtain ⟨h8, h9⟩ := mem_inFile.1 ha'
    exact Or.inr (Or.inr (Or.inl ⟨p', ha, a, h8, h9⟩))
  · exact Or.inr (Or.inr (Or.inr h))

/-- C49: `modify_project` creates, changes and removes only artifact files, their backups, files of artifacts of the new project, and files with the extension of a
backup under the artifact paths; and it neither makes nor removes a directory. This holds for every disk, whether the process returns or dies. -/
theorem C49_frame (w : FS.WF fs) (hs : SettingsOf readToml fs base s) (hl : LinkSets ops)
    {out : Option (Res ModifyError (Categorized × Project))} (h : Modifies L readToml hash dbg ncpu fs base ops out fs') :
    (∀ q, IMap.get? fs' q ≠ IMap.get? fs q → MayTouch L readToml hash dbg ncpu fs base ops s q) ∧
    (∀ q, IMap.get? fs' q = some .dir ↔ IMap.get? fs q = some .dir) := by
  cases h with
  | early => exact ⟨fun q hq => absurd rfl hq, fun q => Iff.rfl⟩
  | refused h1 h2 h3 => exact ⟨fun q hq => absurd rfl hq, fun q => Iff.rfl⟩
  | crash h1 h2 h3 h4 => exact frame_modify w hs hl ⟨_, _, h1, h2⟩ h3 h4
  | failed h1 h2 h3 h4 h5 => exact frame_modify w hs hl ⟨_, _, h1, h2⟩ h3 h4
  | done h1 h2 h3 h4 h5 => exact frame_modify w hs hl ⟨_, _, h1, h2⟩ h3 h4

/-- C49: without readable settings nothing is changed. -/
theorem C49_no_settings (hs : ¬ ∃ s, SettingsOf readToml fs base s) {out : Option (Res ModifyError (Categorized × Project))}
    (h : Modifies L readToml hash dbg ncpu fs base ops out fs') : fs' = fs := by
  have key : ∀ {p'}, ¬ Accepted L readToml hash dbg ncpu fs base ops p' := by
    intro p' ha
    obtain ⟨c, p, c', h1, _⟩ := planned ha
    obtain ⟨raw, path, s, _, _, _, h3, h4, _⟩ := reads_parts h1
    exact hs ⟨s, path, raw, h3, h4⟩
  cases h with
  | early => rfl
  | refused h1 h2 h3 => rfl
  | crash h1 h2 h3 h4 => exact absurd ⟨_, _, h1, h2⟩ key
  | failed h1 h2 h3 h4 h5 => exact absurd ⟨_, _, h1, h2⟩ key
  | done h1 h2 h3 h4 h5 => exact absurd ⟨_, _, h1, h2⟩ key

/-- C49: every path that is touched lies under a configured artifact path. -/
theorem C49_inside (w : FS.WF fs) (hs : SettingsOf readToml fs base s) (hl : LinkSets ops)
    (roots : ∀ r ∈ s.artifactPaths, ¬ IsFile fs r)
    {q : FilePath} (h : MayTouch L readToml hash dbg ncpu fs base ops s q) :
    ∃ r ∈ s.artifactPaths, Under r q := by
  have key : ∀ f, ArtifactFile fs s f → ∃ r ∈ s.artifactPaths, Under r f ∧ r ≠ f := by
    rintro f ⟨r, hr, hf, hu⟩
    rcases hu with rfl | hu
    · exact absurd hf (roots _ hr)
    · exact ⟨r, hr, hu.1, by rintro rfl; exact roots _ hr hf⟩
  rcases h with h | ⟨f, hf, hb⟩ | ⟨p', ha, a, h1, rfl⟩ | ⟨r, hr, h, _⟩
  · obtain ⟨r, hr, h, _⟩ := key q h
    exact ⟨r, hr, h⟩
  · obtain ⟨r, hr, h, hne⟩ := key f hf
    refine ⟨r, hr, ?_⟩
    obtain ⟨c, hc⟩ := w.isFile_iff.1 hf.choose_spec.2.1
    obtain ⟨⟨d, n, e, h1, h2⟩, _⟩ := w.fileOk hc
    have hd : Under r d := by
      rcases (e ▸ h).child h2 with h | h
      · exact absurd (h.trans e.symm) hne
      · exact h
    rcases hb with ⟨d', m, x, e', h3, h4, h5, h6, rfl⟩ | ⟨_, rfl⟩
    · have : d = d' := by
        have hs : '/' ∉ m ++ '.' :: x := by
          simp only [List.mem_append, List.mem_cons, not_or]
          exact ⟨h4, by decide, h5⟩
        have := congrArg parentDir (e.symm.trans e')
        rwa [parentDir_ok h2, parentDir_ok hs] at this
      exact this ▸ hd.trans (Or.inr ⟨_, rfl⟩)
    · exact hd.trans (Or.inr ⟨n ++ c!".artbk", by rw [e]; simp⟩)
  · exact ((accepted_settings w hs hl ha).2.2 a h1).2
  · exact ⟨r, hr, h⟩

end
end Art
