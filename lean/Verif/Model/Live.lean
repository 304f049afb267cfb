import Verif.Model.Save

/-!
# Looking for files while they are being renamed or removed
Models `create_backups` and `remove_backups` of artifact-data/src/modify.rs as they run: the thread that walks the artifact paths
(artifact-data/src/settings.rs L79-145) and the threads that rename or remove what it has sent work at the same time, on the
same directories. Verif/Model/Save.lean instead takes the files of a phase from the disk as it was when the phase began.

A directory that is being read shows an entry that is there the whole time exactly once. An entry that appears or vanishes
meanwhile may be shown or not; it may be shown although it has vanished, because the names are fetched ahead, in part or as a whole
(crate `walkdir` reads the rest of a directory into memory when too many are open).

Simplifications: as in Verif/Model/Save.lean, except for the one removed here. The channels are not bounded (they are in Verif/Model/Team.lean, C82).
-/

namespace Art

/-- A directory that is being read: `dir.walk()`, artifact-data/src/settings.rs L124. -/
structure Handle where
  dir : FilePath
  /-- The entries that were there when the directory was opened. -/
  listed : List FilePath
  /-- Further names that were fetched ahead. -/
  fetched : List FilePath
  /-- The entries that were shown. -/
  seen : List FilePath

/-- artifact-data/src/settings.rs L124-129: a directory is opened. -/
def openDir (fs : FS) (d : FilePath) : Handle := ⟨d, (children fs d).map Prod.fst, [], []⟩

/-- A moment while a project is written. `roots` are the paths still to be walked and `stack` the open directories, the
innermost first. artifact-data/src/modify.rs L233-316. -/
structure LiveCfg where
  fs : FS
  phase : Phase
  roots : List FilePath
  stack : List Handle
  jobs : List (List Act)
  lints : List Lint

/-- `e` is shown. artifact-data/src/settings.rs L126-129. -/
def Handle.see (h : Handle) (e : FilePath) : Handle := { h with seen := e :: h.seen }

/-- artifact-data/src/settings.rs L131-142: what `walk_path` does with an entry that is a file. -/
def sendFile (f : FilePath → Bool → Bool) (mk : FilePath → Act) (e : FilePath) : List (List Act) := if f e false then [[mk e]] else []

/-- artifact-data/src/settings.rs L131-138: what `walk_path` does with an entry that is a directory. -/
def enterDir (fs : FS) (f : FilePath → Bool → Bool) (e : FilePath) : List Handle := if f e true then [openDir fs e] else []

/-- One step of the thread that walks, artifact-data/src/settings.rs L93-145. What it sends becomes a job. -/
inductive WalkStep (L : Libs) (f : FilePath → Bool → Bool) (mk : FilePath → Act) (c : LiveCfg) : LiveCfg → Prop where
  /-- L117, L103-105: the path does not exist. -/
  | missing (r : FilePath) (rs : List FilePath) : c.stack = [] → c.roots = r :: rs → IMap.get? c.fs r = none →
      WalkStep L f mk c { c with roots := rs, lints := c.lints ++ [Lint.loadError r (L.errMsg .io)] }
  /-- L118-121: the path is a file, which is sent without asking the filter. -/
  | fileRoot (r : FilePath) (rs : List FilePath) (x : Content) : c.stack = [] → c.roots = r :: rs → IMap.get? c.fs r = some (.file x) →
      WalkStep L f mk c { c with roots := rs, jobs := c.jobs ++ [[mk r]] }
  /-- L122-138: the path is a directory. -/
  | dirRoot (r : FilePath) (rs : List FilePath) : c.stack = [] → c.roots = r :: rs → IMap.get? c.fs r = some .dir →
      WalkStep L f mk c { c with roots := rs, stack := enterDir c.fs f r }
  /-- L126-142: an entry that is a file. -/
  | file (h : Handle) (st : List Handle) (e : FilePath) (x : Content) : c.stack = h :: st → isChild h.dir e = true → e ∉ h.seen →
      IMap.get? c.fs e = some (.file x) → WalkStep L f mk c { c with stack := h.see e :: st, jobs := c.jobs ++ sendFile f mk e }
  /-- L126-138: an entry that is a directory. -/
  | dir (h : Handle) (st : List Handle) (e : FilePath) : c.stack = h :: st → isChild h.dir e = true → e ∉ h.seen →
      IMap.get? c.fs e = some .dir → WalkStep L f mk c { c with stack := enterDir c.fs f e ++ h.see e :: st }
  /-- The name of an entry is fetched ahead. -/
  | fetch (above below : List Handle) (h : Handle) (e : FilePath) (n : Node) : c.stack = above ++ h :: below → isChild h.dir e = true →
      IMap.get? c.fs e = some n → WalkStep L f mk c { c with stack := above ++ { h with fetched := e :: h.fetched } :: below }
  /-- A file is shown although it has vanished. -/
  | stale (h : Handle) (st : List Handle) (e : FilePath) : c.stack = h :: st → e ∈ h.listed ∨ e ∈ h.fetched → e ∉ h.seen → IMap.get? c.fs e = none →
      WalkStep L f mk c { c with stack := h.see e :: st, jobs := c.jobs ++ sendFile f mk e }
  /-- L128, L131, L103-105: an entry has vanished when it is looked at, which ends the walk of this root with an error. -/
  | lost (h : Handle) (st : List Handle) (e : FilePath) : c.stack = h :: st → e ∈ h.listed ∨ e ∈ h.fetched → e ∉ h.seen → IMap.get? c.fs e = none →
      WalkStep L f mk c
        { c with stack := [], lints := c.lints ++ [Lint.loadError ((h :: st).getLast (by simp)).dir (L.errMsg .io)] }
  /-- L127: the directory has no more entries. -/
  | close (h : Handle) (st : List Handle) : c.stack = h :: st → (∀ e ∈ h.listed, e ∈ h.seen ∨ IMap.get? c.fs e = none) →
      WalkStep L f mk c { c with stack := st }

/-- The threads of a phase have ended: nothing is left to walk and to do. artifact-data/src/modify.rs L271, L314, L379. -/
def LiveCfg.idle (c : LiveCfg) : Prop := c.roots = [] ∧ c.stack = [] ∧ ∀ j ∈ c.jobs, j = []

/-- artifact-data/src/modify.rs L250-254: what is done with a file that `create_backups` is sent. -/
def backupAct (p : FilePath) : Act := .rename p (backupPath p)

/-- artifact-data/src/modify.rs L79: the beginning of `create_backups`. -/
def LiveCfg.init (fs : FS) (s : Settings) : LiveCfg := ⟨fs, .backup, s.artifactPaths, [], [], []⟩

/-- One step of writing: artifact-data/src/modify.rs L79-87. -/
inductive LiveStep (L : Libs) (s : Settings) (files : List (FilePath × Str)) (c : LiveCfg) : LiveCfg → Prop where
  /-- L239-246 -/
  | findArtifacts (c' : LiveCfg) : c.phase = .backup → WalkStep L (artFilter s.excludeArtifactPaths) backupAct c c' → LiveStep L s files c c'
  /-- L284-294 -/
  | findBackups (c' : LiveCfg) : c.phase = .remove → WalkStep L (backupFilter s.excludeArtifactPaths) .remove c c' → LiveStep L s files c c'
  | act (before after : List (List Act)) (a : Act) (rest : List Act) (fs' : FS) : c.jobs = before ++ (a :: rest) :: after →
      a.apply c.fs = some fs' → LiveStep L s files c { c with fs := fs', jobs := before ++ rest :: after }
  | fail (before after : List (List Act)) (a : Act) (rest : List Act) (msg : Str) : c.jobs = before ++ (a :: rest) :: after →
      LiveStep L s files c { c with jobs := before ++ [] :: after, lints := c.lints ++ [failLint c.phase a msg] }
  | backupErr : c.phase = .backup → c.idle → hasError c.lints = true → LiveStep L s files c { c with phase := .failed .createBackups }
  | backupOk : c.phase = .backup → c.idle → hasError c.lints = false →
      LiveStep L s files c { c with phase := .save, jobs := files.map saveJob }
  | saveErr : c.phase = .save → c.idle → hasError c.lints = true → LiveStep L s files c { c with phase := .failed .saveProject }
  | saveOk : c.phase = .save → c.idle → hasError c.lints = false →
      LiveStep L s files c { c with phase := .remove, roots := s.artifactPaths, jobs := [] }
  | removeOk : c.phase = .remove → c.idle → LiveStep L s files c { c with phase := .done }

/-- Everything that can be reached while a project is written. artifact-data/src/modify.rs L78-87. -/
def LiveReaches (L : Libs) (s : Settings) (files : List (FilePath × Str)) : LiveCfg → LiveCfg → Prop :=
  Relation.ReflTransGen (LiveStep L s files)

/-- artifact-data/src/modify.rs L16-88 (`modify_project`), as `Modifies`, with the walks running while the files are renamed and
removed. -/
inductive LiveModifies (L : Libs) (readToml : Str → Option SettingsRaw) (hash : ArtifactIm → HashIm) (dbg : ArtifactIm → Str) (ncpu : Nat)
    (fs : FS) (base : FilePath) (ops : List ArtifactOp) : Option (Res ModifyError (Categorized × Project)) → FS → Prop where
  /-- The process dies before the disk is written. -/
  | early : LiveModifies L readToml hash dbg ncpu fs base ops none fs
  /-- The operations are refused, or reading panics. -/
  | refused {read out} : ReadsProject L readToml hash ncpu fs base read → PlansRead L hash dbg ops read out →
      (∀ x, out ≠ .ok x) → LiveModifies L readToml hash dbg ncpu fs base ops (some out) fs
  /-- The process dies while the disk is written. -/
  | crash {read c p files cfg} : ReadsProject L readToml hash ncpu fs base read → PlansRead L hash dbg ops read (.ok (c, p)) →
      projectFiles L p = .ok files → LiveReaches L p.settings files (LiveCfg.init fs p.settings) cfg →
      LiveModifies L readToml hash dbg ncpu fs base ops none cfg.fs
  | failed {read c p files cfg kind} : ReadsProject L readToml hash ncpu fs base read → PlansRead L hash dbg ops read (.ok (c, p)) →
      projectFiles L p = .ok files → LiveReaches L p.settings files (LiveCfg.init fs p.settings) cfg → cfg.phase = .failed kind →
      LiveModifies L readToml hash dbg ncpu fs base ops (some (.err ⟨(c.categorize cfg.lints).sort, kind⟩)) cfg.fs
  | done {read c p files cfg} : ReadsProject L readToml hash ncpu fs base read → PlansRead L hash dbg ops read (.ok (c, p)) →
      projectFiles L p = .ok files → LiveReaches L p.settings files (LiveCfg.init fs p.settings) cfg → cfg.phase = .done →
      LiveModifies L readToml hash dbg ncpu fs base ops (some (.ok (c.categorize cfg.lints, p.sort))) cfg.fs

end Art
