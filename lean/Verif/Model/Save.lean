import Verif.Model.Modify

/-!
# Writing a project to disk
Models `create_backups`, `save_project` and `remove_backups` of artifact-data/src/modify.rs as a system of small steps, and
`modify_project` as a whole.

Each phase hands one job per file to worker threads. Here a job is a list of actions on the disk and the
jobs of a phase take turns in any order, so every interleaving is covered. An action may fail at any time for a reason outside the program; then
the job is given up and a lint is sent. The process may die between any two actions: whatever is reached
on the way is a possible state of the disk afterwards.

Simplifications: a rename is atomic, text is written character by character, and the walk that looks for the files of a phase
sees the disk as it was when the phase began. Verif/Model/Live.lean does without the last one, and C64 shows that it makes no difference.
That each phase hands out every job once and is over before the next one begins, and when writing blocks instead, is C66, over Verif/Model/Chan.lean.
-/

namespace Art

/-- `Path::with_extension("artbk")`, artifact-data/src/modify.rs L13 and L253. -/
def backupPath (p : FilePath) : FilePath :=
  (match extension p with
    | some e => p.take (p.length - (e.length + 1))
    | none => p) ++ c!".artbk"

/-- `Path::parent` of an absolute path. Used for artifact-data/src/modify.rs L358. -/
def parentDir (p : FilePath) : FilePath := ((p.reverse.dropWhile (· ≠ '/')).drop 1).reverse

/-- One action on the disk. artifact-data/src/modify.rs L254, L297, L358-367. -/
inductive Act where
  /-- `PathFile::rename`, artifact-data/src/modify.rs L254. -/
  | rename (p q : FilePath)
  /-- `PathFile::create`, artifact-data/src/modify.rs L358: makes an empty file if there is none. -/
  | create (p : FilePath)
  /-- Opening the file in `write_str`, artifact-data/src/modify.rs L367. -/
  | truncate (p : FilePath)
  /-- Writing one character in `write_str`, artifact-data/src/modify.rs L367. -/
  | append (p : FilePath) (c : Char)
  /-- `PathFile::remove`, artifact-data/src/modify.rs L297. -/
  | remove (p : FilePath)
  deriving DecidableEq

/-- The file an action is about. artifact-data/src/modify.rs L254, L297, L358-367. -/
def Act.path : Act → FilePath
  | .rename p _ | .create p | .truncate p | .append p _ | .remove p => p

/-- Remove an entry. artifact-data/src/modify.rs L254, L297. -/
def FS.erase (fs : FS) (p : FilePath) : FS := fs.filter (fun e => decide (e.1 ≠ p))

/-- The effect of an action; `none` if it cannot be done. artifact-data/src/modify.rs L254, L297, L358-367. -/
def Act.apply (fs : FS) : Act → Option FS
  | .rename p q =>
    match IMap.get? fs p with
    | some (.file c) =>
      if p = q then some fs
      else if IMap.get? fs q = some .dir ∨ IMap.get? fs (parentDir q) ≠ some .dir then none
      else some (IMap.insert (FS.erase fs p) q (.file c))
    | _ => none
  | .create p =>
    match IMap.get? fs p with
    | some (.file _) => some fs
    | some .dir => none
    | none => if IMap.get? fs (parentDir p) = some .dir then some (IMap.insert fs p (.file (.text []))) else none
  | .truncate p =>
    match IMap.get? fs p with
    | some (.file _) => some (IMap.insert fs p (.file (.text [])))
    | _ => none
  | .append p c =>
    match IMap.get? fs p with
    | some (.file (.text s)) => some (IMap.insert fs p (.file (.text (s ++ [c]))))
    | _ => none
  | .remove p =>
    match IMap.get? fs p with
    | some (.file _) => some (FS.erase fs p)
    | _ => none

/-! ## what is written -/

/-- artifact-data/src/modify.rs L320-326: the artifacts of each file. -/
def groupFiles (arts : IMap Name Artifact) : IMap FilePath (IMap Name ArtifactRaw) :=
  arts.foldl (fun files x =>
    let (file, name, raw) := intoRaw x.2.toIm
    IMap.insert files file (IMap.insert ((IMap.get? files file).getD []) name raw)) []

/-- artifact-data/src/modify.rs L359-366: the text of one file. `panic` covers the `expect!`s and `unreachable!`. -/
def fileText (L : Libs) (s : Settings) (file : FilePath) (m : IMap Name ArtifactRaw) : Res Unit Str :=
  let m := sortOn (fun x => x.1.keyStr) m
  match ArtFileType.fromPath file with
  | some .toml => do let d ← mapSer m; pure (L.tomlWrite d)
  | some .md => toMarkdown L s.pre s.mdAttrs m
  | some .json => do let d ← mapSer m; pure (L.jsonWrite d)
  | none => .panic

/-- artifact-data/src/modify.rs L318-366: the files of a project with their texts. `C46_renders` shows that `panic` does not occur
for a project that was read and modified. -/
def projectFiles (L : Libs) (p : Project) : Res Unit (List (FilePath × Str)) :=
  Res.mapM' (fun x => do let t ← fileText L p.settings x.1 x.2; pure (x.1, t)) (groupFiles p.artifacts)

/-! ## the phases -/

/-- artifact-data/src/modify.rs L283-289: the filter of `remove_backups`. -/
def backupFilter (excl : ISet FilePath) (p : FilePath) (isDir : Bool) : Bool :=
  if isDir || extension p = some c!"artbk" then !ISet.contains excl p else false

/-- artifact-data/src/modify.rs L281-291: the files `remove_backups` looks for. -/
def walkBackups (fs : FS) (s : Settings) : List FilePath :=
  walkPaths fs (backupFilter s.excludeArtifactPaths) s.artifactPaths

/-- artifact-data/src/modify.rs L250-266: the jobs of `create_backups`. -/
def backupJobs (fs : FS) (s : Settings) : List (List Act) := (walkArtifacts fs s).map (fun p => [.rename p (backupPath p)])

/-- artifact-data/src/modify.rs L337-368: the job for one file of `save_project`. -/
def saveJob (x : FilePath × Str) : List Act := .create x.1 :: .truncate x.1 :: x.2.map (.append x.1)

/-- artifact-data/src/modify.rs L295-308: the jobs of `remove_backups`. -/
def removeJobs (fs : FS) (s : Settings) : List (List Act) := (walkBackups fs s).map (fun p => [.remove p])

/-- Where `modify_project` is. artifact-data/src/modify.rs L78-84. -/
inductive Phase where
  | backup | save | remove
  | done
  | failed (kind : ModifyErrorKind)
  deriving DecidableEq

/-- A moment while the project is written. artifact-data/src/modify.rs L78-87. -/
structure Cfg where
  fs : FS
  phase : Phase
  jobs : List (List Act)
  lints : List Lint

/-- The lint for an action that failed: artifact-data/src/modify.rs L254-262 (backups), L344-351 (saving), L297-305
(removing). -/
def failLint (phase : Phase) (a : Act) (msg : Str) : Lint :=
  match phase with
  | .backup => ⟨.error, some a.path, none, .createBackups, msg⟩
  | .remove => ⟨.warn, some a.path, none, .removeBackups, msg⟩
  | _ => ⟨.error, some a.path, none, .saveProject, msg⟩

/-- There is an error among the lints: artifact-data/src/modify.rs L22. -/
def hasError (l : List Lint) : Bool := l.any (fun d => d.level = .error)

/-- artifact-data/src/modify.rs L78: the beginning of `create_backups`. -/
def Cfg.init (L : Libs) (fs : FS) (s : Settings) : Cfg :=
  ⟨fs, .backup, backupJobs fs s, walkLints L fs (artFilter s.excludeArtifactPaths) s.artifactPaths⟩

/-- One step of writing: artifact-data/src/modify.rs L78-87. -/
inductive SaveStep (L : Libs) (s : Settings) (files : List (FilePath × Str)) : Cfg → Cfg → Prop where
  | act (c : Cfg) (before after : List (List Act)) (a : Act) (rest : List Act) (fs' : FS) :
      c.jobs = before ++ (a :: rest) :: after → a.apply c.fs = some fs' →
      SaveStep L s files c { c with fs := fs', jobs := before ++ rest :: after }
  | fail (c : Cfg) (before after : List (List Act)) (a : Act) (rest : List Act) (msg : Str) :
      c.jobs = before ++ (a :: rest) :: after →
      SaveStep L s files c { c with jobs := before ++ [] :: after, lints := c.lints ++ [failLint c.phase a msg] }
  | backupErr (c : Cfg) : c.phase = .backup → (∀ j ∈ c.jobs, j = []) → hasError c.lints = true →
      SaveStep L s files c { c with phase := .failed .createBackups }
  | backupOk (c : Cfg) : c.phase = .backup → (∀ j ∈ c.jobs, j = []) → hasError c.lints = false →
      SaveStep L s files c { c with phase := .save, jobs := files.map saveJob }
  | saveErr (c : Cfg) : c.phase = .save → (∀ j ∈ c.jobs, j = []) → hasError c.lints = true →
      SaveStep L s files c { c with phase := .failed .saveProject }
  | saveOk (c : Cfg) : c.phase = .save → (∀ j ∈ c.jobs, j = []) → hasError c.lints = false →
      SaveStep L s files c
        { c with phase := .remove, jobs := removeJobs c.fs s,
                 lints := c.lints ++ walkLints L c.fs (backupFilter s.excludeArtifactPaths) s.artifactPaths }
  | removeOk (c : Cfg) : c.phase = .remove → (∀ j ∈ c.jobs, j = []) →
      SaveStep L s files c { c with phase := .done }

/-- Everything that can be reached while a project is written: each such moment is a possible crash. artifact-data/src/modify.rs L78-87. -/
def Reaches (L : Libs) (s : Settings) (files : List (FilePath × Str)) : Cfg → Cfg → Prop :=
  Relation.ReflTransGen (SaveStep L s files)

/-! ## the whole -/

/-- artifact-data/src/modify.rs L16-88 (`modify_project`): `out` is a possible result with the disk `fs'`, or, for `none`, the process died
and left the disk `fs'`. -/
inductive Modifies (L : Libs) (readToml : Str → Option SettingsRaw) (hash : ArtifactIm → HashIm) (dbg : ArtifactIm → Str) (ncpu : Nat)
    (fs : FS) (base : FilePath) (ops : List ArtifactOp) : Option (Res ModifyError (Categorized × Project)) → FS → Prop where
  /-- The process dies before the disk is written. -/
  | early : Modifies L readToml hash dbg ncpu fs base ops none fs
  /-- The operations are refused, or reading panics. -/
  | refused {read out} : ReadsProject L readToml hash ncpu fs base read → PlansRead L hash dbg ops read out →
      (∀ x, out ≠ .ok x) → Modifies L readToml hash dbg ncpu fs base ops (some out) fs
  /-- The process dies while the disk is written. -/
  | crash {read c p files cfg} : ReadsProject L readToml hash ncpu fs base read → PlansRead L hash dbg ops read (.ok (c, p)) →
      projectFiles L p = .ok files → Reaches L p.settings files (Cfg.init L fs p.settings) cfg →
      Modifies L readToml hash dbg ncpu fs base ops none cfg.fs
  | failed {read c p files cfg kind} : ReadsProject L readToml hash ncpu fs base read → PlansRead L hash dbg ops read (.ok (c, p)) →
      projectFiles L p = .ok files → Reaches L p.settings files (Cfg.init L fs p.settings) cfg → cfg.phase = .failed kind →
      Modifies L readToml hash dbg ncpu fs base ops (some (.err ⟨(c.categorize cfg.lints).sort, kind⟩)) cfg.fs
  | done {read c p files cfg} : ReadsProject L readToml hash ncpu fs base read → PlansRead L hash dbg ops read (.ok (c, p)) →
      projectFiles L p = .ok files → Reaches L p.settings files (Cfg.init L fs p.settings) cfg → cfg.phase = .done →
      Modifies L readToml hash dbg ncpu fs base ops (some (.ok (c.categorize cfg.lints, p.sort))) cfg.fs

end Art
