import Verif.Model.App

/-!
# Starting a project
Models artifact-app/src/init.rs (`art init`). Simplifications: the messages on the terminal are left out; making and writing files fails only where a
path is of the wrong kind; a text is written character by character.
-/

namespace Art

/-- artifact-app/src/data/settings.toml, the text `INIT_SETTINGS_TOML` of artifact-app/src/init.rs L37. -/
def initSettings : Str :=
  c!"# ---- Artifact Project Settings ----\n\n# Paths containing artifact markdown/toml files\nartifact_paths = [\"design\"]\n\n# Paths to exclude when loading artifacts\nexclude_artifact_paths = []\n\n# Paths containing code that has artifact links\ncode_paths = []\n\n# Paths to exclude when searching through code\nexclude_code_paths = []\n"

/-- artifact-app/src/data/purpose.md, the text `INIT_PURPOSE_MD` of artifact-app/src/init.rs L38. -/
def initPurpose : Str := c!"# REQ-purpose\nThe goal of this project is...\n"

/-- artifact-app/src/init.rs L49 with `ART_DIR`. -/
def artDir (work : FilePath) : FilePath := work ++ c!"/.art"

/-- artifact-app/src/init.rs L57 with `SETTINGS_FILE`. -/
def settingsFile (work : FilePath) : FilePath := work ++ c!"/.art/settings.toml"

/-- artifact-app/src/init.rs L60 with `DESIGN_DIR` (L35). -/
def designDir (work : FilePath) : FilePath := work ++ c!"/design"

/-- artifact-app/src/init.rs L61 with `PURPOSE_MD` (L36). -/
def purposeFile (work : FilePath) : FilePath := work ++ c!"/design/purpose.md"

/-- `PathDir::create`, used at artifact-app/src/init.rs L56 and L60: an existing directory is kept. -/
def makeDir (fs : FS) (p : FilePath) : Option FS :=
  match IMap.get? fs p with
  | some .dir => some fs
  | some (.file _) => none
  | none => if IMap.get? fs (parentDir p) = some .dir then some (IMap.insert fs p .dir) else none

/-- One action of `art init` on the disk. artifact-app/src/init.rs L56-63. -/
inductive InitStep where
  | mkdir (p : FilePath)
  | act (a : Act)

/-- The effect of an action; `none` if it cannot be done. artifact-app/src/init.rs L56-63. -/
def InitStep.apply (fs : FS) : InitStep → Option FS
  | .mkdir p => makeDir fs p
  | .act a => a.apply fs

/-- The `?` of artifact-app/src/init.rs L56-63: the actions are done one after the other until one fails. -/
def runSteps : FS → List InitStep → Bool × FS
  | fs, [] => (true, fs)
  | fs, a :: l =>
    match a.apply fs with
    | none => (false, fs)
    | some fs' => runSteps fs' l

/-- `PathFile::create` and `write_str`, artifact-app/src/init.rs L57-59 and L61-63. -/
def writeSteps (p : FilePath) (s : Str) : List InitStep :=
  .act (.create p) :: .act (.truncate p) :: s.map (fun c => .act (.append p c))

/-- artifact-app/src/init.rs L56-63: the actions. -/
def initSteps (work : FilePath) : List InitStep :=
  .mkdir (artDir work) :: (writeSteps (settingsFile work) initSettings ++
    .mkdir (designDir work) :: writeSteps (purposeFile work) initPurpose)

/-- artifact-app/src/init.rs L43 (the macro `work_dir!`, artifact-app/src/dev_prelude.rs L27-32) and L49-55: nothing is done unless the directory exists and
has no `.art`. -/
def initStarts (fs : FS) (work : FilePath) : Bool :=
  decide (IMap.get? fs work = some .dir) && (IMap.get? fs (artDir work)).isNone

/-- artifact-app/src/init.rs L41-69 (`run`) with artifact-app/src/bin/art.rs L4-12: the exit status and the disk afterwards. -/
def initRun (fs : FS) (work : FilePath) : Nat × FS :=
  if initStarts fs work then
    let (ok, fs') := runSteps fs (initSteps work)
    (if ok then 0 else 1, fs')
  else (1, fs)

/-- artifact-app/src/init.rs L41-69: the disk if the process is killed after `k` actions. -/
def initKilled (fs : FS) (work : FilePath) (k : Nat) : FS :=
  if initStarts fs work then (runSteps fs ((initSteps work).take k)).2 else fs

end Art
