import Verif.Model.Fs
import Verif.Model.Graph
import Verif.Lemmas.LoadSpec

/-!
# Reading a project
Models `load_settings` of artifact-data/src/settings.rs, `read_project` of artifact-data/src/project.rs, the
sending side of artifact-data/src/implemented.rs and `sort` of artifact-lib/src/lib.rs.

Threads: a worker takes files from a channel and sends what it finds to another channel. A schedule is
therefore any order in which everything that is sent arrives. A worker that panics is not noticed by the
reader (its handle is dropped): what it sent before is kept, the rest of that file is lost and the thread takes no
more files. That this is what the threads and channels do is C65, over Verif/Model/Chan.lean, which also covers reads in which every worker of a
kind dies; here they are left out.
-/

namespace Art

/-! ## sorting -/

/-- `IndexMap<SubName, _>::sort_keys`; subnames compare by key (artifact-ser/src/name.rs L513-517). -/
def sortSecondary (m : IMap SubName CodeLoc) : IMap SubName CodeLoc := sortOn (fun p => p.1.keyStr) m

/-- `code.secondary.sort_keys()`: artifact-lib/src/lib.rs L81, L402. -/
def ImplCode.sort (c : ImplCode) : ImplCode := { c with secondary := sortSecondary c.secondary }

/-- artifact-lib/src/lib.rs L80-82. -/
def Impl.sort : Impl → Impl
  | .code c => .code c.sort
  | i => i

/-- artifact-lib/src/lib.rs L77-84 (`Artifact::sort`). -/
def Artifact.sort (a : Artifact) : Artifact :=
  { a with partof := sortNames a.partof, parts := sortNames a.parts, impl := a.impl.sort,
           subnames := sortOn SubName.keyStr a.subnames }

/-- artifact-lib/src/lib.rs L399-408 (`Project::sort`). -/
def Project.sort (p : Project) : Project :=
  { p with codeImpls := (sortOn (fun x => x.1.keyStr) p.codeImpls).map (fun x => (x.1, x.2.sort))
           artifacts := (sortOn (fun x => x.1.keyStr) p.artifacts).map (fun x => (x.1, x.2.sort)) }

/-! ## what one worker sends for one file -/

/-- What is sent for one file, and whether the worker panicked on it. artifact-data/src/implemented.rs L44-103, artifact-data/src/raw.rs L162-200. -/
structure Sent (α : Type) where
  items : List α
  lints : List Lint
  dead : Bool

/-- artifact-data/src/implemented.rs L76-96, as `scanMatches`, but keeping what was sent before a panic. The state is `none`
after a panic. -/
def sendMatches (file : FilePath) (line : Nat) : Bool → List Match → List Loc × Option Bool
  | skipping, [] => ([], some skipping)
  | skipping, m :: ms =>
    match srcTok m with
    | none => if skipping then sendMatches file line skipping ms else ([], none)
    | some .skip => sendMatches file line true ms
    | some .done => sendMatches file line false ms
    | some (.ref n sub) =>
      if skipping then sendMatches file line skipping ms
      else match Name.fromStr n with
        | .ok name =>
          let r := sendMatches file line skipping ms
          ((⟨file, line⟩, name, sub.map SubName.mk) :: r.1, r.2)
        | _ => ([], none)

/-- artifact-data/src/implemented.rs L73-97, as `scanLines`, but keeping what was sent before a panic. -/
def sendLines (file : FilePath) : Nat → Bool → List Str → List Loc × Bool
  | _, _, [] => ([], false)
  | n, skipping, l :: ls =>
    match sendMatches file n skipping (srcRe.findIter l) with
    | (locs, none) => (locs, true)
    | (locs, some sk) =>
      let r := sendLines file (n + 1) sk ls
      (locs ++ r.1, r.2)

/-- artifact-data/src/implemented.rs L44-64 (`load_locations`, `parse_file`). The line that is not UTF-8 ends the scan with an
error (L75), which becomes a lint (L53). -/
def codeSent (L : Libs) (fs : FS) (file : FilePath) : Sent Loc :=
  match IMap.get? fs file with
  | some (.file (.text s)) =>
    let r := sendLines file 0 false (lines s)
    ⟨r.1, [], r.2⟩
  | some (.file (.binary good _)) =>
    let r := sendLines file 0 false (lines good)
    ⟨r.1, if r.2 then [] else [Lint.loadError file (L.errMsg .io)], r.2⟩
  | _ => ⟨[], [Lint.loadError file (L.errMsg .io)], false⟩

/-- artifact-data/src/raw.rs L162-200 (`Parser::load_file`) on a file of the tree. -/
def artSent (L : Libs) (pre : Str) (fs : FS) (file : FilePath) : Sent ArtifactIm :=
  match IMap.get? fs file with
  | some (.file c) =>
    match loadFile L pre file c with
    | .ok (ims, lints) => ⟨ims, lints, false⟩
    | _ => ⟨[], [], true⟩
  | _ => ⟨[], [Lint.loadError file (L.errMsg .io)], false⟩

/-! ## reading with given settings -/

/-- What arrives at the three receivers, in the order of arrival: artifact-data/src/project.rs L113 (`locs`), L141
(`arts`), L87 (`lints`). -/
structure Run where
  locs : List Loc
  arts : List ArtifactIm
  lints : List Lint

/-- The lints sent by everything that runs in parallel, artifact-data/src/project.rs L84-148. -/
def sentLints (L : Libs) (fs : FS) (s : Settings) (locs : List Loc) (arts : List ArtifactIm) : List Lint :=
  walkLints L fs (codeFilter s.excludeCodePaths) s.codePaths ++ (walkCode fs s).flatMap (fun f => (codeSent L fs f).lints) ++
  walkLints L fs (artFilter s.excludeArtifactPaths) s.artifactPaths ++
  (walkArtifacts fs s).flatMap (fun f => (artSent L s.pre fs f).lints) ++
  (joinLocations locs).2 ++ (joinArtifacts arts).lints

/-- A possible arrival order. There are 4 workers for code (artifact-data/src/project.rs L102) and `ncpu` for artifacts
(L130), of each kind one survives. -/
structure Arrives (L : Libs) (ncpu : Nat) (fs : FS) (s : Settings) (r : Run) : Prop where
  code_alive : (walkCode fs s).countP (fun f => (codeSent L fs f).dead) < 4
  art_alive : (walkArtifacts fs s).countP (fun f => (artSent L s.pre fs f).dead) < ncpu
  locs : r.locs.Perm ((walkCode fs s).flatMap (fun f => (codeSent L fs f).items))
  arts : r.arts.Perm ((walkArtifacts fs s).flatMap (fun f => (artSent L s.pre fs f).items))
  lints : r.lints.Perm (sentLints L fs s r.locs r.arts)

/-- artifact-data/src/project.rs L70 and L87: all lints received so far. -/
def Run.categorized (r : Run) : Categorized := Categorized.categorize ⟨[], []⟩ r.lints

/-- artifact-data/src/project.rs L161-181: the project is linted, everything is sorted. -/
def finishRead (L : Libs) (c : Categorized) (p : Project) : Res Categorized (Categorized × Project) :=
  match p.lint L with
  | .ok ls => .ok ((c.categorize ls).sort, p.sort)
  | _ => .panic

/-- artifact-data/src/project.rs L150-182: a possible result after the given arrivals; `Loads` leaves open which
topological order is used. -/
def Run.Gives (L : Libs) (hash : ArtifactIm → HashIm) (s : Settings) (r : Run) (out : Res Categorized (Categorized × Project)) : Prop :=
  (r.categorized.error ≠ [] ∧ out = .err r.categorized.sort) ∨
  (r.categorized.error = [] ∧ ∃ arts,
    Loads hash (joinArtifacts r.arts).arts (joinLocations r.locs).1 (joinArtifacts r.arts).files arts ∧
    out = finishRead L r.categorized ⟨s, (joinLocations r.locs).1, arts⟩)

/-- artifact-data/src/project.rs L84-182: `out` is a possible outcome of reading with the settings `s`. -/
def ReadsWith (L : Libs) (hash : ArtifactIm → HashIm) (ncpu : Nat) (fs : FS) (s : Settings)
    (out : Res Categorized (Categorized × Project)) : Prop :=
  ∃ r, Arrives L ncpu fs s r ∧ r.Gives L hash s out

/-! ## the settings -/

/-- artifact-data/src/settings.rs L26-41 (`SettingsRaw`); the export settings are left out. -/
structure SettingsRaw where
  artifactPaths : List Str
  excludeArtifactPaths : List Str
  codePaths : List Str
  excludeCodePaths : List Str
  codeUrl : Option Str
  mdName : MdName
  mdAttrs : MdAttrs

/-- artifact-data/src/settings.rs L57-77 (`SettingsRaw::load`). `readToml` is `toml::from_str` (L73). `none` is an error. -/
def loadSettingsRaw (readToml : Str → Option SettingsRaw) (fs : FS) (base : FilePath) : Option (FilePath × SettingsRaw) :=
  match IMap.get? fs base with
  | some .dir =>
    let path := base ++ c!"/.art/settings.toml"
    match IMap.get? fs path with
    | some (.file (.text s)) => (readToml s).map (fun raw => (path, raw))
    | _ => none
  | _ => none

/-- artifact-data/src/settings.rs L147-186 (`load_settings`) and artifact-data/src/project.rs L70-79: the resolved and
sorted path sets. `panic` is artifact-data/src/settings.rs L202. -/
def resolveSettings (base path : FilePath) (raw : SettingsRaw) : Res Unit Settings := do
  let codePaths ← resolveRawPaths base raw.codePaths
  let excludeCodePaths ← resolveRawPaths base raw.excludeCodePaths
  let artifactPaths ← resolveRawPaths base raw.artifactPaths
  let excludeArtifactPaths ← resolveRawPaths base raw.excludeArtifactPaths
  pure { base := base, settingsPath := path, codePaths := sortOn id codePaths,
         excludeCodePaths := sortOn id excludeCodePaths, artifactPaths := sortOn id artifactPaths,
         excludeArtifactPaths := sortOn id excludeArtifactPaths, codeUrl := raw.codeUrl,
         mdName := raw.mdName, mdAttrs := raw.mdAttrs }

/-- artifact-data/src/project.rs L42-182 (`read_project`): `out` is a possible outcome. Simplifications: the
text of the error for unreadable settings is one parameter (`errMsg .io`); the pattern for name
lines, whose variable part is escaped, always compiles (L51-62). -/
def ReadsProject (L : Libs) (readToml : Str → Option SettingsRaw) (hash : ArtifactIm → HashIm) (ncpu : Nat) (fs : FS)
    (base : FilePath) (out : Res Categorized (Categorized × Project)) : Prop :=
  match loadSettingsRaw readToml fs base with
  | none => out = .err ⟨[Lint.loadError base (L.errMsg .io)], []⟩
  | some (path, raw) =>
    match resolveSettings base path raw with
    | .ok s => ReadsWith L hash ncpu fs s out
    | _ => out = .panic

end Art
