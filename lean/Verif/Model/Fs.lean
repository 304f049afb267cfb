import Verif.Model.Project

/-!
# The file system, walking the configured paths, and checking paths
Models `walk_artifact_paths`, `walk_paths`, `walk_path` and `resolve_raw_paths` of
artifact-data/src/settings.rs and `check_paths` of artifact-data/src/modify.rs.

Simplifications: there are no symbolic links, every entry can be read, and a path is the text of its
components, each preceded by `/` (so the root directory is the empty text).
-/

namespace Art

/-- One entry of a directory tree. What artifact-data/src/settings.rs L95-142 finds on the disk. -/
inductive Node where
  | file (c : Content)
  | dir
  deriving DecidableEq

/-- `PathType::is_dir`, used at artifact-data/src/settings.rs L134 and artifact-data/src/modify.rs L284. -/
def Node.isDir : Node → Bool
  | .file _ => false
  | .dir => true

/-- A directory tree: every path with what is there. The disk on which artifact-data/src/settings.rs L79-145 works. -/
abbrev FS := IMap FilePath Node

/-- What a directory tree looks like: one entry for each path, a root, and every other entry is
`parent/name` where the parent is a directory. Assumed of the disk on which artifact-data/src/settings.rs L79-145 works. -/
structure FS.WF (fs : FS) : Prop where
  nodup : IMap.Nodup fs
  root : IMap.get? fs ([] : FilePath) = some .dir
  parent : ∀ e ∈ fs, e.1 ≠ [] → ∃ q n, e.1 = q ++ '/' :: n ∧ n ≠ [] ∧ '/' ∉ n ∧ IMap.get? fs q = some .dir

/-- `Path::starts_with`: by whole components. Used at artifact-data/src/modify.rs L126, L140, L143. -/
def startsWith (p q : FilePath) : Bool := p == q || (q ++ ['/']).isPrefixOf p

/-- `p` is an entry of the directory `q`. Used for `walk` at artifact-data/src/settings.rs L124. -/
def isChild (q p : FilePath) : Bool :=
  (q ++ ['/']).isPrefixOf p && !(p.drop (q.length + 1)).isEmpty && !(p.drop (q.length + 1)).contains '/'

/-- The entries of a directory. `PathDir::walk` at artifact-data/src/settings.rs L124. -/
def children (fs : FS) (q : FilePath) : List (FilePath × Node) := fs.filter fun e => isChild q e.1

/-- artifact-data/src/settings.rs L124-143: the loop of `walk_path` over the recursive walk of a directory.
An entry the filter refuses is not sent, and not entered if it is a directory. The number bounds the depth. -/
def walk (fs : FS) (f : FilePath → Bool → Bool) : Nat → FilePath → Node → List FilePath
  | 0, _, _ => []
  | _ + 1, p, .file _ => if f p false then [p] else []
  | k + 1, p, .dir => if f p true then (children fs p).flatMap (fun e => walk fs f k e.1 e.2) else []

/-- A depth that no path of the tree exceeds. Bounds the walk of artifact-data/src/settings.rs L124. -/
def walkFuel (fs : FS) : Nat := (fs.map (fun e => e.1.length)).foldr max 0 + 2

/-- artifact-data/src/settings.rs L113-145 (`walk_path`): a path that is a file is sent without asking the
filter (L118-121). `none` is the error for a path that does not exist (L117). -/
def walkPath (fs : FS) (f : FilePath → Bool → Bool) (root : FilePath) : Option (List FilePath) :=
  match IMap.get? fs root with
  | none => none
  | some (.file _) => some [root]
  | some .dir => some (walk fs f (walkFuel fs) root .dir)

/-- artifact-data/src/settings.rs L93-107 (`walk_paths`): the files sent. -/
def walkPaths (fs : FS) (f : FilePath → Bool → Bool) (roots : ISet FilePath) : List FilePath :=
  roots.flatMap fun r => (walkPath fs f r).getD []

/-- artifact-data/src/settings.rs L93-107 (`walk_paths`): the lints sent. -/
def walkLints (L : Libs) (fs : FS) (f : FilePath → Bool → Bool) (roots : ISet FilePath) : List Lint :=
  roots.filterMap fun r => if (walkPath fs f r).isNone then some (Lint.loadError r (L.errMsg .io)) else none

/-- artifact-data/src/settings.rs L85-89: the filter of `walk_artifact_paths`. -/
def artFilter (excl : ISet FilePath) (p : FilePath) (isDir : Bool) : Bool :=
  !(ISet.contains excl p || (!isDir && (ArtFileType.fromPath p).isNone))

/-- artifact-data/src/project.rs L95-98: the filter for code paths. -/
def codeFilter (excl : ISet FilePath) (p : FilePath) (_ : Bool) : Bool := !ISet.contains excl p

/-- artifact-data/src/settings.rs L79-91 (`walk_artifact_paths`). -/
def walkArtifacts (fs : FS) (s : Settings) : List FilePath :=
  walkPaths fs (artFilter s.excludeArtifactPaths) s.artifactPaths

/-- artifact-data/src/project.rs L94-99: the walk over the code paths. -/
def walkCode (fs : FS) (s : Settings) : List FilePath :=
  walkPaths fs (codeFilter s.excludeCodePaths) s.codePaths

/-! ## checking the paths of a modification -/

/-- Why `check_paths` refuses a path. artifact-data/src/modify.rs L94-149. -/
inductive PathErr where
  | extension
  | notInside
  | excluded
  deriving DecidableEq, Repr

/-- The messages at artifact-data/src/modify.rs L118, L135, L144. -/
def PathErr.msg : PathErr → Str
  | .extension => c!"Not one of the valid extensions [.toml, .md, .json]"
  | .notInside => c!"Not inside artifact_paths"
  | .excluded => c!"Is inside exclude_artifact_paths"

/-- artifact-data/src/modify.rs L117-147: the body of the loop of `check_paths` for one path. -/
def checkPath (s : Settings) (p : FilePath) : Option PathErr :=
  if (ArtFileType.fromPath p).isNone then some .extension
  else
    let valid := s.artifactPaths.filter (fun v => startsWith p v)
    if valid.isEmpty then some .notInside
    else if s.excludeArtifactPaths.any (fun e => startsWith p e && valid.any (fun v => startsWith v e)) then
      some .excluded
    else none

/-! ## the paths of the settings file -/

/-- Rust `str::trim_start_matches(pat)` for a non-empty text `pat`; the number bounds the repetitions. Called at artifact-data/src/settings.rs L198-201. -/
def trimStartStr (pat : Str) : Nat → Str → Str
  | 0, s => s
  | k + 1, s => if pat.isPrefixOf s then trimStartStr pat k (s.drop pat.length) else s

/-- `PathDir::concat` (crate `path_abs`): `.` and empty components are dropped, `..` removes the
component before it, which fails at the root. Called at artifact-data/src/settings.rs L202. -/
def concatComps : List Str → List Str → Option (List Str)
  | acc, [] => some acc
  | acc, c :: cs =>
    if c = [] ∨ c = c!"." then concatComps acc cs
    else if c = c!".." then
      match acc with
      | [] => none
      | _ :: _ => concatComps acc.dropLast cs
    else concatComps (acc ++ [c]) cs

/-- The components of a path, see `FilePath`. Used for artifact-data/src/settings.rs L192-203. -/
def pathComps (p : FilePath) : List Str := (comps p).filter (fun c => !c.isEmpty)

/-- The path with the given components. Used for artifact-data/src/settings.rs L192-203. -/
def pathOf (l : List Str) : FilePath := l.flatMap (fun c => '/' :: c)

/-- artifact-data/src/settings.rs L196-204: one path of the settings file. `panic` is the `expect!` of L202.
Simplification: `PathAbs::new` on the result (L203-209) does not fail. -/
def resolveRawPath (base : FilePath) (p : Str) : Res Unit FilePath :=
  let p := trimStartStr c!"{repo}" p.length p
  let p := p.dropWhile (· = '/')
  match concatComps (pathComps base) (comps p) with
  | none => .panic
  | some l => .ok (pathOf l)

/-- artifact-data/src/settings.rs L189-213 (`resolve_raw_paths`). -/
def resolveRawPaths (base : FilePath) (ps : List Str) : Res Unit (ISet FilePath) :=
  (Res.mapM' (resolveRawPath base) ps).bind fun l => .ok (ISet.collect l)

end Art
