import Verif.Model.Cli
import Verif.Model.Serve

/-!
# The program `art`
Models artifact-app/src/lib.rs L60-96 (`run`) and artifact-app/src/bin/art.rs L4-12 (`main`) from the words of the command line to the exit status and the disk, with
the macro `work_dir!` of artifact-app/src/dev_prelude.rs L27-32, and `export_html` (artifact-app/src/export.rs L66-74) with artifact-app/src/frontend.rs.

Simplifications: the level of the log (artifact-app/src/dev_prelude.rs L36-65) has no effect on anything else and is left out; printing does not fail; `art` is not
killed, except that `art serve` is ended by an interrupt; the files of the web page are given as a list (`Setup.site`).
-/

namespace Art
namespace Cli

/-! ## paths of the command line -/

/-- `PathAbs::new` (crate `path_abs`): a path of the command line, which may be relative to the current directory. Called through artifact-app/src/dev_prelude.rs L29
and artifact-app/src/export.rs L67, L86. -/
def absPath (cwd : FilePath) (d : Str) : Option FilePath :=
  (concatComps (if d.head? = some '/' then [] else pathComps cwd) (comps d)).map pathOf

/-- artifact-app/src/dev_prelude.rs L27-32 (`work_dir!`): `PathDir::new` needs a directory. `none` is an error. -/
def workDir (fs : FS) (cwd : FilePath) : Option Str → Option FilePath
  | none => some cwd
  | some d => (absPath cwd d).filter fun p => decide (IMap.get? fs p = some .dir)

/-! ## the exported web page -/

/-- One action while the web page is unpacked. artifact-app/src/frontend.rs L33-39, artifact-app/src/export.rs L67. -/
inductive SiteStep where
  /-- `PathDir::create`, artifact-app/src/export.rs L67, and the directories that `Archive::unpack` makes. -/
  | mkdir (p : FilePath)
  /-- A file of the archive, artifact-app/src/frontend.rs L34; a file that is there is replaced. -/
  | put (p : FilePath) (c : Content)
  /-- `PathFile::new` and `write_str`, artifact-app/src/frontend.rs L38-39: the file must be there. -/
  | rewrite (p : FilePath) (s : Str)

/-- The effect of an action; `none` if it cannot be done. artifact-app/src/frontend.rs L33-39. -/
def SiteStep.apply (fs : FS) : SiteStep → Option FS
  | .mkdir p => makeDir fs p
  | .put p c =>
    match IMap.get? fs p with
    | some .dir => none
    | some (.file _) => some (IMap.insert fs p (.file c))
    | none => if IMap.get? fs (parentDir p) = some .dir then some (IMap.insert fs p (.file c)) else none
  | .rewrite p s =>
    match IMap.get? fs p with
    | some (.file _) => some (IMap.insert fs p (.file (.text s)))
    | _ => none

/-- The `?` of artifact-app/src/frontend.rs L33-39: one action after the other until one fails. -/
def runSite : FS → List SiteStep → Bool × FS
  | fs, [] => (true, fs)
  | fs, a :: l =>
    match a.apply fs with
    | none => (false, fs)
    | some fs' => runSite fs' l

/-- A path below a directory. artifact-app/src/frontend.rs L38. -/
def below (dir : FilePath) (l : List Str) : FilePath := dir ++ pathOf l

/-- One file of the archive, artifact-app/src/frontend.rs L33-34: the directories on the way to it are made if they are missing. -/
def putSteps (dir : FilePath) (c : Content) : List Str → List SiteStep
  | [] => []
  | [n] => [.put (below dir [n]) c]
  | d :: l => .mkdir (below dir [d]) :: putSteps (below dir [d]) c l

/-- artifact-app/src/export.rs L66-74 (`export_html`) and artifact-app/src/frontend.rs L26-42 (`unpack_frontend`): all actions. -/
def siteSteps (site : List (List Str × Content)) (dir : FilePath) (initial : Str) : List SiteStep :=
  .mkdir dir :: site.flatMap (fun e => putSteps dir e.2 e.1) ++ [.rewrite (below dir [c!"initial.json"]) initial]

/-- artifact-app/src/export.rs L66-74 (`export_html`) with L134-140: the exit status and the disk afterwards. -/
def exportHtml (site : List (List Str × Content)) (fs : FS) (dest : FilePath) (initial : Str) : Nat × FS :=
  let (ok, fs') := runSite fs (siteSteps site dest initial)
  (if ok then 0 else 1, fs')

/-! ## running a command -/

/-- What the program is given besides the command line and the disk: the libraries, the files of the web page (artifact-app/src/frontend.rs L23) and the export settings. Used at artifact-app/src/lib.rs L75-95. -/
structure Setup where
  E : Env
  F : ExportLibs
  ex : ExportSettings
  wx : WireExport
  compile : Str → Option (Str → Bool)
  num : ℚ → Str
  site : List (List Str × Content)

/-- The result of a command that only reads. artifact-app/src/bin/art.rs L4-12, artifact-app/src/ls.rs L129-164. -/
def statusOf {ε α : Type} : Res ε α → Nat
  | .ok _ => 0
  | .err _ => 1
  | .panic => 101

/-- artifact-app/src/export.rs L66-74: what `export_html` does with the project that was read. -/
def htmlRun (S : Setup) (cwd : FilePath) (path : Str) (p : Project) (fs : FS) (status : Nat) (fs' : FS) : Prop :=
  match absPath cwd path with
  | none => status = 1 ∧ fs' = fs
  | some dest => (status, fs') = exportHtml S.site fs dest (initialJson S.num S.wx (some p) .static).show

/-- artifact-app/src/lib.rs L75-95 and artifact-app/src/bin/art.rs L4-12: a possible exit status and disk at the end of a command in the directory `cwd`. -/
def Ends (S : Setup) (fs : FS) (cwd : FilePath) : Cmd → Nat → FS → Prop
  /- artifact-app/src/init.rs L41-69 -/
  | .init _ w, st, fs' =>
    match workDir fs cwd w with
    | none => st = 1 ∧ fs' = fs
    | some d => (st, fs') = initRun fs d
  /- artifact-app/src/check.rs L35-49 -/
  | .check _ w, st, fs' =>
    match workDir fs cwd w with
    | none => st = 1 ∧ fs' = fs
    | some d => Checks S.E.L S.E.readToml S.E.hash S.E.ncpu fs d st ∧ fs' = fs
  /- artifact-app/src/fmt.rs L39-46 -/
  | .fmt _ w _, st, fs' =>
    match (workDir fs cwd w).bind (findRepo fs) with
    | none => st = 1 ∧ fs' = fs
    | some repo => ∃ out, Modifies S.E.L S.E.readToml S.E.hash S.E.dbg S.E.ncpu fs repo [] (some out) fs' ∧ st = statusOf out
  /- artifact-app/src/ls.rs L129-164 -/
  | .ls _ w cmd plain, st, fs' =>
    match (workDir fs cwd w).bind (findRepo fs) with
    | none => st = 1 ∧ fs' = fs
    | some repo => ∃ out, ReadsProject S.E.L S.E.readToml S.E.hash S.E.ncpu fs repo out ∧ st = statusOf (lsPrint S.compile cmd plain out) ∧ fs' = fs
  /- artifact-app/src/serve/mod.rs L46-63, artifact-app/src/serve/handler.rs L56-72: the server runs until it is interrupted; a port that is no port never gets a request, the
  thread that listens panics (L59). -/
  | .serve _ w port, st, fs' =>
    match (workDir fs cwd w).bind (findRepo fs) with
    | none => st = 1 ∧ fs' = fs
    | some repo => ∃ out, ReadsProject S.E.L S.E.readToml S.E.hash S.E.ncpu fs repo out ∧
      match out with
      | .err _ => st = 1 ∧ fs' = fs
      | .panic => st = 101 ∧ fs' = fs
      | .ok (c, p) => ∃ hist t, Art.Runs S.E (Server.init fs ⟨p, c⟩) (hist ++ [.quit]) t ∧ (65536 ≤ port → ∀ e ∈ hist, e = .edit) ∧
          st = (if t.poisoned then 101 else 0) ∧ fs' = t.disk
  /- artifact-app/src/export.rs L117-141 -/
  | .export _ w ty path, st, fs' =>
    match workDir fs cwd w with
    | none => st = 1 ∧ fs' = fs
    | some d =>
      match absPath cwd path with
      | none => fs' = fs ∧
        match findRepo fs d with
        | none => st = 1
        | some repo => ∃ out, ReadsProject S.E.L S.E.readToml S.E.hash S.E.ncpu fs repo out ∧ st = (match out with | .panic => 101 | _ => 1)
      | some dest => Exports S.E.L S.F (htmlRun S cwd path) S.E.readToml S.ex S.E.hash S.E.ncpu fs d ⟨ty, dest⟩ st fs'
  /- artifact-app/src/lib.rs L82-87 -/
  | .missing, st, fs' => st = 1 ∧ fs' = fs
  /- artifact-app/src/lib.rs L88-94 -/
  | .unknown _, st, fs' => st = 1 ∧ fs' = fs

/-- artifact-app/src/bin/art.rs L4-12 (`main`) with artifact-app/src/lib.rs L60-96 (`run`): a possible exit status and disk at the end of `art` with the words `l`, started
in the directory `cwd`. Nothing is said about options without their value. -/
def Main (S : Setup) (fs : FS) (cwd : FilePath) (l : List Str) (status : Nat) (fs' : FS) : Prop :=
  match commandOf l with
  | .ok c => Ends S fs cwd c status fs'
  | .info => status = 0 ∧ fs' = fs
  | .refused => status = 1 ∧ fs' = fs
  | .dangling => False

end Cli
end Art
