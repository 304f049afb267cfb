import Verif.Props.Fs
import Verif.Props.Save
import Verif.Props.Init
import Verif.Model.Art
import Verif.Model.Frontend

/-!
# Specification: an exported web page, and what `art` may change
-/

namespace Art
namespace Cli
open Spec

/-- The files of the web page: every path has parts that are names, no path goes through a file, no path is there twice, and `initial.json` is one of them. -/
structure GoodSite (site : List (List Str × Content)) : Prop where
  names : ∀ e ∈ site, e.1 ≠ [] ∧ ∀ n ∈ e.1, n ≠ [] ∧ '/' ∉ n
  apart : site.Pairwise fun e e' => ¬ e.1 <+: e'.1 ∧ ¬ e'.1 <+: e.1
  initial : ∃ c, ([c!"initial.json"], c) ∈ site

/-- The directory can take the page: it is there or can be made, and nothing in it is a file where the page needs a directory or the other way round. -/
structure Ready (fs : FS) (dest : FilePath) (site : List (List Str × Content)) : Prop where
  dir : IMap.get? fs dest = some .dir ∨ (IMap.get? fs dest = none ∧ IMap.get? fs (parentDir dest) = some .dir)
  files : ∀ e ∈ site, IMap.get? fs (dest ++ Path e.1) ≠ some .dir
  dirs : ∀ e ∈ site, ∀ l r, e.1 = l ++ r → l ≠ [] → r ≠ [] → ∀ c, IMap.get? fs (dest ++ Path l) ≠ some (.file c)

/-- `fs'` is `fs` with the page in `dest`, where `initial.json` is the given text. -/
structure Unpacked (fs : FS) (dest : FilePath) (site : List (List Str × Content)) (initial : Str) (fs' : FS) : Prop where
  dir : IMap.get? fs' dest = some .dir
  files : ∀ e ∈ site, e.1 ≠ [c!"initial.json"] → IMap.get? fs' (dest ++ Path e.1) = some (.file e.2)
  initial : IMap.get? fs' (dest ++ Path [c!"initial.json"]) = some (.file (.text initial))
  dirs : ∀ e ∈ site, ∀ l r, e.1 = l ++ r → l ≠ [] → r ≠ [] → IMap.get? fs' (dest ++ Path l) = some .dir
  rest : ∀ q, q ≠ dest → (∀ e ∈ site, ∀ l r, e.1 = l ++ r → l ≠ [] → q ≠ dest ++ Path l) → IMap.get? fs' q = IMap.get? fs q

/-- A host that only has files: it gives `initial.json` to who asks for it and refuses what is posted. `X` is the project in that file. -/
def FilesOnly (X : Web.Proj) (tr : List Web.Event) : Prop :=
  ∀ q m, Web.Event.response q m ∈ tr → (q = .initial ∧ m = .recvInitial (some X) .static) ∨ (q ≠ .initial ∧ ∃ logs, m = .recvError logs)

/-- The command works on the project around the directory `w` (or around the current one). -/
inductive Uses (w : Option Str) : Cmd → Prop where
  | check (v) : Uses w (.check v w)
  | fmt (v ty) : Uses w (.fmt v w ty)
  | ls (v x b) : Uses w (.ls v w x b)
  | serve (v port) : Uses w (.serve v w port)
  | export (v ty path) : Uses w (.export v w ty path)

/-- What a command other than `serve` may change. `check`, `ls` and a missing command have no entry. -/
inductive Touches (S : Setup) (fs : FS) (cwd : FilePath) : Cmd → FilePath → Prop where
  /-- `.art`, the settings, the directory for the artifacts and the first artifact file. -/
  | init {v w d q} : workDir fs cwd w = some d → q ∈ projectPaths d → Touches S fs cwd (.init v w) q
  /-- Artifact files and their backups. -/
  | fmt {v w ty d repo s q} : workDir fs cwd w = some d → findRepo fs d = some repo → SettingsOf S.E.readToml fs repo s →
      MayTouch S.E.L S.E.readToml S.E.hash S.E.dbg S.E.ncpu fs repo [] s q → Touches S fs cwd (.fmt v w ty) q
  /-- The file that was asked for. -/
  | markdown {v w ty path dest} : lower ty ≠ c!"html" → absPath cwd path = some dest → Touches S fs cwd (.export v w ty path) dest
  /-- The directory that was asked for, the files of the page below it and the directories they are in. -/
  | html {v w ty path dest} : lower ty = c!"html" → absPath cwd path = some dest → Touches S fs cwd (.export v w ty path) dest
  | page {v w ty path dest e l r} : lower ty = c!"html" → absPath cwd path = some dest → e ∈ S.site → e.1 = l ++ r → l ≠ [] →
      Touches S fs cwd (.export v w ty path) (dest ++ Path l)

end Cli
end Art
