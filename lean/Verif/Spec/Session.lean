import Verif.Spec.Art
import Verif.Spec.Fmt

/-!
# Specification: one command after the other
-/

namespace Art
namespace Cli
open Spec

/-- The paths that belong to a project: its settings and everything in its artifact and code paths. -/
def InProject (s : Settings) (q : FilePath) : Prop :=
  q = s.settingsPath ∨ ∃ r, (r ∈ s.artifactPaths ∨ r ∈ s.codePaths) ∧ Under r q

/-- Commands and changes by others, one after the other, from the disk `fs` to the disk in the last argument. Commands may do what they do anywhere else; in the project at
`base` with the settings `s` only `art fmt` works, and it succeeds. Nothing is said about `art serve`: a server that changes nothing in the project is like any other
program (`others`). -/
inductive Session (S : Setup) (base : FilePath) (s : Settings) (fs : FS) : FS → Prop where
  | start : Session S base s fs fs
  /-- A command that may not touch the project, with any status. -/
  | command {fs1 fs2 : FS} {cwd : FilePath} {c : Cmd} {st : Nat} : Session S base s fs fs1 → Ends S fs1 cwd c st fs2 → (∀ v w port, c ≠ .serve v w port) →
      (∀ q, Touches S fs1 cwd c q → ¬ InProject s q) → Session S base s fs fs2
  /-- `art fmt` in this project. -/
  | format {fs1 fs2 : FS} {cwd d : FilePath} {v : Nat} {w ty : Option Str} : Session S base s fs fs1 → workDir fs1 cwd w = some d → findRepo fs1 d = some base →
      Ends S fs1 cwd (.fmt v w ty) 0 fs2 → Session S base s fs fs2
  /-- Another program changes files that do not belong to the project. -/
  | others {fs1 fs2 : FS} : Session S base s fs fs1 → FS.WF fs2 →
      (∀ q, InProject s q → IMap.get? fs2 q = IMap.get? fs1 q) → Session S base s fs fs2

/-- Every artifact file holds what `art fmt` would write. -/
def Formatted (L : Libs) (s : Settings) (p : Project) (fs : FS) : Prop :=
  ∃ p' files, p'.settings = s ∧ (editable p').Perm (editable p) ∧ NamesDistinct p' ∧ projectFiles L p' = .ok files ∧
    (∀ x ∈ files, IMap.get? fs x.1 = some (.file (.text x.2))) ∧ (walkArtifacts fs s).Perm (files.map (·.1))

end Cli
end Art
