import Verif.Model.Init

/-!
# What starting a project is meant to do
-/

namespace Art.Spec

/-- A project can be started in the directory `work`: it has no `.art`, and `design` and `design/purpose.md` are not of the wrong kind. -/
structure Startable (fs : FS) (work : FilePath) : Prop where
  dir : IMap.get? fs work = some .dir
  fresh : IMap.get? fs (work ++ c!"/.art") = none
  design : ∀ x, IMap.get? fs (work ++ c!"/design") ≠ some (.file x)
  purpose : IMap.get? fs (work ++ c!"/design/purpose.md") ≠ some .dir

/-- The four paths of a new project. -/
def projectPaths (work : FilePath) : List FilePath :=
  [work ++ c!"/.art", work ++ c!"/.art/settings.toml", work ++ c!"/design", work ++ c!"/design/purpose.md"]

/-- `fs'` is `fs` with a new project in `work`. -/
structure Started (fs : FS) (work : FilePath) (fs' : FS) : Prop where
  art : IMap.get? fs' (work ++ c!"/.art") = some .dir
  settings : IMap.get? fs' (work ++ c!"/.art/settings.toml") = some (.file (.text initSettings))
  design : IMap.get? fs' (work ++ c!"/design") = some .dir
  purpose : IMap.get? fs' (work ++ c!"/design/purpose.md") = some (.file (.text c!"# REQ-purpose\nThe goal of this project is...\n"))
  rest : ∀ q, q ∉ projectPaths work → IMap.get? fs' q = IMap.get? fs q

/-- The settings in the text of a new project's settings file. -/
def newSettings : SettingsRaw := ⟨[c!"design"], [], [], [], none, .default, .hashes⟩

/-- The artifact of a new project. -/
def purposeArt (work : FilePath) : ArtifactIm :=
  ⟨Name.lit c!"REQ-purpose", work ++ c!"/design/purpose.md", [], none, c!"The goal of this project is..."⟩

end Art.Spec
