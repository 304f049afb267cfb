import Verif.Spec.Save
import Verif.Spec.Markdown
import Verif.Spec.Modify

/-!
# What it takes to read back what was written
-/

namespace Art.Spec

/-- An artifact as an entry of a TOML or JSON document. -/
def docOf (a : ArtifactIm) : Str × ArtDoc :=
  (a.name.raw, ⟨a.done, if a.partof = [] then none else some (partofDoc a.partof), if a.text = [] then none else some a.text⟩)

/-- The artifacts `ims` survive being written to `f` and read again. For markdown this is asked of the texts and of the YAML library; for TOML and JSON the library has to
read back the document it has written. -/
def Survives (L : Libs) (s : Settings) (f : FilePath) (ims : List ArtifactIm) : Prop :=
  match ArtFileType.fromPath f with
  | some .md => SettingsOk s.pre s.mdAttrs ∧ ∀ a ∈ ims, (a.text ≠ [] → TextOk L.fold s.pre a.text) ∧ YamlOk L (intoRaw a).2.2
  | some .toml => ∀ l : List ArtifactIm, l.Perm ims → L.tomlRead (L.tomlWrite (l.map docOf)) = some (l.map docOf)
  | some .json => ∀ l : List ArtifactIm, l.Perm ims → L.jsonRead (L.jsonWrite (l.map docOf)) = some (l.map docOf)
  | none => False

/-- The walk from the configured path `r` comes to `f` if there is such a file. -/
def Reaching (s : Settings) (r f : FilePath) : Prop := Under r f ∧ ∀ e ∈ s.excludeArtifactPaths, Under r e → ¬ Under e f

/-- A file with this path is read exactly once. -/
def ReadOnce (s : Settings) (f : FilePath) : Prop :=
  ∃ l r l', s.artifactPaths = l ++ r :: l' ∧ Reaching s r f ∧ ∀ r' ∈ l ++ l', ¬ Reaching s r' f

/-- Artifacts, code and settings are kept apart: no artifact path contains or is contained in a code path, or contains the settings. -/
structure Apart (s : Settings) : Prop where
  code : ∀ r ∈ s.artifactPaths, ∀ c ∈ s.codePaths, ¬ Under r c ∧ ¬ Under c r
  settings : ∀ r ∈ s.artifactPaths, ¬ Under r s.settingsPath

end Art.Spec
