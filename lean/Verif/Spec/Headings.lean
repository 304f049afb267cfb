import Verif.Spec.Export
import Verif.Spec.Markdown

/-! Specification for C87: the lines of a document that begin an artifact, and what they are to be in the exported document. -/

namespace Art.Spec.Headings
open Spec Spec.Export

/-- The line that begins the section about an artifact. -/
def headLine (pre : Str) (a : Artifact) : Str := pre ++ c!"# " ++ a.name.raw

open Classical in
/-- The lines of a text that are read as the beginning of an artifact. -/
noncomputable def headings (fold : Char → Char) (pre text : Str) : List Str := (lines text).filter fun l => decide (NameLine fold pre l)

/-- What is inserted into the document stays within its line, and no graph contains `#`. -/
structure Unbroken (F : ExportLibs) (ex : ExportSettings) (p : Project) : Prop where
  done : ∀ a ∈ arts p, ∀ d, a.impl = .done d → '\n' ∉ d
  places : ∀ loc, Addressed p loc → '\n' ∉ loc.file
  address : ∀ fmt f l u, p.settings.codeUrl = some fmt → '\n' ∉ f → '\n' ∉ l → F.strfmt fmt f l = some u → '\n' ∉ u
  percent : ∀ x, '\n' ∉ F.percent x
  graphs : ∀ a ∈ arts p, ∀ ps head body, Cut true a.text ps → Piece.graph head body ∈ ps → '#' ∉ body
  fences : ∀ x y, ex.dot = .replaceBraces x y → '#' ∉ x ∧ '#' ∉ y

end Art.Spec.Headings
