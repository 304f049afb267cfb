import Verif.Spec.Grammar

/-!
# Parts of markdown files

When a text is a part that can be moved around in a file, or from one file to another (book/src/ExampleFile.md of /repo: a file is one artifact after the
other). The pieces of a file are those of `Verif/Spec/Grammar.lean`.
-/

namespace Art.Merge
open Spec Grammar

/-- All attribute blocks of the text are closed. -/
def AllClosed (fold : Char → Char) (pre s : Str) : Prop := ∃ ps, Cut fold pre (lines s) ps ∧ ∀ o lost, .cut o lost ∉ ps

/-- The first line of the text starts an artifact. -/
def Starts (fold : Char → Char) (pre s : Str) : Prop := ∃ l ls n, lines s = l :: ls ∧ HeadLine fold pre l n

/-- A part of a file: whole lines, from the start of an artifact to the end of an artifact, with all blocks closed. -/
structure IsPart (fold : Char → Char) (pre s : Str) : Prop where
  whole : ∃ t, s = t ++ ['\n']
  starts : Starts fold pre s
  closed : AllClosed fold pre s

/-- Two lists of artifacts have no name in common. -/
def NoneShared (o o' : IMap Name ArtifactRaw) : Prop := ∀ x ∈ o, ∀ y ∈ o', key x.1 ≠ key y.1

end Art.Merge
