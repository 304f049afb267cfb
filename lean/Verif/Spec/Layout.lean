import Verif.Spec.Reports
import Verif.Spec.Depends
import Verif.Spec.Bytes

/-!
# Specification: the same artifacts in other files (C85)
-/

namespace Art.Layout
open Spec
open Spec.Export (arts)

/-- The same artifact, but possibly in another file, in another format, and with names that are spelled with other capitals. -/
structure SameArtifact (a b : ArtifactIm) : Prop where
  name : key a.name = key b.name
  partof : ∀ q : Name, (∃ x ∈ a.partof, key x = key q) ↔ ∃ x ∈ b.partof, key x = key q
  done : a.done = b.done
  text : a.text = b.text

/-- Every artifact of one list is also in the other. -/
def SameArtifacts (l l' : List ArtifactIm) : Prop := (∀ a ∈ l, ∃ b ∈ l', SameArtifact a b) ∧ ∀ b ∈ l', ∃ a ∈ l, SameArtifact a b

/-- Everything that is shown of both artifacts is the same, except for the file and capitals in names. -/
structure ShownSame (a b : Artifact) : Prop where
  name : key a.name = key b.name
  partof : ∀ q : Name, (∃ x ∈ a.partof, key x = key q) ↔ ∃ x ∈ b.partof, key x = key q
  parts : ∀ q : Name, (∃ x ∈ a.parts, key x = key q) ↔ ∃ x ∈ b.parts, key x = key q
  completed : a.completed = b.completed
  impl : a.impl = b.impl
  subnames : a.subnames = b.subnames
  text : a.text = b.text

/-- The same lint, except for capitals, and for the file if it is about an artifact or the settings. -/
structure SameReport (l l' : Lint) : Prop where
  level : l.level = l'.level
  category : l.category = l'.category
  line : l.line = l'.line
  msg : upper l.msg = upper l'.msg
  path : l.category = .implCode → l.path = l'.path

/-- Both tell the same: every lint of one list is also in the other. -/
def SameReports (l l' : List Lint) : Prop := (∀ a ∈ l, ∃ b ∈ l', SameReport a b) ∧ ∀ b ∈ l', ∃ a ∈ l, SameReport a b

/-- Every operation takes an artifact to another file or spells its names in another way. -/
def MovesOnly (hash : ArtifactIm → HashIm) (p : Project) (ops : List ArtifactOp) : Prop :=
  ∀ op ∈ ops, ∃ a ∈ editable p, ∃ b, op = .update b (hash a) ∧ SameArtifact a b

end Art.Layout
