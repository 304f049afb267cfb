import Verif.Props.Check
import Verif.Spec.Export

/-!
# C83: everything that a project is told
The lints of a project that was read, one by one, with their texts, and which artifacts a warning is about.
-/

namespace Art.Reports
open Spec
open Spec.Export (arts)

/-- The artifact is marked as done in its file. -/
def Done (a : Artifact) : Prop := ∃ d, a.impl = .done d

/-- Why a place in the code is wrong. -/
inductive Why where
  | missing
  | done
  | noSub (s : SubName)

/-- What the user is told about it. -/
def Why.text (n : Name) : Why → Str
  | .missing => c!"Artifact " ++ n.raw ++ c!" does not exist"
  | .done => c!"Artifact's done field is set"
  | .noSub s => c!"Subname [[" ++ s.raw ++ c!"]] does not exist in artifact's text"

/-- A place in the code that refers to `n` or a subname of it is wrong: no artifact has that name, or it is marked as done, or it has no such subname. -/
def Wrong (as : List Artifact) (n : Name) (sub : Option SubName) : Why → Prop
  | .missing => ∀ b ∈ as, key b.name ≠ key n
  | .done => ∃ b ∈ as, key b.name = key n ∧ Done b
  | .noSub s => ∃ b ∈ as, key b.name = key n ∧ ¬ Done b ∧ sub = some s ∧ ¬ DefinesSub b.text s

/-- The warning about a place in the code. -/
def placeLint (n : Name) (sub : Option SubName) (loc : CodeLoc) (w : Why) : Lint :=
  ⟨.warn, some loc.file, some loc.line, .implCode, c!"Invalid code impl #" ++ n.full sub ++ c!". " ++ w.text n⟩

/-- The warning about a reference in the text of the artifact `a`. -/
def softLint (a : Name) (file : FilePath) (n : Name) (sub : Option SubName) : Lint :=
  ⟨.warn, some file, none, .artifact, a.raw ++ c!" has soft reference [[" ++ n.full sub ++ c!"]] which does not exist."⟩

/-- An error about the artifact `a`. -/
def errorLint (a : Artifact) (msg : Str) : Lint := ⟨.error, some a.file, none, .artifact, a.name.raw ++ msg⟩

/-- What is wrong with a project that could be read, and how it is reported. -/
inductive Complaint (L : Libs) (p : Project) : Lint → Prop where
  | dangling {a : Artifact} {q : Name} : a ∈ arts p → q ∈ a.partof → (∀ b ∈ arts p, key b.name ≠ key q) →
      Complaint L p (errorLint a (c!" defines partof=" ++ q.raw ++ c!" which does not exist"))
  | types {a : Artifact} {q : Name} : a ∈ arts p → q ∈ a.partof → tyRank q.ty < tyRank a.name.ty →
      Complaint L p (errorLint a (c!" cannot have `partof` " ++ q.raw ++ c!": invalid types."))
  | nameLine {a : Artifact} {line : Str} : a ∈ arts p → line ∈ lines a.text → NameLine L.fold p.settings.pre line →
      Complaint L p (errorLint a c!" text is invalid: Cannot have a line of the form \"# ART-name\" as that specifies a new artifact in the markdown format.")
  | endLine {a : Artifact} {line : Str} : a ∈ arts p → line ∈ lines a.text → ¬ NameLine L.fold p.settings.pre line → EndLine line →
      Complaint L p (errorLint a c!" text is invalid: Cannot have a line of the form \"###+\" as that specifies the end of the metadata in the markdown format.")
  | doneSubs {a : Artifact} {sub : SubName} : a ∈ arts p → Done a → DefinesSub a.text sub →
      Complaint L p (errorLint a c!": subnames are defined when the `done` field is set.")
  | url {fmt e : Str} : p.settings.codeUrl = some fmt → L.urlErr fmt = some e → Complaint L p ⟨.error, some p.settings.settingsPath, none, .settings, e⟩
  | soft {a : Artifact} {n : Name} {sub : Option SubName} : a ∈ arts p → WritesRef a.text n.raw sub → NoTarget (arts p) n sub →
      Complaint L p (softLint a.name a.file n sub)
  | place {n : Name} {sub : Option SubName} {loc : CodeLoc} {w : Why} : Recorded p.codeImpls n sub loc → Wrong (arts p) n sub w → Complaint L p (placeLint n sub loc w)

/-- A warning about a reference in the text of the artifact `n`. -/
def Holder (n : Name) (l : Lint) : Prop := ∃ file m sub, l = softLint n file m sub

/-- A warning about a reference to the artifact `n` in the text of another one. -/
def Target (n : Name) (l : Lint) : Prop := ∃ a file m sub, key m = key n ∧ l = softLint a file m sub

/-- A warning about a place in the code that refers to the artifact `n`. -/
def Place (n : Name) (l : Lint) : Prop := ∃ m sub loc w, key m = key n ∧ l = placeLint m sub loc w

/-- The same warning, up to the spelling of the name of the artifact that a place in the code refers to. -/
def SameLint (l l' : Lint) : Prop := l = l' ∨ ∃ n n' sub loc w, key n = key n' ∧ l = placeLint n sub loc w ∧ l' = placeLint n' sub loc w

/-- Why there is a warning `l` that was not among the warnings `before`, when the artifacts `old` have become `new`: it is about the text of an artifact that is new; or it is
about a place in the code that refers to a new artifact, and about that place there was another warning before, that there is no artifact; or it is about a reference in a text or in the code
to an artifact that is not there any more as it was. -/
inductive Explained (old new : List ArtifactIm) (before : List Lint) (l : Lint) : Prop where
  | holder {a : ArtifactIm} : a ∈ new → a ∉ old → Holder a.name l → Explained old new before l
  | replaced {a : ArtifactIm} {m m' : Name} {sub : Option SubName} {loc : CodeLoc} {w : Why} : a ∈ new → a ∉ old → key m = key a.name → key m' = key a.name →
      l = placeLint m sub loc w → placeLint m' sub loc .missing ∈ before → Explained old new before l
  | target {a : ArtifactIm} : a ∈ old → a ∉ new → Target a.name l → Explained old new before l
  | place {a : ArtifactIm} : a ∈ old → a ∉ new → Place a.name l → Explained old new before l

end Art.Reports
