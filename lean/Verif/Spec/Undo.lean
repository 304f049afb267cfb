import Verif.Spec.Life

/-!
# C80: what it means to take an edit back
-/

namespace Art.Spec

/-- The second operation takes the first one back: what was created is deleted, what was deleted is created again, and what was changed is changed back. `p` is the project
before the first operation. An artifact in the project has the id of its cleaned form, which is what the server shows. -/
inductive Back (hash : ArtifactIm → HashIm) (p : Project) : ArtifactOp → ArtifactOp → Prop where
  | create {a : ArtifactIm} {n : Name} : Back hash p (.create a) (.delete n (hash a.clean))
  | delete {b : ArtifactIm} {n : Name} : b ∈ editable p → Back hash p (.delete n (hash b)) (.create b)
  | update {a b : ArtifactIm} : b ∈ editable p → Back hash p (.update a (hash b)) (.update b (hash a.clean))

/-- The second batch takes the first one back, operation by operation, in any order. -/
def TakesBack (hash : ArtifactIm → HashIm) (p : Project) (ops ops' : List ArtifactOp) : Prop := ∃ l, List.Forall₂ (Back hash p) ops l ∧ ops'.Perm l

/-- No update turns an artifact into one that is in the project already. -/
def NoMerge (hash : ArtifactIm → HashIm) (p : Project) (ops : List ArtifactOp) : Prop :=
  ∀ a id, ArtifactOp.update a id ∈ ops → hash a.clean ≠ id → a.clean ∉ editable p

/-- No artifact path lies inside an excluded path. -/
def RootsIncluded (s : Settings) : Prop := ∀ r ∈ s.artifactPaths, ∀ e ∈ s.excludeArtifactPaths, ¬ Under e r

end Art.Spec
