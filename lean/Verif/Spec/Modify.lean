import Verif.Model.Fs
import Verif.Model.Project

/-!
# What the operations of a modification mean
-/

namespace Art.Spec

/-- The operation brings this artifact into the project. -/
def Brings (op : ArtifactOp) (a : ArtifactIm) : Prop := op = .create a ∨ ∃ id, op = .update a id

/-- The operation claims to know the artifact with this id, to replace or remove it. -/
def Presents (op : ArtifactOp) (id : HashIm) : Prop := (∃ a, op = .update a id) ∨ ∃ n, op = .delete n id

/-- An update to what is there already. -/
def Idle (hash : ArtifactIm → HashIm) (op : ArtifactOp) : Prop := ∃ a, op = .update a (hash a)

/-- Some operation that is not idle removes or replaces the artifact with this id. -/
def TakenOut (hash : ArtifactIm → HashIm) (ops : List ArtifactOp) (id : HashIm) : Prop := ∃ op ∈ ops, ¬ Idle hash op ∧ Presents op id

/-- Some operation that is not idle brings in an artifact with this id. -/
def BroughtIn (hash : ArtifactIm → HashIm) (ops : List ArtifactOp) (id : HashIm) : Prop :=
  ∃ op ∈ ops, ¬ Idle hash op ∧ ∃ a, Brings op a ∧ hash a = id

/-- No idle update is about an artifact that another operation of the batch brings in or takes out. -/
def Unchained (hash : ArtifactIm → HashIm) (ops : List ArtifactOp) : Prop :=
  ∀ a, ArtifactOp.update a (hash a) ∈ ops → ¬ BroughtIn hash ops (hash a) ∧ ¬ TakenOut hash ops (hash a)

/-- The operation, if it is not idle, is about this id. -/
def Touches (hash : ArtifactIm → HashIm) (op : ArtifactOp) (id : HashIm) : Prop :=
  ¬ Idle hash op ∧ (Presents op id ∨ ∃ a, Brings op a ∧ hash a = id)

/-- No two operations are about the same id. -/
def NoOverlap (hash : ArtifactIm → HashIm) (ops : List ArtifactOp) : Prop :=
  ops.Pairwise (fun o o' => ∀ id, Touches hash o id → ¬ Touches hash o' id)

/-- The editable artifacts of a project. -/
def editable (p : Project) : List ArtifactIm := p.artifacts.map (fun x => x.2.toIm)

/-- The links of an artifact and of an operation are sets: the invariant of Rust's `IndexSet`. -/
def LinkSets (ops : List ArtifactOp) : Prop := ∀ op ∈ ops, ∀ a, Brings op a → ISet.Nodup a.partof

/-- Maps and sets of a project have no entry twice: the invariant of `IndexMap` and `IndexSet`. -/
structure ProjectSets (p : Project) : Prop where
  arts : IMap.Nodup p.artifacts
  code : IMap.Nodup p.codeImpls
  links : ∀ x ∈ p.artifacts, ISet.Nodup x.2.partof

/-- No two different artifacts of the project and the operations have the same id. -/
def NoCollision (hash : ArtifactIm → HashIm) (p : Project) (ops : List ArtifactOp) : Prop :=
  ∀ a b, (a ∈ editable p ∨ ∃ op ∈ ops, Brings op a) → (b ∈ editable p ∨ ∃ op ∈ ops, Brings op b) → hash a = hash b → a = b

/-- All files that are written may be written. -/
def PathsOk (s : Settings) (ops : List ArtifactOp) : Prop := ∀ op ∈ ops, ∀ a, Brings op a → checkPath s a.file = none

/-- Every id that is presented exists, and nothing is created that exists. -/
def Matches (hash : ArtifactIm → HashIm) (p : Project) (ops : List ArtifactOp) : Prop :=
  (∀ op ∈ ops, ∀ id, Presents op id → ∃ a ∈ editable p, hash a = id) ∧ ∀ a, ArtifactOp.create a ∈ ops → ∀ b ∈ editable p, hash b ≠ hash a

end Art.Spec
