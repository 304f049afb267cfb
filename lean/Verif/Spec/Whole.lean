import Verif.Model.Whole
import Verif.Spec.Frontend
import Verif.Spec.Modify

/-! Specification for C53: what a page shows and what a save does to the project. -/

namespace Art
namespace Whole
open Spec

/-- What a page can show of an artifact. -/
def look (a : Artifact) : Web.Shown := ⟨a.id, a.name, a.file, a.partof, a.impl.doneStr, a.text⟩

/-- The page has exactly the artifacts of the project. -/
def Shows (P : Web.Proj) (p : Project) : Prop := P.Perm (p.artifacts.map fun x => (x.1, look x.2))

/-- The ids of the editable artifacts. -/
def HasId (hash : ArtifactIm → HashIm) (p : Project) (id : HashIm) : Prop := ∃ a ∈ editable p, hash a = id

/-- What one operation makes of the project `q`, by the ids of the artifacts: an update needs the version that it replaces and replaces only that, a
creation needs that it is new. -/
def Replaces (hash : ArtifactIm → HashIm) (q p' : Project) : ArtifactOp → Prop
  | .create a => ¬ HasId hash q (hash a) ∧ ∀ id, HasId hash p' id ↔ HasId hash q id ∨ id = hash a
  | .update a old => HasId hash q old ∧ ∀ id, HasId hash p' id ↔ (HasId hash q id ∧ id ≠ old) ∨ id = hash a
  | .delete _ old => HasId hash q old ∧ ∀ id, HasId hash p' id ↔ HasId hash q id ∧ id ≠ old

/-- The same by the artifacts themselves. -/
def ReplacesExactly (hash : ArtifactIm → HashIm) (q p' : Project) : ArtifactOp → Prop
  | .create a => a ∉ editable q ∧ ∀ x, x ∈ editable p' ↔ x ∈ editable q ∨ x = a
  | .update a old => ∃ b ∈ editable q, hash b = old ∧ ∀ x, x ∈ editable p' ↔ (x ∈ editable q ∧ x ≠ b) ∨ x = a
  | .delete _ old => ∃ b ∈ editable q, hash b = old ∧ ∀ x, x ∈ editable p' ↔ x ∈ editable q ∧ x ≠ b

/-- On the disk `d` the project `q` was changed by `op`, the disk is `d'` then and `r` the new project. -/
def Performs (E : Env) (repo : FilePath) (d : FS) (q : Project) (op : ArtifactOp) (r : ProjectResult) (d' : FS) : Prop :=
  (∃ c, ReadsProject E.L E.readToml E.hash E.ncpu d repo (.ok (c, q))) ∧
  Modifies E.L E.readToml E.hash E.dbg E.ncpu d repo [op] (some (.ok (r.lints, r.project))) d' ∧
  Replaces E.hash q r.project op.clean ∧ (NoCollision E.hash q [op.clean] → ReplacesExactly E.hash q r.project op.clean)

/-- The answer with the project `r` was made in the history `tr` by thread `i` for request `q` of page `k`, between the moment when the request came
in and the moment when the page got the answer `m`. `S1` and `S2` are the states before and after. -/
def Answered (E : Env) (nd : Char → Bool) (lim : Nat) (S0 : Sys) (tr : List Ev) (S : Sys) (k : Nat) (q : Web.Req) (r : Request)
    (a : Reply) (m : Web.Msg) (S1 S2 : Sys) : Prop :=
  ∃ i x y, tr = x ++ .server (.finish i r a) :: y ∧ .request k q i r ∈ x ∧ .answer k q i a m ∈ y ∧
    Runs E nd lim S0 x S1 ∧ Step E nd lim S1 (.server (.finish i r a)) S2 ∧ Runs E nd lim S2 y S

end Whole
end Art
