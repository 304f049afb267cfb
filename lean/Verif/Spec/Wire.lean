import Verif.Model.Wire
import Verif.Spec.Json
import Verif.Spec.Whole

/-! Specification for C63: what must arrive when a project is sent as JSON, and which projects can be sent. -/

namespace Art
namespace Spec

/-- The elements of `m` are related one to one to the elements of `l`, in any order. -/
def Shuffled {α β : Type} (R : α → β → Prop) (l : List α) (m : List β) : Prop := ∃ k, List.Forall₂ R l k ∧ k.Perm m

/-- Equal up to the order of the entries of the map (`PartialEq for IndexMap`). -/
def SameCode (c d : ImplCode) : Prop := c.primary = d.primary ∧ c.secondary.Perm d.secondary

/-- Equal up to the order of the entries of a map. -/
def SameImpl : Impl → Impl → Prop
  | .done s, y => y = .done s
  | .code c, y => ∃ d, y = .code d ∧ SameCode c d
  | .notImpl, y => y = .notImpl

/-- Equal up to the order of the entries of a map: every field arrives. -/
def SameArt (a b : Artifact) : Prop :=
  a.id = b.id ∧ a.name = b.name ∧ a.file = b.file ∧ a.partof = b.partof ∧ a.parts = b.parts ∧ a.completed = b.completed ∧ a.text = b.text ∧ SameImpl a.impl b.impl ∧
    a.subnames = b.subnames

/-- Equal up to the order of the entries of the maps (`PartialEq for Project`). -/
def SameProject (p q : Project) : Prop :=
  p.settings = q.settings ∧ Shuffled (fun x y => x.1 = y.1 ∧ SameCode x.2 y.2) p.codeImpls q.codeImpls ∧
    Shuffled (fun x y => x.1 = y.1 ∧ SameArt x.2 y.2) p.artifacts q.artifacts

/-- A line number that is a `u64`. -/
def LineNum (n : Nat) : Prop := n < 2 ^ 64

/-- No key twice, names that are names, lines that are numbers. -/
structure CodeSound (c : ImplCode) : Prop where
  primary : ∀ l, c.primary = some l → LineNum l.line
  nodup : IMap.Nodup c.secondary
  subs : ∀ x ∈ c.secondary, SubName.fromStr x.1.raw = .ok x.1
  lines : ∀ x ∈ c.secondary, LineNum x.2.line

/-- The sets have no element twice, the subnames are subnames. -/
structure ArtSound (a : Artifact) : Prop where
  partof : ISet.Nodup a.partof
  parts : ISet.Nodup a.parts
  subnames : ISet.Nodup a.subnames
  subs : ∀ s ∈ a.subnames, SubName.fromStr s.raw = .ok s
  code : ∀ c, a.impl = .code c → CodeSound c

/-- The sets of paths have no path twice. -/
structure SettingsSound (s : Settings) : Prop where
  code : ISet.Nodup s.codePaths
  noCode : ISet.Nodup s.excludeCodePaths
  art : ISet.Nodup s.artifactPaths
  noArt : ISet.Nodup s.excludeArtifactPaths

/-- The maps and sets are maps and sets, the names are names. -/
structure ProjectSound (p : Project) : Prop where
  settings : SettingsSound p.settings
  codes : IMap.Nodup p.codeImpls
  code : ∀ x ∈ p.codeImpls, CodeSound x.2
  arts : IMap.Nodup p.artifacts
  art : ∀ x ∈ p.artifacts, ArtSound x.2

/-- `w` writes the number as a JSON number and `read` reads it back. -/
def NumberBack (w : ℚ → Str) (read : Str → Option ℚ) (q : ℚ) : Prop := JsonNum (w q) ∧ read (w q) = some q

/-- The ratios of the artifacts are written and read back. -/
def RatiosBack (w : ℚ → Str) (read : Str → Option ℚ) (p : Project) : Prop :=
  ∀ x ∈ p.artifacts, NumberBack w read x.2.completed.spc ∧ NumberBack w read x.2.completed.tst

/-- What `round_ratio` gives for a ratio. -/
def Thousandth (q : ℚ) : Prop := ∃ k : ℕ, k ≤ 1000 ∧ q = k / 1000

/-- The ratios that artifacts can have are written and read back. -/
def NumbersBack (w : ℚ → Str) (read : Str → Option ℚ) : Prop := ∀ q, Thousandth q → NumberBack w read q

/-- The line numbers of the code fit into a `u64`. -/
def LinesFit (p : Project) : Prop := ∀ x ∈ p.codeImpls, (∀ l, x.2.primary = some l → LineNum l.line) ∧ ∀ y ∈ x.2.secondary, LineNum y.2.line

/-- No file has 2^64 characters or more. -/
def FilesFit (fs : FS) : Prop := ∀ f s, (IMap.get? fs f = some (.file (.text s)) ∨ ∃ id, IMap.get? fs f = some (.file (.binary s id))) → s.length < 2 ^ 64

/-- The number of a call. -/
def Asks : Web.Req → Nat → Prop
  | .initial, _ => False
  | .read j _, n => j = n
  | .modify j _, n => j = n

/-- The lines of lints are numbers. -/
def LintsSound (c : Categorized) : Prop := ∀ l ∈ c.error ++ c.other, ∀ n, l.line = some n → LineNum n

end Spec
end Art
