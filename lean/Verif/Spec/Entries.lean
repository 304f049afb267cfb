import Verif.Spec.Origin

/-!
# What a TOML or JSON file says

The entries of a document and the artifacts they stand for (artifact-data/src/raw.rs L36-85 and L182-198 of /repo, `IndexMap` keeping the first spelling of a key and
the last value).
-/

namespace Art.Entries
open Spec

/-- What the fields of one entry say. -/
def Field (d : ArtDoc) (r : ArtifactRaw) : Prop :=
  r.done = d.done ∧ ((d.text = none ∧ r.text = none) ∨ ∃ t, d.text = some t ∧ r.text = some (cleanText t)) ∧
    ((d.partof = none ∧ r.partof = none) ∨ ∃ q l, d.partof = some q ∧ namesRawDe q = .ok l ∧ r.partof = some l)

/-- What each entry says on its own. -/
def Entry (s : Str × ArtDoc) (e : Name × ArtifactRaw) : Prop := Name.fromStr s.1 = .ok e.1 ∧ Field s.2 e.2

/-- The first entry with this key is spelled `n`. -/
def FirstSpelled (es : List (Name × ArtifactRaw)) (n : Name) : Prop :=
  ∃ a r b, es = a ++ (n, r) :: b ∧ ∀ e ∈ a, key e.1 ≠ key n

/-- The last entry with the key of `n` says `r`. -/
def LastSays (es : List (Name × ArtifactRaw)) (n : Name) (r : ArtifactRaw) : Prop :=
  ∃ a n' b, es = a ++ (n', r) :: b ∧ key n' = key n ∧ ∀ e ∈ b, key e.1 ≠ key n

/-- What is left of the entries: for each name, ignoring case, one artifact, spelled as in the first entry, saying what the last entry says. -/
def Left (es : List (Name × ArtifactRaw)) (out : IMap Name ArtifactRaw) : Prop :=
  IMap.Nodup out ∧ ∀ x, x ∈ out ↔ FirstSpelled es x.1 ∧ LastSays es x.1 x.2

/-- The entry cannot be read: its name or one of its links is not a name, and `none` is the abnormal end. -/
inductive Bad (s : Str × ArtDoc) : Option NameErr → Prop
  | name {e} : Name.fromStr s.1 = .err e → Bad s (some e)
  | namePanic : Name.fromStr s.1 = .panic → Bad s none
  | partof {n q e} : Name.fromStr s.1 = .ok n → s.2.partof = some q → namesRawDe q = .err e → Bad s (some e)
  | partofPanic {n q} : Name.fromStr s.1 = .ok n → s.2.partof = some q → namesRawDe q = .panic → Bad s none

/-- The first entry that cannot be read. -/
def FirstBad (l : List (Str × ArtDoc)) (x : Option NameErr) : Prop :=
  ∃ good s rest seen, l = good ++ s :: rest ∧ List.Forall₂ Entry good seen ∧ Bad s x

/-- Reading stops: with the error of a name, or abnormally. -/
def Stops {α : Type} (r : Res LoadErr α) : Option NameErr → Prop
  | some e => r = .err (.name e)
  | none => r = .panic

/-- The library that reads files of this type. -/
def docOf (L : Libs) : ArtFileType → Str → Option (List (Str × ArtDoc))
  | .toml => L.tomlRead
  | .json => L.jsonRead
  | .md => fun _ => none

end Art.Entries
