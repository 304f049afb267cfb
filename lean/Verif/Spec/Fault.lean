import Verif.Spec.Grammar

/-!
# Which mistake of a markdown file is reported

The mistakes a section of a file can have, in terms of the pieces of `Verif/Spec/Grammar.lean`, and which of the mistakes of a file is the one to report: the
one of the first section that has one (artifact-data/src/raw.rs L207-338 of /repo). The abnormal end of the program is an outcome of its own.
-/

namespace Art.Fault
open Spec Grammar

/-- A piece that is, or announces, attributes. -/
def isAttrs : Mark → Bool
  | .hashes => true
  | .block _ => true
  | .cut _ _ => true
  | _ => false

/-- How often attributes are given. -/
def given (body : List Mark) : Nat := body.countP isAttrs

/-- What is wrong with a section, given the artifacts of the file before it; `none` is the abnormal end of the program. -/
inductive Wrong (L : Libs) (seen : IMap Name ArtifactRaw) (w : Str) (body : List Mark) : Option LoadErr → Prop
  /-- the name is not one; in a file this does not happen, see `C94_heads` -/
  | name {e} : Name.fromStr w = .err e → Wrong L seen w body (some (.name e))
  | namePanic : Name.fromStr w = .panic → Wrong L seen w body none
  /-- attributes are given twice -/
  | twice {n} : Name.fromStr w = .ok n → 2 ≤ given body → Wrong L seen w body (some (.attrsTwice n))
  /-- the attributes cannot be read -/
  | doc {n b t} : Name.fromStr w = .ok n → Body body (some b) t → L.yamlRead (joinLines b) = none → Wrong L seen w body (some .doc)
  /-- the artifact is part of something that is not a name -/
  | partof {n b t d p e} : Name.fromStr w = .ok n → Body body (some b) t → L.yamlRead (joinLines b) = some (d, some p) → namesRawDe p = .err e →
      Wrong L seen w body (some (.name e))
  | partofPanic {n b t d p} : Name.fromStr w = .ok n → Body body (some b) t → L.yamlRead (joinLines b) = some (d, some p) → namesRawDe p = .panic →
      Wrong L seen w body none
  /-- there is nothing else wrong, but the name has been there before -/
  | again {n r x} : Name.fromStr w = .ok n → Says L body r → x ∈ seen → key x.1 = key n → Wrong L seen w body (some (.nameTwice n))

/-- The sections before the first one that is wrong are right, and this is what is wrong with it. -/
def FirstWrong (L : Libs) (ss : Sections) (x : Option LoadErr) : Prop :=
  ∃ (good : Sections) (w : Str) (body : List Mark) (rest : Sections) (seen : IMap Name ArtifactRaw), ss = good ++ (w, body) :: rest ∧
    List.Forall₂ (fun s x => Name.fromStr s.1 = .ok x.1 ∧ Says L s.2 x.2) good seen ∧ IMap.Nodup seen ∧ Wrong L seen w body x

/-- What a failure is: an error, or the abnormal end. -/
def Failed {α : Type} (r : Res LoadErr α) : Option LoadErr → Prop
  | some e => r = .err e
  | none => r = .panic

end Art.Fault
