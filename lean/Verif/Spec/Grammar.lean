import Verif.Spec.Markdown

/-!
# What a markdown file says

A grammar of artifact files in markdown (book/src/ExampleFile.md, book/src/CheatSheet.md L40-66 and the comments of artifact-data/src/raw.rs L207-290 of /repo), for files
written by anybody: which pieces a file is cut into, and which artifacts the pieces stand for. There is no state and no reading line by line here. The
classes of lines are those of `Verif/Spec/Markdown.lean`.
-/

namespace Art.Grammar
open Spec

/-- The line starts the artifact with the name written as `n`. -/
def HeadLine (fold : Char → Char) (pre l n : Str) : Prop :=
  ∃ p w w', l = p ++ '#' :: (w ++ (n ++ w')) ∧ p.map fold = pre.map fold ∧ AllBlank w ∧ Re.Lang nameRe n ∧ AllBlank w'

/-- A line that closes an attribute block: three or more backquotes. -/
def CloseLine (l : Str) : Prop := ∃ k w, AllBlank w ∧ l = List.replicate (k + 3) '`' ++ w

/-- The pieces of a file. -/
inductive Mark where
  /-- the line that starts an artifact -/
  | head (n : Str)
  /-- a line of text, or of attributes above `###` -/
  | text (l : Str)
  /-- a line `###` -/
  | hashes
  /-- an attribute block with its lines -/
  | block (a : List Str)
  /-- an attribute block that is not closed: the line that opens it and all the lines after it -/
  | cut (o : Str) (lost : List Str)

/-- The lines of a file and the pieces they make. -/
inductive Cut (fold : Char → Char) (pre : Str) : List Str → List Mark → Prop
  | nil : Cut fold pre [] []
  | head {l n ls ps} : HeadLine fold pre l n → Cut fold pre ls ps → Cut fold pre (l :: ls) (.head n :: ps)
  | text {l ls ps} : TextLine fold pre l → Cut fold pre ls ps → Cut fold pre (l :: ls) (.text l :: ps)
  | hashes {l ls ps} : ¬ NameLine fold pre l → EndLine l → Cut fold pre ls ps → Cut fold pre (l :: ls) (.hashes :: ps)
  | block {o a e ls ps} : ¬ NameLine fold pre o → FenceLine o → (∀ l ∈ a, ¬ CloseLine l) → CloseLine e → Cut fold pre ls ps →
      Cut fold pre (o :: (a ++ e :: ls)) (.block a :: ps)
  | cut {o lost} : ¬ NameLine fold pre o → FenceLine o → (∀ l ∈ lost, ¬ CloseLine l) → Cut fold pre (o :: lost) [.cut o lost]

/-- No artifact starts here. -/
def Headless (ps : List Mark) : Prop := ∀ n, .head n ∉ ps

/-- What is below the first line of an artifact, with its attributes `a` (if any) and its lines of text `t`: text only; text and, at the end
of the file, an attribute block that is not closed, of which the first line is text and the rest is nothing; attributes and `###` above the text; or a block of
attributes anywhere in the text. -/
def Body (body : List Mark) (a : Option (List Str)) (t : List Str) : Prop :=
  (body = t.map .text ∧ a = none) ∨
  (∃ t' o lost, body = t'.map .text ++ [.cut o lost] ∧ a = none ∧ t = t' ++ [o]) ∨
  (∃ b, body = b.map .text ++ .hashes :: t.map .text ∧ a = some b) ∨
  ∃ t1 b t2, body = t1.map .text ++ .block b :: t2.map .text ∧ a = some b ∧ t = t1 ++ t2

/-- What lines of attributes say: they are one document for the YAML library. -/
def Attributes (L : Libs) (a : Option (List Str)) (done : Option Str) (partof : Option (ISet Name)) : Prop :=
  match a with
  | none => done = none ∧ partof = none
  | some b => (L.yamlRead (joinLines b) = some (done, none) ∧ partof = none) ∨
      ∃ p l, L.yamlRead (joinLines b) = some (done, some p) ∧ namesRawDe p = .ok l ∧ partof = some l

/-- What is below the first line of an artifact says that it is `r`. -/
def Says (L : Libs) (body : List Mark) (r : ArtifactRaw) : Prop :=
  ∃ a t, Body body a t ∧ Attributes L a r.done r.partof ∧
    ((cleanText (joinLines t) = [] ∧ r.text = none) ∨ (cleanText (joinLines t) ≠ [] ∧ r.text = some (cleanText (joinLines t))))

/-- The sections of a file, each with the name as it is written. -/
abbrev Sections := List (Str × List Mark)

/-- The pieces of sections. -/
def Sections.marks (ss : Sections) : List Mark := ss.flatMap fun s => .head s.1 :: s.2

/-- The pieces stand for these artifacts, in this order: something above the first artifact that does not matter, and one section for each artifact. No two have
the same name. -/
def Means (L : Libs) (ps : List Mark) (out : IMap Name ArtifactRaw) : Prop :=
  ∃ (above : List Mark) (ss : Sections), ps = above ++ ss.marks ∧ Headless above ∧ (∀ s ∈ ss, Headless s.2) ∧
    List.Forall₂ (fun s x => Name.fromStr s.1 = .ok x.1 ∧ Says L s.2 x.2) ss out ∧ IMap.Nodup out

end Art.Grammar
