import Verif.Model.Listing
import Verif.Props.View
import Verif.Props.Ls

/-!
# Specification for C61: what `art ls` prints
-/

namespace Art.Spec

/-- `s` is the ratio `x` in percent with one decimal, exactly. -/
def Percent (s : Str) (x : ℚ) : Prop :=
  ∃ (i : Str) (d : Char) (n k : Nat), s = i ++ ['.', d] ∧ Spells i n ∧ Spells [d] k ∧ ((10 * n + k : Nat) : ℚ) / 1000 = x

/-- Text in a colour and nothing else. -/
def Coloured (s : Styled) (k : TermColor) : Prop := s.color = some k ∧ s.bold = false ∧ s.italic = false

/-- Text without any style. -/
def Bare (s : Styled) (t : Str) : Prop := s = ⟨t, none, false, false⟩

/-- How a name is shown: as the artifact spells it and in the colour of its state; in italics if there is no such artifact. -/
def NameShown (arts : List Artifact) (n : Name) (s : Styled) : Prop :=
  (∃ a ∈ arts, key a.name = key n ∧ s.text = a.name.raw ∧ ∃ k, a.completed.termColor = .ok k ∧ Coloured s k) ∨
  ((∀ a ∈ arts, key a.name ≠ key n) ∧ s = ⟨n.raw, none, false, true⟩)

/-- The subname is implemented in code, as far as the artifact knows. -/
def InCode (a : Artifact) (s : SubName) : Prop := ∃ c, a.impl = .code c ∧ ∃ x ∈ c.secondary, key x.1 = key s

/-- How a subname is shown. -/
def SubnameShown (a : Artifact) (s : SubName) (t : Styled) : Prop :=
  t.text = s.raw ∧ (InCode a s → Coloured t .green) ∧ (¬ InCode a s → Coloured t .red)

/-- Things shown one after the other with commas between them. -/
inductive Joined {α : Type} (P : α → Styled → Prop) : List α → List Styled → Prop
  | nil : Joined P [] []
  | one {x s} : P x s → Joined P [x] [s]
  | more {x y l s r} : P x s → Joined P (y :: l) r → Joined P (x :: y :: l) (s :: ⟨c!", ", none, false, false⟩ :: r)

/-- `s` is `t` with the line ends written as `\n`. -/
inductive Escaped : Str → Str → Prop
  | nil : Escaped [] []
  | lf {t s} : Escaped t s → Escaped ('\n' :: t) ('\\' :: 'n' :: s)
  | other {c t s} : c ≠ '\n' → Escaped t s → Escaped (c :: t) (c :: s)

/-- A place in the code. -/
def LocShown (l : CodeLoc) (s : Str) : Prop := ∃ d, Spells d l.line ∧ s = l.file ++ c!"[" ++ d ++ c!"]"

/-- How an artifact is implemented, in words. -/
def ImplShown : Impl → Str → Prop
  | .done d, s => s = d
  | .notImpl, s => s = c!"not directly implemented"
  | .code c, s => ∃ pre sec, s = pre ++ sec ∧ (c.primary = none → pre = []) ∧ (∀ l, c.primary = some l → LocShown l pre) ∧
      (c.secondary = [] → sec = []) ∧
      (c.secondary ≠ [] → ∃ items, sec = c!"Secondary{" ++ List.intercalate c!", " items ++ c!"}" ∧
        List.Forall₂ (fun x i => ∃ t, LocShown x.2 t ∧ i = c!"\"" ++ x.1.raw ++ c!"\": " ++ t) c.secondary items)

/-- What a cell of the row of an artifact contains. -/
def CellShown (arts : List Artifact) (a : Artifact) : Column → List Styled → Prop
  | .spc, l => ∃ s k, l = [s] ∧ Percent s.text a.completed.spc ∧ a.completed.spcColor = .ok k ∧ Coloured s k
  | .tst, l => ∃ s k, l = [s] ∧ Percent s.text a.completed.tst ∧ a.completed.tstColor = .ok k ∧ Coloured s k
  | .name, l => ∃ b s k, l = [b, s] ∧ Bare b c!" | " ∧ s.text = a.name.raw ∧ a.completed.termColor = .ok k ∧ Coloured s k
  | .subnames, l => ∃ b r, l = b :: r ∧ Bare b c!" | " ∧ Joined (SubnameShown a) a.subnames r
  | .parts, l => ∃ b r, l = b :: r ∧ Bare b c!" | " ∧ Joined (NameShown arts) a.parts r
  | .partof, l => ∃ b r, l = b :: r ∧ Bare b c!" | " ∧ Joined (NameShown arts) a.partof r
  | .file, l => ∃ b s, l = [b, s] ∧ Bare b c!" | " ∧ Bare s a.file
  | .impl, l => ∃ b s t, l = [b, s] ∧ Bare b c!" | " ∧ Bare s t ∧ ImplShown a.impl t
  | .text, l => ∃ b s t, l = [b, s] ∧ Bare b c!" | " ∧ Bare s t ∧ Escaped (a.text.take 30) t

/-- The title of a column. -/
def Column.title : Column → Str
  | .spc => c!"spc%"
  | .tst => c!"tst%"
  | .name => c!" | name"
  | .subnames => c!" | subnames"
  | .parts => c!" | parts"
  | .partof => c!" | partof"
  | .file => c!" | file"
  | .impl => c!" | impl"
  | .text => c!" | text"

/-- All columns, in order. -/
def allColumns : List Column := [.spc, .tst, .name, .subnames, .parts, .partof, .file, .impl, .text]

/-- The columns of a table for these fields: the two numbers, and those of the fields, in order. -/
structure Columns (f : Flags) (cols : List Column) : Prop where
  order : cols.Sublist allColumns
  numbers : .spc ∈ cols ∧ .tst ∈ cols
  fields : ∀ x : Field, x.column ∈ cols ↔ Selected f x

/-- A table of artifacts: a line of titles, and a line for each, with a cell for each column. -/
def TableOf (arts : List Artifact) (f : Flags) (as : List Artifact) (rows : List (List (List Styled))) : Prop :=
  ∃ cols header body, Columns f cols ∧ rows = header :: body ∧
    List.Forall₂ (fun c cell => cell = [(⟨Column.title c, none, true, false⟩ : Styled)]) cols header ∧
    List.Forall₂ (fun a row => List.Forall₂ (CellShown arts a) cols row) as body

/-- There if wanted. -/
def Wanted (b : Bool) (P : List (List Styled) → Prop) (l : List (List Styled)) : Prop := (b = true → P l) ∧ (b = false → l = [])

/-- The lines about names: a title, and the names and the commas between them, one in each line. -/
def NameLines (arts : List Artifact) (title : Str) (names : List Name) (lines : List (List Styled)) : Prop :=
  ∃ l, Joined (NameShown arts) names l ∧ lines = [⟨title, none, true, false⟩] :: l.map (fun s => [⟨c!"- ", none, true, false⟩, s])

/-- The lines about an artifact in the long form. -/
def LongLines (arts : List Artifact) (f : Flags) (a : Artifact) (lines : List (List Styled)) : Prop :=
  ∃ k n spc tst file impl parts partof text,
    lines = [⟨c!"# ", none, true, false⟩, ⟨n, some k, true, false⟩] ::
      [⟨c!"Completed: spc=", none, true, false⟩, spc, ⟨c!"%  tst=", none, true, false⟩, tst, ⟨c!"%", none, true, false⟩] ::
      (file ++ impl ++ parts ++ partof ++ text ++ [[⟨c!"\n\n", none, false, false⟩]]) ∧
    n = a.name.raw ∧ a.completed.termColor = .ok k ∧
    CellShown arts a .spc [spc] ∧ CellShown arts a .tst [tst] ∧
    Wanted f.file (fun l => l = [[⟨c!"File: ", none, true, false⟩, ⟨a.file, none, false, false⟩]]) file ∧
    Wanted f.impl (fun l => ∃ t, ImplShown a.impl t ∧ l = [[⟨c!"Implemented: ", none, true, false⟩, ⟨t, none, false, false⟩]]) impl ∧
    Wanted f.parts (NameLines arts c!"Parts:" a.parts) parts ∧
    Wanted f.partof (NameLines arts c!"Partof:" a.partof) partof ∧
    Wanted f.text (fun l => ∃ t w, a.text = t ++ w ∧ (∀ c ∈ w, isWS c = true) ∧ (∀ c, t.getLast? = some c → isWS c = false) ∧
      l = [[⟨t, none, false, false⟩]]) text

/-- The long form of some artifacts: their lines one after the other. -/
def LongOf (arts : List Artifact) (f : Flags) (as : List Artifact) (pieces : List Styled) : Prop :=
  ∃ lines, List.Forall₂ (LongLines arts f) as lines ∧
    pieces = lines.flatten.flatMap (fun l => l ++ [(⟨c!"\n", none, false, false⟩ : Styled)])

end Art.Spec
