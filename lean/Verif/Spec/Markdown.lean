import Verif.Model.Raw

/-!
# Specification of the markdown format

The line classes are given by concatenation, without the regular expression engine; the written lines are listed, without the string
buffer of the formatter.
-/

namespace Art.Spec

/-- Only whitespace. -/
def AllBlank (w : Str) : Prop := ∀ c ∈ w, isWS c = true

/-- A line that starts an artifact: the prefix (up to case), `#` and a name, with blanks around the name. -/
def NameLine (fold : Char → Char) (pre l : Str) : Prop :=
  ∃ p w n w', l = p ++ '#' :: (w ++ (n ++ w')) ∧ p.map fold = pre.map fold ∧ AllBlank w ∧ Re.Lang nameRe n ∧ AllBlank w'

/-- A line that ends the attributes: three or more `#`. -/
def EndLine (l : Str) : Prop := ∃ k w, AllBlank w ∧ l = List.replicate (k + 3) '#' ++ w

/-- A line that opens an attribute block: three backquotes, anything, and `art` as a word of its own. -/
def FenceLine (l : Str) : Prop :=
  ∃ x k w, AllBlank w ∧ (AllBlank x ∨ ∃ y v, x = y ++ v ∧ '\n' ∉ y ∧ v ≠ [] ∧ AllBlank v) ∧
    l = c!"```" ++ (x ++ (c!"ar" ++ (List.replicate (k + 1) 't' ++ w)))

/-- A line that only is text. -/
def TextLine (fold : Char → Char) (pre l : Str) : Prop := ¬ NameLine fold pre l ∧ ¬ EndLine l ∧ ¬ FenceLine l

/-- Text that is safe in a markdown file. -/
structure TextOk (fold : Char → Char) (pre t : Str) : Prop where
  ne : t ≠ []
  clean : cleanText t = t
  crlf : ¬ c!"\r\n" <:+: t
  line : ∀ l ∈ lines t, TextLine fold pre l

/-- Text that a single artifact keeps: no carriage return at the end of a line, and only text lines, except that the last line may open an
attribute block if the artifact has no attributes. -/
def TextKept (fold : Char → Char) (pre : Str) (noAttrs : Prop) (t : Str) : Prop :=
  ¬ c!"\r\n" <:+: t ∧ ∃ init last, lines t = init ++ [last] ∧ (∀ l ∈ init, TextLine fold pre l) ∧
    (TextLine fold pre last ∨ (noAttrs ∧ ¬ NameLine fold pre last ∧ FenceLine last))

/-- The links as the YAML library reports them. -/
def partofDoc : ISet Name → NamesDoc
  | [n] => .str n.raw
  | l => .seq (l.map Name.raw)

/-- The lines of the `partof` attribute. -/
def partofLines : ISet Name → List Str
  | [n] => [c!"partof: " ++ n.raw]
  | l => c!"partof:" :: l.map (fun n => c!"- " ++ n.raw)

/-- The lines of the attributes. -/
def attrLines (L : Libs) (r : ArtifactRaw) : List Str :=
  match r.done, r.partof with
  | some d, some p => L.yamlDone d :: [] :: partofLines p
  | some d, none => [L.yamlDone d]
  | none, some p => partofLines p
  | none, none => []

/-- What is asked of the YAML library for one artifact: the `done` attribute is written on one line, in quotes if it has a `#`, and the
attributes are read back. -/
structure YamlOk (L : Libs) (r : ArtifactRaw) : Prop where
  key : ∀ d, r.done = some d → c!"done:" <+: L.yamlDone d
  oneLine : ∀ d, r.done = some d → '\n' ∉ L.yamlDone d
  visible : ∀ d, r.done = some d → ∃ c, (L.yamlDone d).getLast? = some c ∧ isWS c = false
  quoted : ∀ d, r.done = some d → '#' ∈ L.yamlDone d → (L.yamlDone d).getLast? = some '"'
  read : attrLines L r ≠ [] → L.yamlRead (joinLines (attrLines L r)) = some (r.done, r.partof.map partofDoc)

/-- An artifact that can be kept in a markdown file. -/
structure RawOk (L : Libs) (pre : Str) (r : ArtifactRaw) : Prop where
  partof : ∀ p, r.partof = some p → p ≠ [] ∧ ISet.Nodup p ∧ sortNames p = p
  text : ∀ t, r.text = some t → TextOk L.fold pre t
  yaml : YamlOk L r

/-- Settings written on one line each. -/
structure SettingsOk (pre : Str) (a : MdAttrs) : Prop where
  pre : '\n' ∉ pre
  attrs : ∀ p, a = .code (some p) → '\n' ∉ p

end Art.Spec
