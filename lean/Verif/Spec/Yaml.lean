import Verif.Model.Yaml
import Verif.Spec.Json

/-!
# YAML texts
A part of the grammar of YAML 1.2 (2009), written down without regard to how texts are read or written: the attributes `done` and `partof`.
The numbers of the productions are those of the standard.
-/

namespace Art.Spec

/-- A character that can be printed and is not a line end (27, `nb-char`). -/
def YamlChar (c : Char) : Prop :=
  c = '\t' ∨ (0x20 ≤ c.toNat ∧ c.toNat ≤ 0x7e) ∨ c.toNat = 0x85 ∨ (0xa0 ≤ c.toNat ∧ c.toNat ≤ 0xd7ff) ∨ (0xe000 ≤ c.toNat ∧ c.toNat ≤ 0xfffd ∧ c.toNat ≠ 0xfeff) ∨
    0x10000 ≤ c.toNat

/-- A space or a tab (33, `s-white`). -/
def YamlBlank (c : Char) : Prop := c = ' ' ∨ c = '\t'

/-- The characters with a meaning (22, `c-indicator`). -/
def YamlIndicator (c : Char) : Prop :=
  c ∈ ['-', '?', ':', ',', '[', ']', '{', '}', '#', '&', '*', '!', '|', '>', '\'', '"', '%', '@', '`']

/-- A text without quotes on one line (133, `ns-plain-one-line`, outside of flow collections): it neither begins nor ends with a blank, does not begin with an
indicator (except `-`, `?`, `:` before a character that is not blank), and has no `#` after a blank and no `:` before a blank or at the end. -/
structure YamlPlainText (s : Str) : Prop where
  chars : ∀ c ∈ s, YamlChar c
  first : ∃ c, s.head? = some c ∧ ¬ YamlBlank c ∧ (YamlIndicator c → c ∈ ['-', '?', ':'] ∧ ∃ d, s[1]? = some d ∧ ¬ YamlBlank d)
  last : ∀ c, s.getLast? = some c → ¬ YamlBlank c
  comment : ∀ a b, s = a ++ '#' :: b → ∀ c, a.getLast? = some c → ¬ YamlBlank c
  colon : ∀ a b, s = a ++ ':' :: b → ∃ c, b.head? = some c ∧ ¬ YamlBlank c

/-- Hexadecimal digits and the number that they are. -/
inductive HexIs : Str → Nat → Prop
  | nil : HexIs [] 0
  | snoc {s n c d} : HexIs s n → HexDigit c d → HexIs (s ++ [c]) (16 * n + d)

/-- A character within double quotes (107, `nb-double-char`, and 41 to 62). -/
inductive YamlDoubleChar : Str → Char → Prop
  | itself {c : Char} : c = '\t' ∨ 0x20 ≤ c.toNat → c ≠ '"' → c ≠ '\\' → YamlDoubleChar [c] c
  | short {e : Char} {n : Nat} : (e, n) ∈ [('0', 0), ('a', 7), ('b', 8), ('t', 9), ('\t', 9), ('n', 10), ('v', 11), ('f', 12), ('r', 13), ('e', 27), (' ', 0x20), ('"', 0x22),
      ('/', 0x2f), ('\\', 0x5c), ('N', 0x85), ('_', 0xa0), ('L', 0x2028), ('P', 0x2029)] → YamlDoubleChar ['\\', e] (Char.ofNat n)
  | hex {e : Char} {k : Nat} {s : Str} {c : Char} : (e, k) ∈ [('x', 2), ('u', 4), ('U', 8)] → HexIs s c.toNat → s.length = k → YamlDoubleChar ('\\' :: e :: s) c

/-- The characters within double quotes. -/
inductive YamlDoubleChars : Str → Str → Prop
  | nil : YamlDoubleChars [] []
  | cons {s t c r} : YamlDoubleChar s c → YamlDoubleChars t r → YamlDoubleChars (s ++ t) (c :: r)

/-- The characters within single quotes (118, `nb-single-char`). -/
inductive YamlSingleChars : Str → Str → Prop
  | nil : YamlSingleChars [] []
  | quote {t r} : YamlSingleChars t r → YamlSingleChars ('\'' :: '\'' :: t) ('\'' :: r)
  | itself {c : Char} {t r} : c = '\t' ∨ 0x20 ≤ c.toNat → c ≠ '\'' → YamlSingleChars t r → YamlSingleChars (c :: t) (c :: r)

/-- A text on one line and what it says. Plain texts that stand for null (10.3.2) are left out. -/
inductive YamlScalarIs : Str → Str → Prop
  | plain {s} : YamlPlainText s → s ∉ [c!"~", c!"null", c!"Null", c!"NULL"] → YamlScalarIs s s
  | double {i t} : YamlDoubleChars i t → YamlScalarIs ('"' :: i ++ ['"']) t
  | single {i t} : YamlSingleChars i t → YamlScalarIs ('\'' :: i ++ ['\'']) t

/-- The keys. -/
def YamlKey (k : Str) : Prop := k = c!"done" ∨ k = c!"partof"

/-- What a line is. -/
inductive YamlLineIs : Str → YLine → Prop
  | blank {i} : YamlLineIs (List.replicate i ' ') .skip
  | comment {i c} : (∀ x ∈ c, YamlChar x) → YamlLineIs (List.replicate i ' ' ++ '#' :: c) .skip
  | key {k} : YamlKey k → YamlLineIs (k ++ c!":") (.key k)
  | pair {k i s v} : YamlKey k → YamlScalarIs s v → YamlLineIs (k ++ ':' :: List.replicate (i + 1) ' ' ++ s) (.pair k v)
  | item {i j s v} : YamlScalarIs s v → YamlLineIs (List.replicate i ' ' ++ '-' :: List.replicate (j + 1) ' ' ++ s) (.item i v)

/-- The items of a list, all with the same indentation. -/
inductive YamlItems (i : Nat) : List YLine → List Str → Prop
  | nil : YamlItems i [] []
  | skip {ls vs} : YamlItems i ls vs → YamlItems i (.skip :: ls) vs
  | item {v ls vs} : YamlItems i ls vs → YamlItems i (.item i v :: ls) (v :: vs)

/-- The entries of a mapping (189, `l+block-mapping`). -/
inductive YamlEntries : List YLine → List (Str × NamesDoc) → Prop
  | nil : YamlEntries [] []
  | skip {ls es} : YamlEntries ls es → YamlEntries (.skip :: ls) es
  | pair {k v ls es} : YamlEntries ls es → YamlEntries (.pair k v :: ls) ((k, .str v) :: es)
  | list {k i items vs ls es} : YamlItems i items vs → vs ≠ [] → YamlEntries ls es → YamlEntries (.key k :: items ++ ls) ((k, .seq vs) :: es)

/-- Every attribute at most once, in any order, and `done` is a text. -/
inductive AttrsAre : List (Str × NamesDoc) → Option Str × Option NamesDoc → Prop
  | done {d} : AttrsAre [(c!"done", .str d)] (some d, none)
  | partof {p} : AttrsAre [(c!"partof", p)] (none, some p)
  | donePartof {d p} : AttrsAre [(c!"done", .str d), (c!"partof", p)] (some d, some p)
  | partofDone {d p} : AttrsAre [(c!"partof", p), (c!"done", .str d)] (some d, some p)

/-- The text `s` says that the attributes are `v`. -/
def YamlAttrsText (s : Str) (v : Option Str × Option NamesDoc) : Prop :=
  ∃ ls ys es, ls ≠ [] ∧ (∀ l ∈ ls, '\n' ∉ l) ∧ s = joinLines ls ∧ List.Forall₂ YamlLineIs ls ys ∧ YamlEntries ys es ∧ AttrsAre es v

/-- What is asked of the YAML library: texts of the grammar above are read as what they say, and `done` is written as yaml-rust does, whatever it takes for a number. -/
structure YamlLib (L : Libs) (num : Str → Bool) : Prop where
  reads : ∀ s v, YamlAttrsText s v → L.yamlRead s = some v
  writes : ∀ d, L.yamlDone d = yamlDoneLine num d

/-- A text for `done` that is kept, whatever the library takes for a number: no character that cannot be printed, and if it ends with white space, then with white space that
is put in quotes. -/
def DoneOk (d : Str) : Prop := (∀ c ∈ d, YamlChar c ∨ c = '\n' ∨ c = '\r') ∧ ∀ c, d.getLast? = some c → isWS c = true → c ∈ [' ', '\t', '\n', '\r']

/-- A text for `done` that is kept: it is put in quotes, or has no character that cannot be printed and does not end with white space. -/
def DoneKept (num : Str → Bool) (d : Str) : Prop :=
  needQuotes num d = true ∨ ((∀ c ∈ d, YamlChar c) ∧ ∀ c, d.getLast? = some c → isWS c = false)

/-- What comes back for `done`: without `partof`, white space at the end is lost unless it is in quotes. -/
def doneBack (num : Str → Bool) (r : ArtifactRaw) : ArtifactRaw :=
  { r with done := r.done.map fun d => if r.partof = none ∧ needQuotes num d = false then trimEnd d else d }

end Art.Spec
