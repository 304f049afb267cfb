import Verif.Model.Json

/-!
# JSON texts
The grammar of RFC 8259, written down without regard to how texts are read or written.
-/

namespace Art.Spec

/-- White space (RFC 8259 section 2). -/
def JsonWs (s : Str) : Prop := ∀ c ∈ s, c ∈ [' ', '\t', '\n', '\r']

/-- One or more digits. -/
def JsonDigits (s : Str) : Prop := s ≠ [] ∧ ∀ c ∈ s, c ∈ c!"0123456789"

/-- `int` (RFC 8259 section 6). -/
def JsonInt (s : Str) : Prop := s = ['0'] ∨ JsonDigits s ∧ s.head? ≠ some '0'

/-- `[ frac ]`. -/
def JsonFrac (s : Str) : Prop := s = [] ∨ ∃ d, JsonDigits d ∧ s = '.' :: d

/-- `[ exp ]`. -/
def JsonExp (s : Str) : Prop := s = [] ∨ ∃ e sign d, (e = 'e' ∨ e = 'E') ∧ (sign = [] ∨ sign = ['+'] ∨ sign = ['-']) ∧ JsonDigits d ∧ s = e :: sign ++ d

/-- `number` (RFC 8259 section 6). -/
def JsonNum (s : Str) : Prop :=
  ∃ m i f e, (m = [] ∨ m = ['-']) ∧ JsonInt i ∧ JsonFrac f ∧ JsonExp e ∧ s = m ++ i ++ f ++ e

/-- The value of a hexadecimal digit. -/
def HexDigit (c : Char) (n : Nat) : Prop := n < 16 ∧ (c!"0123456789abcdef"[n]? = some c ∨ c!"0123456789ABCDEF"[n]? = some c)

/-- `4HEXDIG`: a UTF-16 code unit. -/
def CodeUnit (s : Str) (n : Nat) : Prop :=
  ∃ a b c d i j k l, s = [a, b, c, d] ∧ HexDigit a i ∧ HexDigit b j ∧ HexDigit c k ∧ HexDigit d l ∧ n = i * 4096 + j * 256 + k * 16 + l

/-- A character of a string as it can be written (RFC 8259 section 7). Characters that are two UTF-16 code units are written `\uXXXX\uYYYY`. -/
inductive JsonCharText : Str → Char → Prop
  | unescaped {c : Char} : 0x20 ≤ c.toNat → c ≠ '"' → c ≠ '\\' → JsonCharText [c] c
  | quote : JsonCharText c!"\\\"" '"'
  | backslash : JsonCharText c!"\\\\" '\\'
  | slash : JsonCharText c!"\\/" '/'
  | backspace : JsonCharText c!"\\b" (Char.ofNat 8)
  | formFeed : JsonCharText c!"\\f" (Char.ofNat 12)
  | lineFeed : JsonCharText c!"\\n" '\n'
  | carriageReturn : JsonCharText c!"\\r" '\r'
  | tab : JsonCharText c!"\\t" '\t'
  | unit {s c} : CodeUnit s c.toNat → JsonCharText (c!"\\u" ++ s) c
  | pair {s t hi lo} {c : Char} : CodeUnit s hi → CodeUnit t lo → 0xD800 ≤ hi → hi < 0xDC00 → 0xDC00 ≤ lo → lo < 0xE000 →
      c.toNat = 0x10000 + (hi - 0xD800) * 0x400 + (lo - 0xDC00) → JsonCharText (c!"\\u" ++ s ++ c!"\\u" ++ t) c

/-- The characters of a string, one after the other. -/
inductive JsonChars : Str → Str → Prop
  | nil : JsonChars [] []
  | cons {s t c r} : JsonCharText s c → JsonChars t r → JsonChars (s ++ t) (c :: r)

/-- `string` (RFC 8259 section 7). -/
def JsonStrText (s t : Str) : Prop := ∃ i, JsonChars i t ∧ s = '"' :: i ++ ['"']

mutual
/-- `value` (RFC 8259 section 3): the text `s` is the value `v`. -/
inductive JsonValue : Str → Json → Prop
  | null : JsonValue c!"null" .null
  | true : JsonValue c!"true" (.bool true)
  | false : JsonValue c!"false" (.bool false)
  | num {s} : JsonNum s → JsonValue s (.num s)
  | str {s t} : JsonStrText s t → JsonValue s (.str t)
  | arrEmpty {w} : JsonWs w → JsonValue ('[' :: w ++ c!"]") (.arr [])
  | arr {s l} : JsonElems s l → JsonValue ('[' :: s ++ c!"]") (.arr l)
  | objEmpty {w} : JsonWs w → JsonValue ('{' :: w ++ c!"}") (.obj [])
  | obj {s l} : JsonMembers s l → JsonValue ('{' :: s ++ c!"}") (.obj l)
/-- One or more values with commas between them (section 5). -/
inductive JsonElems : Str → List Json → Prop
  | one {w s w' v} : JsonWs w → JsonValue s v → JsonWs w' → JsonElems (w ++ s ++ w') [v]
  | cons {w s w' v r l} : JsonWs w → JsonValue s v → JsonWs w' → JsonElems r l → JsonElems (w ++ s ++ w' ++ ',' :: r) (v :: l)
/-- One or more members with commas between them (section 4). -/
inductive JsonMembers : Str → List (Str × Json) → Prop
  | one {w k w₁ w₂ s w' n v} : JsonWs w → JsonStrText k n → JsonWs w₁ → JsonWs w₂ → JsonValue s v → JsonWs w' →
      JsonMembers (w ++ k ++ w₁ ++ ':' :: w₂ ++ s ++ w') [(n, v)]
  | cons {w k w₁ w₂ s w' n v r l} : JsonWs w → JsonStrText k n → JsonWs w₁ → JsonWs w₂ → JsonValue s v → JsonWs w' → JsonMembers r l →
      JsonMembers (w ++ k ++ w₁ ++ ':' :: w₂ ++ s ++ w' ++ ',' :: r) ((n, v) :: l)
end

/-- `JSON-text` (RFC 8259 section 2). -/
def JsonText (s : Str) (v : Json) : Prop := ∃ w t w', JsonWs w ∧ JsonValue t v ∧ JsonWs w' ∧ s = w ++ t ++ w'

mutual
/-- How deep arrays and objects are nested. -/
def nesting : Json → Nat
  | .arr l => nestings l + 1
  | .obj l => nestingm l + 1
  | _ => 0
/-- The deepest of some values. -/
def nestings : List Json → Nat
  | [] => 0
  | v :: l => max (nesting v) (nestings l)
/-- The deepest of some members. -/
def nestingm : List (Str × Json) → Nat
  | [] => 0
  | (_, v) :: l => max (nesting v) (nestingm l)
end

mutual
/-- All numbers in the value are numbers. -/
def NumsOk : Json → Prop
  | .num s => JsonNum s
  | .arr l => NumsOks l
  | .obj l => NumsOkm l
  | _ => True
/-- … in some values. -/
def NumsOks : List Json → Prop
  | [] => True
  | v :: l => NumsOk v ∧ NumsOks l
/-- … in some members. -/
def NumsOkm : List (Str × Json) → Prop
  | [] => True
  | (_, v) :: l => NumsOk v ∧ NumsOkm l
end

/-! ## artifact files -/

/-- The value of the member called `k`, if there is one; there are not two. -/
def FieldIs (m : List (Str × Json)) (k : Str) (o : Option Json) : Prop :=
  (o = none ∧ ∀ e ∈ m, e.1 ≠ k) ∨ ∃ a v b, m = a ++ (k, v) :: b ∧ (∀ e ∈ a ++ b, e.1 ≠ k) ∧ o = some v

/-- A text that may be missing or `null`. -/
inductive OptStrIs : Option Json → Option Str → Prop
  | missing : OptStrIs none none
  | null : OptStrIs (some .null) none
  | str {s} : OptStrIs (some (.str s)) (some s)

/-- `partof`: missing, `null`, a text or texts. -/
inductive PartofIs : Option Json → Option NamesDoc → Prop
  | missing : PartofIs none none
  | null : PartofIs (some .null) none
  | one {s} : PartofIs (some (.str s)) (some (.str s))
  | many {l} : PartofIs (some (.arr (l.map .str))) (some (.seq l))

/-- An artifact in a file: an object, or an array of its three fields. -/
inductive ArtifactIs : Json → ArtDoc → Prop
  | obj {m d p t done partof text} : FieldIs m c!"done" d → FieldIs m c!"partof" p → FieldIs m c!"text" t →
      OptStrIs d done → PartofIs p partof → OptStrIs t text → ArtifactIs (.obj m) ⟨done, partof, text⟩
  | arr {d p t done partof text} : OptStrIs (some d) done → PartofIs (some p) partof → OptStrIs (some t) text →
      ArtifactIs (.arr [d, p, t]) ⟨done, partof, text⟩

end Art.Spec
