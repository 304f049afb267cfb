import Verif.Model.Json

/-!
# YAML
The libraries serde_yaml 0.7.5 and yaml-rust 0.4.2 as the repository uses them for the attributes in markdown files: artifact-data/src/raw.rs L309 (reading), L395 and L423-427
(writing).

Simplifications: only a part of YAML is read here, namely the keys `done` and `partof` with texts on one line (plain, or in single or double quotes) or with a list of such texts, comment lines and blank
lines. For any other text the reader below says `none`, while the library may read it. The theorems about a library only use that it reads texts of this part as the
standard says. A plain text is never taken for a number or a truth value, because the fields of `AttrsRaw` (L293-298) are texts; one that stands for null is left out.
-/

namespace Art

/-! ## writing -/

/-- `escape_str` of yaml-rust: one character. Called through artifact-data/src/raw.rs L424. -/
def yamlChar (c : Char) : Str :=
  if c = '"' then c!"\\\""
  else if c = '\\' then c!"\\\\"
  else if c.toNat = 8 then c!"\\b"
  else if c = '\t' then c!"\\t"
  else if c = '\n' then c!"\\n"
  else if c.toNat = 12 then c!"\\f"
  else if c = '\r' then c!"\\r"
  else if c.toNat < 32 ∨ c.toNat = 127 then c!"\\u00" ++ [hexDigit (c.toNat / 16), hexDigit (c.toNat % 16)]
  else [c]

/-- `escape_str` of yaml-rust. Called through artifact-data/src/raw.rs L424. -/
def yamlQuoted (s : Str) : Str := '"' :: s.flatMap yamlChar ++ ['"']

/-- The characters that need quotes at the beginning, in `need_quotes` of yaml-rust. Called through artifact-data/src/raw.rs L424. -/
def yamlFirst (c : Char) : Bool := c!"&*?|-<>=!%@. ".contains c

/-- The characters that need quotes anywhere, in `need_quotes` of yaml-rust. Called through artifact-data/src/raw.rs L424. -/
def yamlInside (c : Char) : Bool :=
  c!":{}[],#`\"'\\\t\n\r".contains c || c.toNat ≤ 6 || (0xe ≤ c.toNat && c.toNat ≤ 0x1a) || (0x1c ≤ c.toNat && c.toNat ≤ 0x1f)

/-- The words that need quotes, in `need_quotes` of yaml-rust. Called through artifact-data/src/raw.rs L424. -/
def yamlWords : List Str :=
  [c!"yes", c!"Yes", c!"YES", c!"no", c!"No", c!"NO", c!"True", c!"TRUE", c!"true", c!"False", c!"FALSE", c!"false", c!"on", c!"On", c!"ON", c!"off", c!"Off", c!"OFF",
   c!"null", c!"Null", c!"NULL", c!"~"]

/-- `need_quotes` of yaml-rust. `num` says which texts are numbers (`parse::<i64>` and `parse::<f64>`); it can be any function. Called through artifact-data/src/raw.rs L424. -/
def needQuotes (num : Str → Bool) (s : Str) : Bool :=
  s.isEmpty || s.head?.any yamlFirst || s.getLast? == some ' ' || s.any yamlInside || yamlWords.contains s || num s

/-- How `yaml::to_string` writes a text. Called through artifact-data/src/raw.rs L424. -/
def yamlScalar (num : Str → Bool) (s : Str) : Str := if needQuotes num s then yamlQuoted s else s

/-- `to_yaml(&hashmap!{"done" => done})`, artifact-data/src/raw.rs L395 and L423-427: without the line `---` that the library begins with. -/
def yamlDoneLine (num : Str → Bool) (d : Str) : Str := c!"done: " ++ yamlScalar num d

/-! ## reading -/

/-- So many hexadecimal digits, in the escapes of yaml-rust and of toml. Called through artifact-data/src/raw.rs L182, L309. -/
def hexRead : Nat → Nat → Str → Option (Nat × Str)
  | 0, n, r => some (n, r)
  | k + 1, n, c :: r => do
    let d ← hexVal c
    hexRead k (16 * n + d) r
  | _ + 1, _, [] => none

/-- A character given by its number, in the escapes of yaml-rust and of toml. Called through artifact-data/src/raw.rs L182, L309. -/
def hexChar (k : Nat) (s : Str) : Option (Char × Str) := do
  let (n, r) ← hexRead k 0 s
  if (Char.ofNat n).toNat = n then some (Char.ofNat n, r) else none

/-- What follows a backslash: `scan_flow_scalar` of yaml-rust. Called through artifact-data/src/raw.rs L309. -/
def yamlEscape : Str → Option (Char × Str)
  | [] => none
  | e :: r =>
    if e = '0' then some (Char.ofNat 0, r)
    else if e = 'a' then some (Char.ofNat 7, r)
    else if e = 'b' then some (Char.ofNat 8, r)
    else if e = 't' ∨ e = '\t' then some ('\t', r)
    else if e = 'n' then some ('\n', r)
    else if e = 'v' then some (Char.ofNat 11, r)
    else if e = 'f' then some (Char.ofNat 12, r)
    else if e = 'r' then some ('\r', r)
    else if e = 'e' then some (Char.ofNat 27, r)
    else if e = ' ' ∨ e = '"' ∨ e = '/' ∨ e = '\\' then some (e, r)
    else if e = 'N' then some (Char.ofNat 0x85, r)
    else if e = '_' then some (Char.ofNat 0xA0, r)
    else if e = 'L' then some (Char.ofNat 0x2028, r)
    else if e = 'P' then some (Char.ofNat 0x2029, r)
    else if e = 'x' then hexChar 2 r
    else if e = 'u' then hexChar 4 r
    else if e = 'U' then hexChar 8 r
    else none

/-- The rest of a text in double quotes on one line: `scan_flow_scalar` of yaml-rust. The first argument is how many characters there can be.
Called through artifact-data/src/raw.rs L309. -/
def yamlDouble : Nat → Str → Option Str
  | 0, _ => none
  | _ + 1, [] => none
  | n + 1, c :: r =>
    if c = '"' then (if r = [] then some [] else none)
    else if c = '\\' then do
      let (d, r) ← yamlEscape r
      let t ← yamlDouble n r
      pure (d :: t)
    else if c = '\t' ∨ 32 ≤ c.toNat then do
      let t ← yamlDouble n r
      pure (c :: t)
    else none

/-- The rest of a text in single quotes on one line: `scan_flow_scalar` of yaml-rust. Called through artifact-data/src/raw.rs L309. -/
def yamlSingle : Str → Option Str
  | [] => none
  | '\'' :: r =>
    match r with
    | [] => some []
    | '\'' :: r => do
      let t ← yamlSingle r
      pure ('\'' :: t)
    | _ => none
  | c :: r =>
    if c = '\t' ∨ 32 ≤ c.toNat then do
      let t ← yamlSingle r
      pure (c :: t)
    else none

/-- The characters that the standard allows outside of quotes (`nb-char`). Called through artifact-data/src/raw.rs L309. -/
def yamlPrintable (c : Char) : Bool :=
  let n := c.toNat
  n == 9 || (0x20 ≤ n && n ≤ 0x7e) || n == 0x85 || (0xa0 ≤ n && n ≤ 0xd7ff) || (0xe000 ≤ n && n ≤ 0xfffd && n != 0xfeff) || 0x10000 ≤ n

/-- White space within a line. Called through artifact-data/src/raw.rs L309. -/
def yamlWhite (c : Char) : Bool := c == ' ' || c == '\t'

/-- The indicators, `scan_plain_scalar` and `fetch_next_token` of yaml-rust. Called through artifact-data/src/raw.rs L309. -/
def yamlIndicator (c : Char) : Bool := c!"-?:,[]{}#&*!|>'\"%@`".contains c

/-- A character that is not white space comes next: `scan_plain_scalar` of yaml-rust. Called through artifact-data/src/raw.rs L309. -/
def yamlSolid : Str → Bool
  | [] => false
  | d :: _ => !yamlWhite d

/-- The rest of a plain text: `scan_plain_scalar` of yaml-rust. `prev` is the character before. Called through artifact-data/src/raw.rs L309. -/
def yamlPlainRest : Char → Str → Bool
  | prev, [] => !yamlWhite prev
  | prev, c :: r =>
    yamlPrintable c && (c != '#' || !yamlWhite prev) && (c != ':' || yamlSolid r) && yamlPlainRest c r

/-- A plain text on one line: `scan_plain_scalar` of yaml-rust. Called through artifact-data/src/raw.rs L309. -/
def yamlPlain : Str → Bool
  | [] => false
  | c :: r =>
    yamlPrintable c && !yamlWhite c &&
    (!yamlIndicator c || ((c == '-' || c == '?' || c == ':') && yamlSolid r)) && yamlPlainRest c r

/-- A text on one line. Plain texts that stand for null are left out. Called through artifact-data/src/raw.rs L309. -/
def yamlScalarRead : Str → Option Str
  | [] => none
  | c :: r =>
    if c = '"' then yamlDouble r.length r
    else if c = '\'' then yamlSingle r
    else if yamlPlain (c :: r) ∧ c :: r ∉ [c!"~", c!"null", c!"Null", c!"NULL"] then some (c :: r) else none

/-- What a line is: blank or a comment, a key alone, a key with a text, or an item of a list with its indentation. Called through artifact-data/src/raw.rs L309. -/
inductive YLine where
  | skip
  | key (k : Str)
  | pair (k v : Str)
  | item (i : Nat) (v : Str)
  deriving DecidableEq

/-- What follows a key and its colon. Called through artifact-data/src/raw.rs L309. -/
def yamlAfterKey (k : Str) : Str → Option YLine
  | [] => some (.key k)
  | ' ' :: r => (yamlScalarRead (r.dropWhile (· == ' '))).map (.pair k)
  | _ => none

/-- A line that begins with a key. Called through artifact-data/src/raw.rs L309. -/
def yamlKeyLine (l : Str) : Option YLine :=
  if c!"done:" <+: l then yamlAfterKey c!"done" (l.drop 5)
  else if c!"partof:" <+: l then yamlAfterKey c!"partof" (l.drop 7)
  else none

/-- One line. Called through artifact-data/src/raw.rs L309. -/
def yamlLine (l : Str) : Option YLine :=
  match l.dropWhile (· == ' ') with
  | [] => some .skip
  | '#' :: c => if c.all yamlPrintable then some .skip else none
  | '-' :: ' ' :: s => (yamlScalarRead (s.dropWhile (· == ' '))).map (.item (l.takeWhile (· == ' ')).length)
  | _ => yamlKeyLine l

/-- The lines put together, from the last to the first: the items that wait for their key, and the entries. Called through artifact-data/src/raw.rs L309. -/
def yamlFold : List YLine → Option (Option (Nat × List Str) × List (Str × NamesDoc))
  | [] => some (none, [])
  | .skip :: ls => yamlFold ls
  | .item i v :: ls =>
    match yamlFold ls with
    | some (none, es) => some (some (i, [v]), es)
    | some (some (j, vs), es) => if i = j then some (some (i, v :: vs), es) else none
    | none => none
  | .pair k v :: ls =>
    match yamlFold ls with
    | some (none, es) => some (none, (k, .str v) :: es)
    | _ => none
  | .key k :: ls =>
    match yamlFold ls with
    | some (some (_, vs), es) => some (none, (k, .seq vs) :: es)
    | _ => none

/-- The derived `Deserialize` of `AttrsRaw`: artifact-data/src/raw.rs L293-298. Every key at most once. -/
def yamlAttrs : List (Str × NamesDoc) → Option (Option Str × Option NamesDoc)
  | [(k, v)] =>
    if k = c!"partof" then some (none, some v)
    else match v with
      | .str d => some (some d, none)
      | _ => none
  | [(k, v), (k', v')] =>
    if k = c!"done" ∧ k' = c!"partof" then
      match v with
      | .str d => some (some d, some v')
      | _ => none
    else if k = c!"partof" ∧ k' = c!"done" then
      match v' with
      | .str d => some (some d, some v)
      | _ => none
    else none
  | _ => none

/-- Lines are ended by line feeds. Called through artifact-data/src/raw.rs L309. -/
def splitLf : Str → List Str
  | [] => [[]]
  | c :: r =>
    if c = '\n' then [] :: splitLf r
    else match splitLf r with
      | [] => [[c]]
      | l :: ls => (c :: l) :: ls

/-- The attributes that the lines give. Called through artifact-data/src/raw.rs L309. -/
def yamlLines (ls : List YLine) : Option (Option Str × Option NamesDoc) :=
  match yamlFold ls with
  | some (none, es) => yamlAttrs es
  | _ => none

/-- `yaml::from_str::<AttrsRaw>` for the part of YAML that is read here, artifact-data/src/raw.rs L309. -/
def yamlText (s : Str) : Option (Option Str × Option NamesDoc) := do
  let ls ← (splitLf s).mapM yamlLine
  yamlLines ls

/-- The libraries with this one for YAML: artifact-data/src/raw.rs L309, L424. -/
def Libs.withYaml (L : Libs) (num : Str → Bool) : Libs := { L with yamlRead := yamlText, yamlDone := yamlDoneLine num }

end Art
