import Verif.Model.Raw

/-!
# JSON
The library serde_json 1.0.38 as the repository uses it: artifact files (artifact-data/src/raw.rs L186, artifact-data/src/modify.rs L364), the listing
(artifact-app/src/ls.rs L145), the messages between the page and the server (artifact-frontend/src/fetch.rs, artifact-app/src/serve/handler.rs), lints
(artifact-ser/src/lint.rs L107-121) and `Project::to_ser` (artifact-lib/src/lib.rs L411).

Simplifications: a text is read into a tree first and the values are taken from the tree afterwards, while the library does both at once; both fail on the same
texts, but not with the same message (there are no messages here). A number is kept as it is written.
-/

namespace Art

/-- A JSON value: `json::Value`, used at artifact-app/src/serve/handler.rs L77, except that the entries of an object keep their order and may
occur more than once, as in a text. -/
inductive Json where
  | null
  | bool (b : Bool)
  | num (s : Str)
  | str (s : Str)
  | arr (l : List Json)
  | obj (l : List (Str × Json))
  deriving Inhabited

/-! ## writing -/

/-- The digits that `json::to_string` uses in `\u00..` (serde_json, called at artifact-data/src/modify.rs L364). -/
def hexDigit (n : Nat) : Char := c!"0123456789abcdef".getD n '0'

/-- How `json::to_string` writes one character of a string (serde_json, called at artifact-data/src/modify.rs L364). -/
def jsonChar (c : Char) : Str :=
  if c = '"' then c!"\\\""
  else if c = '\\' then c!"\\\\"
  else if c.toNat = 8 then c!"\\b"
  else if c = '\t' then c!"\\t"
  else if c = '\n' then c!"\\n"
  else if c.toNat = 12 then c!"\\f"
  else if c = '\r' then c!"\\r"
  else if c.toNat < 32 then c!"\\u00" ++ [hexDigit (c.toNat / 16), hexDigit (c.toNat % 16)]
  else [c]

/-- How `json::to_string` writes a string (serde_json, called at artifact-data/src/modify.rs L364). -/
def jsonStr (s : Str) : Str := '"' :: s.flatMap jsonChar ++ ['"']

/-- How `json::to_string` writes a boolean (serde_json, called at artifact-frontend/src/fetch.rs L25). -/
def jsonBool : Bool → Str
  | true => c!"true"
  | false => c!"false"

mutual
/-- `json::to_string` (serde_json), called at artifact-data/src/modify.rs L364, artifact-app/src/serve/handler.rs L204 and artifact-frontend/src/fetch.rs L25. -/
def Json.show : Json → Str
  | .null => c!"null"
  | .bool b => jsonBool b
  | .num s => s
  | .str s => jsonStr s
  | .arr [] => c!"[]"
  | .arr (v :: l) => '[' :: v.show ++ showRest l ++ c!"]"
  | .obj [] => c!"{}"
  | .obj ((k, v) :: l) => '{' :: jsonStr k ++ ':' :: v.show ++ showFields l ++ c!"}"
termination_by structural v => v
/-- The elements of an array after the first. Called through artifact-data/src/modify.rs L364. -/
def showRest : List Json → Str
  | [] => []
  | v :: l => ',' :: v.show ++ showRest l
termination_by structural l => l
/-- The entries of an object after the first. Called through artifact-data/src/modify.rs L364. -/
def showFields : List (Str × Json) → Str
  | [] => []
  | (k, v) :: l => ',' :: jsonStr k ++ ':' :: v.show ++ showFields l
termination_by structural l => l
end

/-- A new line and the indentation of `json::to_string_pretty`: two spaces per level (serde_json, called at artifact-app/src/ls.rs L145). -/
def indentLine (i : Nat) : Str := '\n' :: List.replicate (2 * i) ' '

mutual
/-- `json::to_string_pretty` (serde_json), called at artifact-app/src/ls.rs L145 and artifact-ser/src/lint.rs L112, L117; `i` is the level. -/
def Json.pretty (i : Nat) : Json → Str
  | .null => c!"null"
  | .bool b => jsonBool b
  | .num s => s
  | .str s => jsonStr s
  | .arr [] => c!"[]"
  | .arr (v :: l) => '[' :: indentLine (i + 1) ++ v.pretty (i + 1) ++ prettyRest (i + 1) l ++ indentLine i ++ c!"]"
  | .obj [] => c!"{}"
  | .obj ((k, v) :: l) => '{' :: indentLine (i + 1) ++ jsonStr k ++ c!": " ++ v.pretty (i + 1) ++ prettyFields (i + 1) l ++ indentLine i ++ c!"}"
termination_by structural v => v
/-- The elements of an array after the first. Called through artifact-app/src/ls.rs L145. -/
def prettyRest (i : Nat) : List Json → Str
  | [] => []
  | v :: l => ',' :: indentLine i ++ v.pretty i ++ prettyRest i l
termination_by structural l => l
/-- The entries of an object after the first. Called through artifact-app/src/ls.rs L145. -/
def prettyFields (i : Nat) : List (Str × Json) → Str
  | [] => []
  | (k, v) :: l => ',' :: indentLine i ++ jsonStr k ++ c!": " ++ v.pretty i ++ prettyFields i l
termination_by structural l => l
end

/-! ## reading -/

/-- The white space of `json::from_str` (serde_json, called at artifact-data/src/raw.rs L186). -/
def isJsonWs (c : Char) : Bool := c = ' ' || c = '\n' || c = '\t' || c = '\r'

/-- `parse_whitespace` of serde_json. Called through artifact-data/src/raw.rs L186. -/
def skipWs (s : Str) : Str := s.dropWhile isJsonWs

/-- A hexadecimal digit, in `decode_hex_escape` of serde_json. Called through artifact-data/src/raw.rs L186. -/
def hexVal (c : Char) : Option Nat :=
  if '0' ≤ c ∧ c ≤ '9' then some (c.toNat - 48)
  else if 'a' ≤ c ∧ c ≤ 'f' then some (c.toNat - 87)
  else if 'A' ≤ c ∧ c ≤ 'F' then some (c.toNat - 55)
  else none

/-- `decode_hex_escape` of serde_json: four digits. Called through artifact-data/src/raw.rs L186. -/
def hex4 : Str → Option (Nat × Str)
  | a :: b :: c :: d :: r => do
    let a ← hexVal a
    let b ← hexVal b
    let c ← hexVal c
    let d ← hexVal d
    pure (((a * 16 + b) * 16 + c) * 16 + d, r)
  | _ => none

/-- `parse_escape` of serde_json: what follows a backslash. Half of a surrogate pair is refused. Called through artifact-data/src/raw.rs L186. -/
def readEscape : Str → Option (Char × Str)
  | '"' :: r => some ('"', r)
  | '\\' :: r => some ('\\', r)
  | '/' :: r => some ('/', r)
  | 'b' :: r => some (Char.ofNat 8, r)
  | 'f' :: r => some (Char.ofNat 12, r)
  | 'n' :: r => some ('\n', r)
  | 'r' :: r => some ('\r', r)
  | 't' :: r => some ('\t', r)
  | 'u' :: r => do
    let (n, r) ← hex4 r
    if 0xDC00 ≤ n ∧ n ≤ 0xDFFF then none
    else if 0xD800 ≤ n ∧ n ≤ 0xDBFF then
      match r with
      | '\\' :: 'u' :: r => do
        let (m, r) ← hex4 r
        if 0xDC00 ≤ m ∧ m ≤ 0xDFFF then some (Char.ofNat ((n - 0xD800) * 0x400 + (m - 0xDC00) + 0x10000), r) else none
      | _ => none
    else some (Char.ofNat n, r)
  | _ => none

/-- `parse_str` of serde_json: what follows the first quote. The first argument is how many characters there can be. Called through artifact-data/src/raw.rs L186. -/
def readStr : Nat → Str → Option (Str × Str)
  | 0, _ => none
  | _ + 1, [] => none
  | n + 1, c :: r =>
    if c = '"' then some ([], r)
    else if c = '\\' then do
      let (d, r) ← readEscape r
      let (s, r) ← readStr n r
      pure (d :: s, r)
    else if c.toNat < 32 then none
    else do
      let (s, r) ← readStr n r
      pure (c :: s, r)

/-- A decimal digit in `parse_number` of serde_json. Called through artifact-data/src/raw.rs L186. -/
def isDig (c : Char) : Bool := '0' ≤ c && c ≤ '9'

/-- At least one digit: `parse_decimal` and `parse_exponent` of serde_json. Called through artifact-data/src/raw.rs L186. -/
def digits1 (s : Str) : Option (Str × Str) :=
  match s.takeWhile isDig with
  | [] => none
  | d => some (d, s.dropWhile isDig)

/-- `parse_integer` of serde_json: no zero in front. Called through artifact-data/src/raw.rs L186. -/
def intPart : Str → Option (Str × Str)
  | '0' :: r => some (['0'], r)
  | s => digits1 s

/-- `parse_decimal` of serde_json, if there is a point. Called through artifact-data/src/raw.rs L186. -/
def fracPart : Str → Option (Str × Str)
  | '.' :: r => do
    let (d, r) ← digits1 r
    pure ('.' :: d, r)
  | r => some ([], r)

/-- The sign of the exponent in `parse_exponent` of serde_json. Called through artifact-data/src/raw.rs L186. -/
def expSign : Str → Str × Str
  | '+' :: r => (['+'], r)
  | '-' :: r => (['-'], r)
  | r => ([], r)

/-- `parse_exponent` of serde_json, if there is one. Called through artifact-data/src/raw.rs L186. -/
def expPart : Str → Option (Str × Str)
  | 'e' :: r => do
    let (d, r') ← digits1 (expSign r).2
    pure ('e' :: (expSign r).1 ++ d, r')
  | 'E' :: r => do
    let (d, r') ← digits1 (expSign r).2
    pure ('E' :: (expSign r).1 ++ d, r')
  | r => some ([], r)

/-- `parse_any_number` of serde_json without the sign. Called through artifact-data/src/raw.rs L186. -/
def unsignedNum (s : Str) : Option (Str × Str) := do
  let (i, r) ← intPart s
  let (f, r) ← fracPart r
  let (e, r) ← expPart r
  pure (i ++ f ++ e, r)

/-- `parse_any_number` of serde_json. Called through artifact-data/src/raw.rs L186. -/
def readNum : Str → Option (Str × Str)
  | '-' :: r => do
    let (t, r) ← unsignedNum r
    pure ('-' :: t, r)
  | r => unsignedNum r

/-- `SeqAccess` of serde_json after the first element. Called through artifact-data/src/raw.rs L186. -/
def arrRest (p : Str → Option (Json × Str)) : Nat → Str → Option (List Json × Str)
  | 0, _ => none
  | n + 1, s =>
    match skipWs s with
    | ']' :: r => some ([], r)
    | ',' :: r => do
      let (v, r) ← p r
      let (l, r) ← arrRest p n r
      pure (v :: l, r)
    | _ => none

/-- `SeqAccess` of serde_json: what follows the opening bracket. Called through artifact-data/src/raw.rs L186. -/
def readArr (p : Str → Option (Json × Str)) (s : Str) : Option (List Json × Str) :=
  match skipWs s with
  | ']' :: r => some ([], r)
  | s => do
    let (v, r) ← p s
    let (l, r) ← arrRest p r.length r
    pure (v :: l, r)

/-- `MapAccess` of serde_json: one entry, `parse_object_colon` included. Called through artifact-data/src/raw.rs L186. -/
def readEntryJson (p : Str → Option (Json × Str)) (s : Str) : Option ((Str × Json) × Str) :=
  match skipWs s with
  | '"' :: r => do
    let (k, r) ← readStr r.length r
    match skipWs r with
    | ':' :: r => do
      let (v, r) ← p r
      pure ((k, v), r)
    | _ => none
  | _ => none

/-- `MapAccess` of serde_json after the first entry. Called through artifact-data/src/raw.rs L186. -/
def objRest (p : Str → Option (Json × Str)) : Nat → Str → Option (List (Str × Json) × Str)
  | 0, _ => none
  | n + 1, s =>
    match skipWs s with
    | '}' :: r => some ([], r)
    | ',' :: r => do
      let (e, r) ← readEntryJson p r
      let (l, r) ← objRest p n r
      pure (e :: l, r)
    | _ => none

/-- `MapAccess` of serde_json: what follows the opening brace. Called through artifact-data/src/raw.rs L186. -/
def readObj (p : Str → Option (Json × Str)) (s : Str) : Option (List (Str × Json) × Str) :=
  match skipWs s with
  | '}' :: r => some ([], r)
  | s => do
    let (e, r) ← readEntryJson p s
    let (l, r) ← objRest p r.length r
    pure (e :: l, r)

/-- `parse_ident` of serde_json. Called through artifact-data/src/raw.rs L186. -/
def readIdent (w : Str) (v : Json) (s : Str) : Option (Json × Str) := if w <+: s then some (v, s.drop w.length) else none

/-- `deserialize_any` of serde_json: one value. The first argument is how deep arrays and objects may be nested in it (`remaining_depth`). Called through artifact-data/src/raw.rs L186. -/
def readValue (d : Nat) (s : Str) : Option (Json × Str) :=
  match skipWs s with
  | 'n' :: r => readIdent c!"ull" .null r
  | 't' :: r => readIdent c!"rue" (.bool true) r
  | 'f' :: r => readIdent c!"alse" (.bool false) r
  | '"' :: r => do
    let (t, r) ← readStr r.length r
    pure (.str t, r)
  | '[' :: r =>
    match d with
    | 0 => none
    | d + 1 => do
      let (l, r) ← readArr (readValue d) r
      pure (.arr l, r)
  | '{' :: r =>
    match d with
    | 0 => none
    | d + 1 => do
      let (l, r) ← readObj (readValue d) r
      pure (.obj l, r)
  | s => do
    let (t, r) ← readNum s
    pure (.num t, r)

/-- `json::from_str` (serde_json), called at artifact-data/src/raw.rs L186, artifact-frontend/src/fetch.rs L57, L160 and artifact-lib/src/lib.rs L411: the tree. Arrays and
objects nested more than 127 deep are refused (`remaining_depth` starts with 128 and must not become 0). -/
def Json.parse (s : Str) : Option Json := do
  let (v, r) ← readValue 127 s
  if skipWs r = [] then pure v else none

/-! ## taking values from the tree -/

/-- The derived `Deserialize` of a struct (for example artifact-data/src/raw.rs L39): one field of an object, missing fields and fields that occur twice. -/
def oneField (l : List (Str × Json)) (n : Str) : Option (Option Json) :=
  match l.filter (fun e => e.1 = n) with
  | [] => some none
  | [e] => some (some e.2)
  | _ => none

/-- The derived `Deserialize` of a struct, for example of `ArtifactRaw` (artifact-data/src/raw.rs L39): the values of the fields `names`. An object may lack fields and have
others, but has none of these twice; an array has them all in order. -/
def Json.fields (names : List Str) : Json → Option (List (Option Json))
  | .obj l => names.mapM (oneField l)
  | .arr l => if l.length = names.length then some (l.map some) else none
  | _ => none

/-- `Deserialize for String`. Called through artifact-data/src/raw.rs L186. -/
def Json.toStr : Json → Option Str
  | .str s => some s
  | _ => none

/-- `Deserialize for Option<T>` for a field of a struct that may be missing. Called through artifact-data/src/raw.rs L186. -/
def Json.opt {α : Type} (f : Json → Option α) : Option Json → Option (Option α)
  | none => some none
  | some .null => some none
  | some v => (f v).map some

/-- artifact-data/src/raw_names.rs L102-138 (`Deserialize for NamesRaw`), before the names are parsed. -/
def Json.toNames : Json → Option NamesDoc
  | .str s => some (.str s)
  | .arr l => (l.mapM Json.toStr).map .seq
  | _ => none

/-- artifact-data/src/raw.rs L39-45 (the derived `Deserialize for ArtifactRaw`), before the names are parsed. -/
def Json.toArtDoc (v : Json) : Option ArtDoc := do
  match ← v.fields [c!"done", c!"partof", c!"text"] with
  | [d, p, t] => do
    let d ← Json.opt Json.toStr d
    let p ← Json.opt Json.toNames p
    let t ← Json.opt Json.toStr t
    pure ⟨d, p, t⟩
  | _ => none

/-- `json::from_str`, artifact-data/src/raw.rs L186, before the names are parsed (`mapDe`). -/
def jsonFileRead (s : Str) : Option (List (Str × ArtDoc)) := do
  match ← Json.parse s with
  | .obj l => l.mapM fun e => do
    let d ← e.2.toArtDoc
    pure (e.1, d)
  | _ => none

/-- `Serialize for Option<String>`. Called through artifact-data/src/modify.rs L364. -/
def Json.ofOpt : Option Str → Json
  | none => .null
  | some s => .str s

/-- artifact-data/src/raw_names.rs L83-100 (`Serialize for NamesRaw`), for the document form (`namesRawSer`). -/
def Json.ofNames : NamesDoc → Json
  | .str s => .str s
  | .seq l => .arr (l.map .str)

/-- artifact-data/src/raw.rs L39-45 (the derived `Serialize for ArtifactRaw`), for the document form (`artDocSer`). -/
def Json.ofArtDoc (d : ArtDoc) : Json :=
  .obj [(c!"done", .ofOpt d.done), (c!"partof", (d.partof.map Json.ofNames).getD .null), (c!"text", .ofOpt d.text)]

/-- `json::to_string`, artifact-data/src/modify.rs L364, for the document form (`mapSer`). -/
def jsonFileWrite (l : List (Str × ArtDoc)) : Str := (Json.obj (l.map fun e => (e.1, .ofArtDoc e.2))).show

/-- The libraries with the model of serde_json above for artifact files. artifact-data/src/raw.rs L186 and artifact-data/src/modify.rs L364. -/
def Libs.withJson (L : Libs) : Libs := { L with jsonRead := jsonFileRead, jsonWrite := jsonFileWrite }

end Art
