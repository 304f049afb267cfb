import Verif.Model.Yaml
import Verif.Model.Read

/-!
# TOML
The library toml 0.4.10 as the repository uses it: artifact files (artifact-data/src/raw.rs L182, artifact-data/src/modify.rs L362) and the settings
(artifact-data/src/settings.rs L73).

Simplifications: only a part of TOML is read here, namely texts and lists of texts on one line, tables with a header, comments and blank lines. There are no numbers, truth
values, dates, texts over several lines, tables on one line and carriage returns. For any other text the reader below says `none`, while the library may read it. The
theorems about a library only use that it reads texts of this part as the standard says.
-/

namespace Art

/-! ## writing -/

/-- A hexadecimal digit, `{:04X}` in `emit_str` of toml. Called through artifact-data/src/modify.rs L362. -/
def hexUp (n : Nat) : Char := c!"0123456789ABCDEF".getD n '0'

/-- `emit_str` of toml: one character. The character U+001F is written as it is. Called through artifact-data/src/modify.rs L362. -/
def tomlChar (c : Char) : Str :=
  if c.toNat = 8 then c!"\\b"
  else if c = '\t' then c!"\\t"
  else if c = '\n' then c!"\\n"
  else if c.toNat = 12 then c!"\\f"
  else if c = '\r' then c!"\\r"
  else if c = '"' then c!"\\\""
  else if c = '\\' then c!"\\\\"
  else if c.toNat < 31 then c!"\\u00" ++ [hexUp (c.toNat / 16), hexUp (c.toNat % 16)]
  else [c]

/-- `emit_str` of toml. Called through artifact-data/src/modify.rs L362. -/
def tomlQuoted (s : Str) : Str := '"' :: s.flatMap tomlChar ++ ['"']

/-- A character of a key without quotes. Called through artifact-data/src/modify.rs L362 and artifact-data/src/raw.rs L182. -/
def tomlBare (c : Char) : Bool := ('a' ≤ c && c ≤ 'z') || ('A' ≤ c && c ≤ 'Z') || ('0' ≤ c && c ≤ '9') || c == '-' || c == '_'

/-- `escape_key` of toml. Called through artifact-data/src/modify.rs L362. -/
def tomlKeyText (k : Str) : Str := if k.all tomlBare then k else tomlQuoted k

/-- A text or a list of texts. Called through artifact-data/src/modify.rs L362; the two forms are those of artifact-data/src/raw_names.rs L83-100. -/
def tomlValue : NamesDoc → Str
  | .str s => tomlQuoted s
  | .seq l => '[' :: List.intercalate c!", " (l.map tomlQuoted) ++ [']']

/-- The fields of an artifact that are there: artifact-data/src/raw.rs L39-45, written at artifact-data/src/modify.rs L362. -/
def tomlFields (d : ArtDoc) : List (Str × NamesDoc) :=
  (d.done.map fun s => (c!"done", NamesDoc.str s)).toList ++ (d.partof.map fun p => (c!"partof", p)).toList ++ (d.text.map fun s => (c!"text", NamesDoc.str s)).toList

/-- The lines of a table: artifact-data/src/modify.rs L362. -/
def tomlTable (x : Str × ArtDoc) : List Str :=
  ('[' :: tomlKeyText x.1 ++ [']']) :: (tomlFields x.2).map fun e => e.1 ++ c!" = " ++ tomlValue e.2

/-- `toml::to_string` of the artifacts of a file, artifact-data/src/modify.rs L362: every line is ended, and there is an empty line between the tables. -/
def tomlDocs (l : List (Str × ArtDoc)) : Str := List.intercalate ['\n'] (l.map fun x => (tomlTable x).flatMap (· ++ ['\n']))

/-! ## reading -/

/-- White space within a line: `eat_whitespace` of toml. Called through artifact-data/src/raw.rs L182 and artifact-data/src/settings.rs L73. -/
def tomlSkip (s : Str) : Str := s.dropWhile fun c => c == ' ' || c == '\t'

/-- The characters that can stand in quotes. U+007F is left out: standards differ. Called through artifact-data/src/raw.rs L182 and artifact-data/src/settings.rs L73. -/
def tomlPlain (c : Char) : Bool := 32 ≤ c.toNat && c.toNat != 127

/-- What follows a backslash: `basic_string` of toml. Called through artifact-data/src/raw.rs L182 and artifact-data/src/settings.rs L73. -/
def tomlEscape : Str → Option (Char × Str)
  | [] => none
  | e :: r =>
    if e = 'b' then some (Char.ofNat 8, r)
    else if e = 't' then some ('\t', r)
    else if e = 'n' then some ('\n', r)
    else if e = 'f' then some (Char.ofNat 12, r)
    else if e = 'r' then some ('\r', r)
    else if e = '"' ∨ e = '\\' then some (e, r)
    else if e = 'u' then hexChar 4 r
    else if e = 'U' then hexChar 8 r
    else none

/-- The rest of a text in double quotes: `basic_string` of toml. The first argument is how many characters there can be.
Called through artifact-data/src/raw.rs L182 and artifact-data/src/settings.rs L73. -/
def tomlBasic : Nat → Str → Option (Str × Str)
  | 0, _ => none
  | _ + 1, [] => none
  | n + 1, c :: r =>
    if c = '"' then some ([], r)
    else if c = '\\' then do
      let (d, r) ← tomlEscape r
      let (t, r) ← tomlBasic n r
      pure (d :: t, r)
    else if tomlPlain c then do
      let (t, r) ← tomlBasic n r
      pure (c :: t, r)
    else none

/-- The rest of a text in single quotes: `literal_string` of toml. Called through artifact-data/src/raw.rs L182 and artifact-data/src/settings.rs L73. -/
def tomlLiteral : Str → Option (Str × Str)
  | [] => none
  | c :: r =>
    if c = '\'' then some ([], r)
    else if tomlPlain c then do
      let (t, r) ← tomlLiteral r
      pure (c :: t, r)
    else none

/-- A text in quotes. Called through artifact-data/src/raw.rs L182 and artifact-data/src/settings.rs L73. -/
def tomlString : Str → Option (Str × Str)
  | [] => none
  | c :: r =>
    if c = '"' then tomlBasic r.length r
    else if c = '\'' then tomlLiteral r
    else none

/-- A key: `table_key` of toml. Called through artifact-data/src/raw.rs L182 and artifact-data/src/settings.rs L73. -/
def tomlKey : Str → Option (Str × Str)
  | [] => none
  | c :: r => if tomlBare c then some ((c :: r).takeWhile tomlBare, (c :: r).dropWhile tomlBare) else tomlString (c :: r)

/-- The rest of a list of texts: `array` of toml. The first argument is how many texts there can be.
Called through artifact-data/src/raw.rs L182 and artifact-data/src/settings.rs L73. -/
def tomlItems : Nat → Str → Option (List Str × Str)
  | 0, _ => none
  | n + 1, s =>
    match tomlSkip s with
    | ']' :: r => some ([], r)
    | s => do
      let (v, r) ← tomlString s
      match tomlSkip r with
      | ']' :: r => some ([v], r)
      | ',' :: r => do
        let (vs, r) ← tomlItems n r
        pure (v :: vs, r)
      | _ => none

/-- A text or a list of texts: `value` of toml. Called through artifact-data/src/raw.rs L182 and artifact-data/src/settings.rs L73. -/
def tomlVal : Str → Option (NamesDoc × Str)
  | '[' :: r => (tomlItems (r.length + 1) r).map fun x => (.seq x.1, x.2)
  | s => (tomlString s).map fun x => (.str x.1, x.2)

/-- The rest of a header: `table_header` of toml. The first argument is how many keys there can be.
Called through artifact-data/src/raw.rs L182 and artifact-data/src/settings.rs L73. -/
def tomlPath : Nat → Str → Option (List Str × Str)
  | 0, _ => none
  | n + 1, s => do
    let (k, r) ← tomlKey (tomlSkip s)
    match tomlSkip r with
    | ']' :: r => some ([k], r)
    | '.' :: r => do
      let (ks, r) ← tomlPath n r
      pure (k :: ks, r)
    | _ => none

/-- Nothing but white space and a comment is left: `eat_comment` and `eat_newline_or_eof` of toml. Called through artifact-data/src/raw.rs L182 and
artifact-data/src/settings.rs L73. -/
def tomlEnd (s : Str) : Bool :=
  match tomlSkip s with
  | [] => true
  | '#' :: c => c.all fun x => x == '\t' || tomlPlain x
  | _ => false

/-- What a line is: blank or a comment, the header of a table, or a key with a value. Called through artifact-data/src/raw.rs L182 and artifact-data/src/settings.rs L73. -/
inductive TLine where
  | skip
  | header (h : List Str)
  | pair (k : Str) (v : NamesDoc)
  deriving DecidableEq

/-- The rest of a line, after a key. Called through artifact-data/src/raw.rs L182 and artifact-data/src/settings.rs L73. -/
def tomlPair (k s : Str) : Option TLine :=
  match tomlSkip s with
  | '=' :: r => do
    let (v, r) ← tomlVal (tomlSkip r)
    if tomlEnd r then some (.pair k v) else none
  | _ => none

/-- One line: `line` of toml. Called through artifact-data/src/raw.rs L182 and artifact-data/src/settings.rs L73. -/
def tomlLine (l : Str) : Option TLine :=
  match tomlSkip l with
  | '[' :: r => do
    let (h, r) ← tomlPath (r.length + 1) r
    if tomlEnd r then some (.header h) else none
  | s =>
    if tomlEnd s then some .skip
    else do
      let (k, r) ← tomlKey s
      tomlPair k r

/-- The entries of a table. Called through artifact-data/src/raw.rs L182 and artifact-data/src/settings.rs L73. -/
abbrev TEntries := List (Str × NamesDoc)

/-- The lines put together, from the last to the first: the entries before the first header, and the tables. Called through artifact-data/src/raw.rs L182 and
artifact-data/src/settings.rs L73. -/
def tomlFold : List TLine → TEntries × List (List Str × TEntries)
  | [] => ([], [])
  | .skip :: ls => tomlFold ls
  | .pair k v :: ls => ((k, v) :: (tomlFold ls).1, (tomlFold ls).2)
  | .header h :: ls => ([], (h, (tomlFold ls).1) :: (tomlFold ls).2)

/-- A text as entries and tables. Called through artifact-data/src/raw.rs L182 and artifact-data/src/settings.rs L73. -/
def tomlText (s : Str) : Option (TEntries × List (List Str × TEntries)) := ((splitLf s).mapM tomlLine).map tomlFold

/-- A field that is a text and can be missing: `Option<String>`, artifact-data/src/raw.rs L41 and L44, artifact-data/src/settings.rs L33. -/
def tomlOpt : Option NamesDoc → Option (Option Str)
  | none => some none
  | some (.str s) => some (some s)
  | some (.seq _) => none

/-- The derived `Deserialize` of `ArtifactRaw`, artifact-data/src/raw.rs L39-45: no key twice, other keys are ignored. -/
def tomlArt (es : TEntries) : Option ArtDoc :=
  if (es.map (·.1)).Nodup then do
    let done ← tomlOpt (es.lookup c!"done")
    let text ← tomlOpt (es.lookup c!"text")
    pure ⟨done, es.lookup c!"partof", text⟩
  else none

/-- A table of an artifact file. artifact-data/src/raw.rs L181-182. -/
def tomlArtTable : List Str × TEntries → Option (Str × ArtDoc)
  | ([k], es) => (tomlArt es).map fun d => (k, d)
  | _ => none

/-- `toml::from_str::<IndexMap<Name, ArtifactRaw>>` before the names are read, for the part of TOML that is read here, artifact-data/src/raw.rs L181-182: no table twice. -/
def tomlArts (s : Str) : Option (List (Str × ArtDoc)) := do
  let (root, ts) ← tomlText s
  if root = [] ∧ (ts.map (·.1)).Nodup then ts.mapM tomlArtTable else none

/-! ## the settings -/

/-- A field that is a list of texts: `Vec<String>`, artifact-data/src/settings.rs L29-32. -/
def tomlSeq : Option NamesDoc → Option (List Str)
  | some (.seq l) => some l
  | _ => none

/-- `SettingsMdName`, artifact-ser/src/lib.rs L148-159. -/
def tomlMdName (es : TEntries) : Option MdName :=
  if (es.map (·.1)).Nodup then
    if es.lookup c!"type" = some (.str c!"default") then some .default
    else if es.lookup c!"type" = some (.str c!"prefix") then
      match es.lookup c!"value" with
      | some (.str v) => some (.pre v)
      | _ => none
    else none
  else none

/-- `SettingsMdAttrs`, artifact-ser/src/lib.rs L197-217. -/
def tomlMdAttrs (es : TEntries) : Option MdAttrs :=
  if (es.map (·.1)).Nodup then
    if es.lookup c!"type" = some (.str c!"hashes") then some .hashes
    else if es.lookup c!"type" = some (.str c!"code") then (tomlOpt (es.lookup c!"prefix")).map .code
    else none
  else none

/-- The fields of the settings that are tables: artifact-data/src/settings.rs L35-40. -/
def settingsParts : List Str := [c!"parse", c!"format", c!"export"]

/-- The tables of the settings that are read here: artifact-data/src/settings.rs L35-38, artifact-ser/src/lib.rs L66-78. -/
def settingsTables : List (List Str) := [[c!"parse", c!"md_name"], [c!"format", c!"md_attrs"]]

/-- `toml::from_str::<SettingsRaw>` for the part of TOML that is read here, artifact-data/src/settings.rs L73 with L27-41: keys that
are not known are ignored, missing tables have the default of artifact-ser/src/lib.rs L170-174 and L219-223. -/
def tomlSettings (s : Str) : Option SettingsRaw := do
  let (root, ts) ← tomlText s
  if (root.map (·.1)).Nodup ∧ (∀ e ∈ root, e.1 ∉ settingsParts) ∧ (ts.map (·.1)).Nodup ∧ ∀ t ∈ ts, t.1 ∈ settingsTables then do
    let ap ← tomlSeq (root.lookup c!"artifact_paths")
    let eap ← tomlSeq (root.lookup c!"exclude_artifact_paths")
    let cp ← tomlSeq (root.lookup c!"code_paths")
    let ecp ← tomlSeq (root.lookup c!"exclude_code_paths")
    let url ← tomlOpt (root.lookup c!"code_url")
    let name ← tomlMdName ((ts.lookup [c!"parse", c!"md_name"]).getD [(c!"type", .str c!"default")])
    let attrs ← tomlMdAttrs ((ts.lookup [c!"format", c!"md_attrs"]).getD [(c!"type", .str c!"hashes")])
    pure ⟨ap, eap, cp, ecp, url, name, attrs⟩
  else none

/-- The libraries with this one for TOML: artifact-data/src/raw.rs L182, artifact-data/src/modify.rs L362. -/
def Libs.withToml (L : Libs) : Libs := { L with tomlRead := tomlArts, tomlWrite := tomlDocs }

end Art
