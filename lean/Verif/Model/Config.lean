import Verif.Model.Toml
import Verif.Model.Wire

/-!
# The settings file
All of the settings, with the part `export` and truth values, for a larger part of TOML than in Verif/Model/Toml.lean: besides texts and lists of texts there are truth values, tables can have any name and be nested, and what is
not known is ignored. Library: toml 0.4.10, called at artifact-data/src/settings.rs L73.

Simplifications: numbers, dates, texts over several lines, tables on one line, lists of tables and carriage returns are not read here, nor are tables within the tables that say how something is written. For such texts the reader below
says `none`, while the library may read them.
-/

namespace Art.Conf

/-- A value. artifact-data/src/settings.rs L27-41, artifact-ser/src/lib.rs L80-109. -/
inductive Val where
  | text (s : Str)
  | list (l : List Str)
  | flag (b : Bool)
  deriving DecidableEq

/-- What a line is. Called through artifact-data/src/settings.rs L73. -/
inductive CLine where
  | skip
  | header (h : List Str)
  | pair (k : Str) (v : Val)
  deriving DecidableEq

/-- Texts and lists of texts as values. Called through artifact-data/src/settings.rs L73. -/
def ofNames : NamesDoc → Val
  | .str s => .text s
  | .seq l => .list l

/-- The lines of Verif/Model/Toml.lean. Called through artifact-data/src/settings.rs L73. -/
def ofLine : TLine → CLine
  | .skip => .skip
  | .header h => .header h
  | .pair k v => .pair k (ofNames v)

/-- `true` and `false`: `keylike` values of toml. Called through artifact-data/src/settings.rs L73. -/
def flagVal : Str → Option (Bool × Str)
  | 't' :: 'r' :: 'u' :: 'e' :: r => some (true, r)
  | 'f' :: 'a' :: 'l' :: 's' :: 'e' :: r => some (false, r)
  | _ => none

/-- The rest of a line with a truth value, after the key. Called through artifact-data/src/settings.rs L73. -/
def flagPair (k s : Str) : Option CLine :=
  match tomlSkip s with
  | '=' :: r => do
    let (b, r) ← flagVal (tomlSkip r)
    if tomlEnd r then some (.pair k (.flag b)) else none
  | _ => none

/-- A line with a truth value. Called through artifact-data/src/settings.rs L73. -/
def flagLine (l : Str) : Option CLine := do
  let (k, r) ← tomlKey (tomlSkip l)
  flagPair k r

/-- A line: `line` of toml. Called through artifact-data/src/settings.rs L73. -/
def confLine (l : Str) : Option CLine :=
  match tomlLine l with
  | some y => some (ofLine y)
  | none => flagLine l

/-- The entries of a table. Called through artifact-data/src/settings.rs L73. -/
abbrev Entries := List (Str × Val)

/-- The tables with their full names; that of the root is empty. Called through artifact-data/src/settings.rs L73. -/
abbrev Doc := List (List Str × Entries)

/-- The lines put together, from the last to the first. Called through artifact-data/src/settings.rs L73. -/
def confFold : List CLine → Entries × Doc
  | [] => ([], [])
  | .skip :: ls => confFold ls
  | .pair k v :: ls => ((k, v) :: (confFold ls).1, (confFold ls).2)
  | .header h :: ls => ([], (h, (confFold ls).1) :: (confFold ls).2)

/-- A text as tables, the root first. Called through artifact-data/src/settings.rs L73. -/
def confText (s : Str) : Option Doc := ((splitLf s).mapM confLine).map fun ls => ([], (confFold ls).1) :: (confFold ls).2

/-- The rules of TOML that the library enforces (duplicate keys, duplicate tables, redefinition of a value as a table). Called through artifact-data/src/settings.rs L73. -/
def legalDoc (d : Doc) : Bool :=
  decide (d.map (·.1)).Nodup && d.all (fun t => decide (t.2.map (·.1)).Nodup) && d.all fun t => d.all fun u => u.2.all fun e => !(u.1 ++ [e.1]).isPrefixOf t.1

/-- The fields with a value: artifact-data/src/settings.rs L29-33, artifact-ser/src/lib.rs L90-96. They must not be tables. -/
def valueFields : List (List Str) :=
  [[c!"artifact_paths"], [c!"exclude_artifact_paths"], [c!"code_paths"], [c!"exclude_code_paths"], [c!"code_url"], [c!"export", c!"md_header"], [c!"export", c!"md_toc"]]

/-- The fields that say how something is written: artifact-ser/src/lib.rs L69, L77, L100, L104, L108. They are tables, here without tables in them. -/
def howFields : List (List Str) :=
  [[c!"parse", c!"md_name"], [c!"format", c!"md_attrs"], [c!"export", c!"md_family"], [c!"export", c!"md_dot"], [c!"export", c!"md_name"]]

/-- The fields that are tables: artifact-data/src/settings.rs L35-40 and those above. They must not be values. -/
def tableFields : List (List Str) := [[c!"parse"], [c!"format"], [c!"export"]] ++ howFields

/-- The types of the fields (derived `Deserialize`, artifact-data/src/settings.rs L27): tables are tables and values are values. -/
def typedDoc (d : Doc) : Bool :=
  d.all (fun t => t.2.all fun e => !tableFields.contains (t.1 ++ [e.1])) && d.all (fun t => valueFields.all fun f => !f.isPrefixOf t.1) &&
    d.all fun t => howFields.all fun f => !f.isPrefixOf t.1 || f == t.1

/-- The value of a field, if it is there. artifact-data/src/settings.rs L29-33, artifact-ser/src/lib.rs L90-96. -/
def valueOf (d : Doc) (h : List Str) (k : Str) : Option Val := (d.lookup h).bind (·.lookup k)

/-- `Vec<String>`, artifact-data/src/settings.rs L29-32. -/
def listField : Option Val → Option (List Str)
  | some (.list l) => some l
  | _ => none

/-- `Option<String>`, artifact-data/src/settings.rs L33, artifact-ser/src/lib.rs L92, L216. -/
def textField : Option Val → Option (Option Str)
  | none => some none
  | some (.text s) => some (some s)
  | _ => none

/-- `md_toc`, artifact-ser/src/lib.rs L94-96 with `return_true` (L111-113). -/
def tocField : Option Val → Option Bool
  | none => some true
  | some (.flag b) => some b
  | _ => none

/-- `SettingsMdName`, artifact-ser/src/lib.rs L148-159; the default (L170-174) if the table is missing. -/
def nameField : Option Entries → Option MdName
  | none => some .default
  | some es => match es.lookup c!"type" with
    | some (.text t) =>
      if t = c!"default" then some .default
      else if t = c!"prefix" then match es.lookup c!"value" with
        | some (.text v) => some (.pre v)
        | _ => none
      else none
    | _ => none

/-- `SettingsMdAttrs`, artifact-ser/src/lib.rs L197-217; the default (L219-223) if the table is missing. -/
def attrsField : Option Entries → Option MdAttrs
  | none => some .hashes
  | some es => match es.lookup c!"type" with
    | some (.text t) =>
      if t = c!"hashes" then some .hashes
      else if t = c!"code" then (textField (es.lookup c!"prefix")).map .code
      else none
    | _ => none

/-- `SettingsMdFamily`, artifact-ser/src/lib.rs L115-126. -/
def familyField : Option Entries → Option MdFamily
  | none => some .list
  | some es => match es.lookup c!"type" with
    | some (.text t) => if t = c!"list" then some .list else if t = c!"dot" then some .dot else none
    | _ => none

/-- `SettingsMdDot`, artifact-ser/src/lib.rs L128-145. -/
def dotField : Option Entries → Option MdDot
  | none => some .ignore
  | some es => match es.lookup c!"type" with
    | some (.text t) =>
      if t = c!"ignore" then some .ignore
      else if t = c!"remove_braces" then some .removeBraces
      else if t = c!"replace_braces" then match es.lookup c!"pre", es.lookup c!"post" with
        | some (.text a), some (.text b) => some (.replaceBraces a b)
        | _, _ => none
      else none
    | _ => none

/-- `SettingsExport`, artifact-ser/src/lib.rs L80-109, for a table `export` that is there, or of which a table is there. -/
def exportThere (d : Doc) : Option WireExport := do
  let header ← textField (valueOf d [c!"export"] c!"md_header")
  let toc ← tocField (valueOf d [c!"export"] c!"md_toc")
  let family ← familyField (d.lookup [c!"export", c!"md_family"])
  let dot ← dotField (d.lookup [c!"export", c!"md_dot"])
  let name ← nameField (d.lookup [c!"export", c!"md_name"])
  pure ⟨header, toc, family, dot, name⟩

/-- `#[serde(default)] export`, artifact-data/src/settings.rs L39-40: a missing table is the derived default (artifact-ser/src/lib.rs L81). -/
def exportOf (d : Doc) : Option WireExport :=
  if d.any (fun t => [c!"export"].isPrefixOf t.1) then exportThere d else some WireExport.default

/-- The settings without the part `export`, artifact-data/src/settings.rs L27-38. -/
def rawOf (d : Doc) : Option SettingsRaw := do
  let ap ← listField (valueOf d [] c!"artifact_paths")
  let eap ← listField (valueOf d [] c!"exclude_artifact_paths")
  let cp ← listField (valueOf d [] c!"code_paths")
  let ecp ← listField (valueOf d [] c!"exclude_code_paths")
  let url ← textField (valueOf d [] c!"code_url")
  let name ← nameField (d.lookup [c!"parse", c!"md_name"])
  let attrs ← attrsField (d.lookup [c!"format", c!"md_attrs"])
  pure ⟨ap, eap, cp, ecp, url, name, attrs⟩

/-- `toml::from_str::<SettingsRaw>`, artifact-data/src/settings.rs L73. -/
def confSettings (s : Str) : Option (SettingsRaw × WireExport) := do
  let d ← confText s
  if legalDoc d && typedDoc d then do
    let raw ← rawOf d
    let ex ← exportOf d
    pure (raw, ex)
  else none

/-- The export settings as they are used: artifact-app/src/export.rs L78-83 with artifact-ser/src/lib.rs L162-168 (`to_prefix_string`). -/
def usedExport (e : WireExport) : ExportSettings := ⟨e.header, e.toc, e.family, e.dot, match e.name with | .default => [] | .pre v => v⟩

/-- The export settings of the project in which the directory `dir` is: artifact-app/src/export.rs L119-122 with artifact-data/src/settings.rs L68-73. If they cannot be read, the command ends before they are used. -/
def exportAt (fs : FS) (dir : FilePath) : WireExport :=
  match findRepo fs dir with
  | some repo => match IMap.get? fs (repo ++ c!"/.art/settings.toml") with
    | some (.file (.text s)) => match confSettings s with
      | some x => x.2
      | none => WireExport.default
    | _ => WireExport.default
  | none => WireExport.default

/-- `art export` with all settings from the settings file: artifact-app/src/export.rs L117-141. -/
def ConfExports (L : Libs) (F : ExportLibs) (html : Project → FS → Nat → FS → Prop) (hash : ArtifactIm → HashIm) (ncpu : Nat) (fs : FS) (dir : FilePath) (cmd : ExportCmd) (status : Nat) (fs' : FS) :
    Prop :=
  Exports L F html (fun s => (confSettings s).map (·.1)) (usedExport (exportAt fs dir)) hash ncpu fs dir cmd status fs'

end Art.Conf
