import Verif.Model.Toml
import Verif.Spec.Yaml
import Verif.Spec.Markdown

/-!
# TOML texts
A part of the grammar of TOML 0.4, written down without regard to how texts are read or written: texts and lists of texts on one line, tables, comments.
-/

namespace Art.Spec

/-- A character that can stand in quotes: no control character. -/
def TomlPlain (c : Char) : Prop := 0x20 ≤ c.toNat ∧ c.toNat ≠ 0x7f

/-- White space within a line. -/
def TomlBlank (w : Str) : Prop := ∀ c ∈ w, c = ' ' ∨ c = '\t'

/-- A character within double quotes. -/
inductive TomlBasicChar : Str → Char → Prop
  | itself {c : Char} : TomlPlain c → c ≠ '"' → c ≠ '\\' → TomlBasicChar [c] c
  | short {e : Char} {n : Nat} : (e, n) ∈ [('b', 8), ('t', 9), ('n', 10), ('f', 12), ('r', 13), ('"', 0x22), ('\\', 0x5c)] → TomlBasicChar ['\\', e] (Char.ofNat n)
  | hex {e : Char} {k : Nat} {s : Str} {c : Char} : (e, k) ∈ [('u', 4), ('U', 8)] → HexIs s c.toNat → s.length = k → TomlBasicChar ('\\' :: e :: s) c

/-- The characters within double quotes. -/
inductive TomlBasicChars : Str → Str → Prop
  | nil : TomlBasicChars [] []
  | cons {s t c r} : TomlBasicChar s c → TomlBasicChars t r → TomlBasicChars (s ++ t) (c :: r)

/-- A text in quotes and what it says. -/
inductive TomlStringIs : Str → Str → Prop
  | basic {i t} : TomlBasicChars i t → TomlStringIs ('"' :: i ++ ['"']) t
  | literal {t} : (∀ c ∈ t, TomlPlain c ∧ c ≠ '\'') → TomlStringIs ('\'' :: t ++ ['\'']) t

/-- A character of a key without quotes. -/
def TomlBare (c : Char) : Prop := ('a' ≤ c ∧ c ≤ 'z') ∨ ('A' ≤ c ∧ c ≤ 'Z') ∨ ('0' ≤ c ∧ c ≤ '9') ∨ c = '-' ∨ c = '_'

/-- A key and what it says. -/
inductive TomlKeyIs : Str → Str → Prop
  | bare {k} : k ≠ [] → (∀ c ∈ k, TomlBare c) → TomlKeyIs k k
  | quoted {s k} : TomlStringIs s k → TomlKeyIs s k

/-- What follows `[` in a list of texts. There can be a comma after the last one. -/
inductive TomlItemsAre : Str → List Str → Prop
  | nil {w} : TomlBlank w → TomlItemsAre (w ++ [']']) []
  | last {w s v w'} : TomlBlank w → TomlStringIs s v → TomlBlank w' → TomlItemsAre (w ++ s ++ w' ++ [']']) [v]
  | cons {w s v w' t vs} : TomlBlank w → TomlStringIs s v → TomlBlank w' → TomlItemsAre t vs → TomlItemsAre (w ++ s ++ w' ++ ',' :: t) (v :: vs)

/-- A value. -/
inductive TomlValueIs : Str → NamesDoc → Prop
  | str {s v} : TomlStringIs s v → TomlValueIs s (.str v)
  | seq {t vs} : TomlItemsAre t vs → TomlValueIs ('[' :: t) (.seq vs)

/-- What follows `[` in the header of a table. -/
inductive TomlPathIs : Str → List Str → Prop
  | last {w s k w'} : TomlBlank w → TomlKeyIs s k → TomlBlank w' → TomlPathIs (w ++ s ++ w' ++ [']']) [k]
  | cons {w s k w' t ks} : TomlBlank w → TomlKeyIs s k → TomlBlank w' → TomlPathIs t ks → TomlPathIs (w ++ s ++ w' ++ '.' :: t) (k :: ks)

/-- White space, and perhaps a comment. -/
inductive TomlEndOk : Str → Prop
  | blank {w} : TomlBlank w → TomlEndOk w
  | comment {w c} : TomlBlank w → (∀ x ∈ c, x = '\t' ∨ TomlPlain x) → TomlEndOk (w ++ '#' :: c)

/-- What a line is. -/
inductive TomlLineIs : Str → TLine → Prop
  | skip {e} : TomlEndOk e → TomlLineIs e .skip
  | header {w p h e} : TomlBlank w → TomlPathIs p h → TomlEndOk e → TomlLineIs (w ++ '[' :: p ++ e) (.header h)
  | pair {w s k w' w'' t v e} : TomlBlank w → TomlKeyIs s k → TomlBlank w' → TomlBlank w'' → TomlValueIs t v → TomlEndOk e →
      TomlLineIs (w ++ s ++ w' ++ '=' :: w'' ++ t ++ e) (.pair k v)

/-- Lines with the entries of one table. -/
inductive TomlEntriesAre : List TLine → TEntries → Prop
  | nil : TomlEntriesAre [] []
  | skip {ls es} : TomlEntriesAre ls es → TomlEntriesAre (.skip :: ls) es
  | pair {k v ls es} : TomlEntriesAre ls es → TomlEntriesAre (.pair k v :: ls) ((k, v) :: es)

/-- Lines with tables. -/
inductive TomlTablesAre : List TLine → List (List Str × TEntries) → Prop
  | nil : TomlTablesAre [] []
  | table {h ls es ls' ts} : TomlEntriesAre ls es → TomlTablesAre ls' ts → TomlTablesAre (.header h :: ls ++ ls') ((h, es) :: ts)

/-- The text `s` has these entries before the first header and these tables. -/
def TomlTextIs (s : Str) (root : TEntries) (ts : List (List Str × TEntries)) : Prop :=
  ∃ ls ys a b, ls ≠ [] ∧ (∀ l ∈ ls, '\n' ∉ l) ∧ s = joinLines ls ∧ List.Forall₂ TomlLineIs ls ys ∧ ys = a ++ b ∧ TomlEntriesAre a root ∧ TomlTablesAre b ts

/-- A field with a text that can be missing. -/
def TomlMaybe (es : TEntries) (k : Str) (o : Option Str) : Prop := (∃ s, (k, .str s) ∈ es ∧ o = some s) ∨ ((∀ v, (k, v) ∉ es) ∧ o = none)

/-- The entries of an artifact: no key twice, other keys do not matter. -/
structure TomlArtIs (es : TEntries) (d : ArtDoc) : Prop where
  once : (es.map (·.1)).Nodup
  done : TomlMaybe es c!"done" d.done
  text : TomlMaybe es c!"text" d.text
  partof : (∃ p, (c!"partof", p) ∈ es ∧ d.partof = some p) ∨ ((∀ v, (c!"partof", v) ∉ es) ∧ d.partof = none)

/-- The text `s` says that the artifacts are `docs`: one table for every artifact, none twice. -/
def TomlArtsText (s : Str) (docs : List (Str × ArtDoc)) : Prop :=
  ∃ ts, TomlTextIs s [] ts ∧ (docs.map (·.1)).Nodup ∧ List.Forall₂ (fun t d => t.1 = [d.1] ∧ TomlArtIs t.2 d.2) ts docs

/-- The setting for name lines: `type` says which, and a prefix has its value. -/
def TomlMdNameIs (es : TEntries) (m : MdName) : Prop :=
  (es.map (·.1)).Nodup ∧ (((c!"type", .str c!"default") ∈ es ∧ m = .default) ∨ ∃ v, (c!"type", .str c!"prefix") ∈ es ∧ (c!"value", .str v) ∈ es ∧ m = .pre v)

/-- The setting for attributes. -/
def TomlMdAttrsIs (es : TEntries) (m : MdAttrs) : Prop :=
  (es.map (·.1)).Nodup ∧ (((c!"type", .str c!"hashes") ∈ es ∧ m = .hashes) ∨ ∃ p, (c!"type", .str c!"code") ∈ es ∧ TomlMaybe es c!"prefix" p ∧ m = .code p)

/-- A table that can be missing. -/
def TomlPart {α : Type} (P : TEntries → α → Prop) (dflt : α) (ts : List (List Str × TEntries)) (h : List Str) (x : α) : Prop :=
  (∃ es, (h, es) ∈ ts ∧ P es x) ∨ ((∀ es, (h, es) ∉ ts) ∧ x = dflt)

/-- The text `s` says that the settings are `raw`. -/
def TomlSettingsText (s : Str) (raw : SettingsRaw) : Prop :=
  ∃ root ts, TomlTextIs s root ts ∧ (root.map (·.1)).Nodup ∧ (ts.map (·.1)).Nodup ∧
    (∀ e ∈ root, e.1 ∉ [c!"parse", c!"format", c!"export"]) ∧ (∀ t ∈ ts, t.1 = [c!"parse", c!"md_name"] ∨ t.1 = [c!"format", c!"md_attrs"]) ∧
    (c!"artifact_paths", .seq raw.artifactPaths) ∈ root ∧ (c!"exclude_artifact_paths", .seq raw.excludeArtifactPaths) ∈ root ∧
    (c!"code_paths", .seq raw.codePaths) ∈ root ∧ (c!"exclude_code_paths", .seq raw.excludeCodePaths) ∈ root ∧ TomlMaybe root c!"code_url" raw.codeUrl ∧
    TomlPart TomlMdNameIs .default ts [c!"parse", c!"md_name"] raw.mdName ∧ TomlPart TomlMdAttrsIs .hashes ts [c!"format", c!"md_attrs"] raw.mdAttrs

/-- What is asked of the TOML library: texts of the grammar above are read as what they say, and artifacts are written as toml does. -/
structure TomlLib (L : Libs) : Prop where
  reads : ∀ s v, TomlArtsText s v → L.tomlRead s = some v
  writes : ∀ l, L.tomlWrite l = tomlDocs l

/-- What is asked of the library for the settings. -/
def TomlSettingsLib (readToml : Str → Option SettingsRaw) : Prop := ∀ s raw, TomlSettingsText s raw → readToml s = some raw

/-- A text that is kept: without the control characters U+001F and U+007F, which are written as they are. -/
def TomlKept (s : Str) : Prop := ∀ c ∈ s, c.toNat ≠ 0x1f ∧ c.toNat ≠ 0x7f

/-- All texts of a document are kept. -/
def DocKept (x : Str × ArtDoc) : Prop :=
  TomlKept x.1 ∧ (∀ s, x.2.done = some s → TomlKept s) ∧ (∀ s, x.2.text = some s → TomlKept s) ∧
    ∀ p, x.2.partof = some p → match p with | .str s => TomlKept s | .seq l => ∀ s ∈ l, TomlKept s

/-- The texts of an artifact are kept in the format of its file. -/
def ArtKept (fold : Char → Char) (num : Str → Bool) (s : Settings) (a : ArtifactIm) : Prop :=
  match ArtFileType.fromPath a.file with
  | some .md => SettingsOk s.pre s.mdAttrs ∧ (a.text ≠ [] → TextOk fold s.pre a.text) ∧ ∀ d, a.done = some d → DoneKept num d
  | some .toml => TomlKept a.text ∧ ∀ d, a.done = some d → TomlKept d
  | some .json => True
  | none => False

end Art.Spec
