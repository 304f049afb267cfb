import Verif.Model.Config
import Verif.Spec.Toml

/-!
# What a settings file says
The grammar of TOML for the settings, its rules about keys and tables, and the meaning of the fields, each stated by itself: which entry there must be and which there must not.
-/

namespace Art.Conf
open Art.Spec

/-- What a line is: one of those with texts, or a key with a truth value. -/
inductive ConfLineIs : Str → CLine → Prop
  | names {l : Str} {y : TLine} : TomlLineIs l y → ConfLineIs l (ofLine y)
  | flag {w s k w' w'' t e : Str} {b : Bool} : TomlBlank w → TomlKeyIs s k → TomlBlank w' → TomlBlank w'' → (t, b) ∈ [(c!"true", true), (c!"false", false)] → TomlEndOk e →
      ConfLineIs (w ++ s ++ w' ++ '=' :: w'' ++ t ++ e) (.pair k (.flag b))

/-- Lines with the entries of one table. -/
inductive EntriesAre : List CLine → Entries → Prop
  | nil : EntriesAre [] []
  | skip {ls es} : EntriesAre ls es → EntriesAre (.skip :: ls) es
  | pair {k v ls es} : EntriesAre ls es → EntriesAre (.pair k v :: ls) ((k, v) :: es)

/-- Lines with tables. -/
inductive TablesAre : List CLine → Doc → Prop
  | nil : TablesAre [] []
  | table {h ls es ls' ts} : EntriesAre ls es → TablesAre ls' ts → TablesAre (.header h :: ls ++ ls') ((h, es) :: ts)

/-- The text `s` has these tables; the first is the root, which has no header. -/
def DocIs (s : Str) (d : Doc) : Prop :=
  ∃ ls ys a b root ts, ls ≠ [] ∧ (∀ l ∈ ls, '\n' ∉ l) ∧ s = joinLines ls ∧ List.Forall₂ ConfLineIs ls ys ∧ ys = a ++ b ∧ EntriesAre a root ∧ TablesAre b ts ∧ d = ([], root) :: ts

/-- The key `k` of the table `h` has the value `v`. -/
def Says (d : Doc) (h : List Str) (k : Str) (v : Val) : Prop := ∃ es, (h, es) ∈ d ∧ (k, v) ∈ es

/-- There is such a table, perhaps only because there is one in it. -/
def There (d : Doc) (h : List Str) : Prop := ∃ t ∈ d, h <+: t.1

/-- The rules of TOML: no table twice, no key twice in a table, nothing is a value and a table. -/
structure Legal (d : Doc) : Prop where
  tables : (d.map (·.1)).Nodup
  keys : ∀ t ∈ d, (t.2.map (·.1)).Nodup
  apart : ∀ h k v, Says d h k v → ¬ There d (h ++ [k])

/-- The fields that have a value. -/
def IsValue (f : List Str) : Prop :=
  f = [c!"artifact_paths"] ∨ f = [c!"exclude_artifact_paths"] ∨ f = [c!"code_paths"] ∨ f = [c!"exclude_code_paths"] ∨ f = [c!"code_url"] ∨ f = [c!"export", c!"md_header"] ∨
    f = [c!"export", c!"md_toc"]

/-- The fields that say how something is written. -/
def IsHow (f : List Str) : Prop :=
  f = [c!"parse", c!"md_name"] ∨ f = [c!"format", c!"md_attrs"] ∨ f = [c!"export", c!"md_family"] ∨ f = [c!"export", c!"md_dot"] ∨ f = [c!"export", c!"md_name"]

/-- Tables are tables, values are values, and there is no table in those that say how something is written. -/
structure Typed (d : Doc) : Prop where
  noValue : ∀ h k v, Says d h k v → ¬ IsHow (h ++ [k]) ∧ h ++ [k] ≠ [c!"parse"] ∧ h ++ [k] ≠ [c!"format"] ∧ h ++ [k] ≠ [c!"export"]
  noTable : ∀ f, IsValue f → ¬ There d f
  flat : ∀ f, IsHow f → ∀ k, ¬ There d (f ++ [k])

/-- A text that can be missing. -/
def TextIs (d : Doc) (h : List Str) (k : Str) (o : Option Str) : Prop := (∃ s, Says d h k (.text s) ∧ o = some s) ∨ ((∀ v, ¬ Says d h k v) ∧ o = none)

/-- How names are written. -/
def NameIs (d : Doc) (h : List Str) (m : MdName) : Prop :=
  (¬ There d h ∧ m = .default) ∨ (Says d h c!"type" (.text c!"default") ∧ m = .default) ∨
    ∃ v, Says d h c!"type" (.text c!"prefix") ∧ Says d h c!"value" (.text v) ∧ m = .pre v

/-- How attributes are written. -/
def AttrsAre (d : Doc) (m : MdAttrs) : Prop :=
  (¬ There d [c!"format", c!"md_attrs"] ∧ m = .hashes) ∨ (Says d [c!"format", c!"md_attrs"] c!"type" (.text c!"hashes") ∧ m = .hashes) ∨
    ∃ p, Says d [c!"format", c!"md_attrs"] c!"type" (.text c!"code") ∧ TextIs d [c!"format", c!"md_attrs"] c!"prefix" p ∧ m = .code p

/-- How families are exported. -/
def FamilyIs (d : Doc) (m : MdFamily) : Prop :=
  (¬ There d [c!"export", c!"md_family"] ∧ m = .list) ∨ (Says d [c!"export", c!"md_family"] c!"type" (.text c!"list") ∧ m = .list) ∨
    (Says d [c!"export", c!"md_family"] c!"type" (.text c!"dot") ∧ m = .dot)

/-- How graphs are exported. -/
def DotIs (d : Doc) (m : MdDot) : Prop :=
  (¬ There d [c!"export", c!"md_dot"] ∧ m = .ignore) ∨ (Says d [c!"export", c!"md_dot"] c!"type" (.text c!"ignore") ∧ m = .ignore) ∨
    (Says d [c!"export", c!"md_dot"] c!"type" (.text c!"remove_braces") ∧ m = .removeBraces) ∨
    ∃ a b, Says d [c!"export", c!"md_dot"] c!"type" (.text c!"replace_braces") ∧ Says d [c!"export", c!"md_dot"] c!"pre" (.text a) ∧
      Says d [c!"export", c!"md_dot"] c!"post" (.text b) ∧ m = .replaceBraces a b

/-- The settings that a document says. -/
structure Means (d : Doc) (raw : SettingsRaw) (ex : WireExport) : Prop where
  artifactPaths : Says d [] c!"artifact_paths" (.list raw.artifactPaths)
  excludeArtifactPaths : Says d [] c!"exclude_artifact_paths" (.list raw.excludeArtifactPaths)
  codePaths : Says d [] c!"code_paths" (.list raw.codePaths)
  excludeCodePaths : Says d [] c!"exclude_code_paths" (.list raw.excludeCodePaths)
  codeUrl : TextIs d [] c!"code_url" raw.codeUrl
  mdName : NameIs d [c!"parse", c!"md_name"] raw.mdName
  mdAttrs : AttrsAre d raw.mdAttrs
  header : TextIs d [c!"export"] c!"md_header" ex.header
  toc : Says d [c!"export"] c!"md_toc" (.flag ex.toc) ∨ ((∀ v, ¬ Says d [c!"export"] c!"md_toc" v) ∧ (ex.toc = true ↔ There d [c!"export"]))
  family : FamilyIs d ex.family
  dot : DotIs d ex.dot
  name : NameIs d [c!"export", c!"md_name"] ex.name

/-- The text `s` says that the settings are `raw` and `ex`. -/
def ConfIs (s : Str) (raw : SettingsRaw) (ex : WireExport) : Prop := ∃ d, DocIs s d ∧ Legal d ∧ Typed d ∧ Means d raw ex

/-- The fields that are looked at: all that decides what a document means. -/
def Known (h : List Str) (k : Str) : Prop :=
  IsValue (h ++ [k]) ∨ (IsHow h ∧ k ∈ [c!"type", c!"value", c!"prefix", c!"pre", c!"post"])

/-- Two documents say the same about what is looked at. -/
structure Agree (d d' : Doc) : Prop where
  values : ∀ h k v, Known h k → (Says d h k v ↔ Says d' h k v)
  how : ∀ f, IsHow f → (There d f ↔ There d' f)
  part : There d [c!"export"] ↔ There d' [c!"export"]

/-- The text after the lines `a` is in the table `h`. -/
def Under (a : List Str) (h : List Str) : Prop :=
  (h = [] ∧ ∀ l ∈ a, ∀ h', ¬ ConfLineIs l (.header h')) ∨
    ∃ a1 l a2, a = a1 ++ l :: a2 ∧ ConfLineIs l (.header h) ∧ ∀ l ∈ a2, ∀ h', ¬ ConfLineIs l (.header h')

end Art.Conf
