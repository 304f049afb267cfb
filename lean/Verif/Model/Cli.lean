import Verif.Model.Listing
import Verif.Model.Init
import Verif.Model.Export
import Verif.Model.Wire

/-!
# The command line
Models artifact-app/src/lib.rs L60-96 (`run`), artifact-app/src/bin/art.rs, the options declared in artifact-app/src/{init,check,fmt,ls,export}.rs and
artifact-app/src/serve/mod.rs, and `export_html` of artifact-app/src/export.rs with artifact-app/src/frontend.rs.

How words are read is modelled after clap 2.32.0 with the settings that structopt 0.2.14 makes (from memory): options can be repeated only if they count, values are
not split, a word that begins with `-` and is longer is never a value, and every sub-command has `--help` and `--version`. What happens if an option comes without its
value is left open (`Outcome.dangling`). All words are valid Unicode.
-/

namespace Art
namespace Cli

/-- One option as declared with `#[structopt]`, e.g. artifact-app/src/check.rs L25-31. `takes`: it has a value; `many`: it can be repeated; `number`: the value is a `u64`. -/
structure OptDef where
  id : Str
  short : Option Char
  long : Str
  takes : Bool
  many : Bool
  number : Bool
  default : Option Str
  deriving DecidableEq, Repr

/-- One positional argument as declared with `#[structopt]`, e.g. artifact-app/src/export.rs L49-64. -/
structure PosDef where
  id : Str
  required : Bool
  number : Bool
  default : Option Str
  deriving DecidableEq, Repr

/-- A sub-command. artifact-app/src/lib.rs L66-71. -/
structure AppDef where
  name : Str
  opts : List OptDef
  pos : List PosDef
  deriving DecidableEq, Repr

/-- `#[structopt(long = "verbose", short = "v", default_value = "0")]` on a `u64`, artifact-app/src/check.rs L25-27, fmt.rs L25-27, init.rs L26-28, ls.rs L34-36,
export.rs L41-43: an option with a value. -/
def verboseOpt : OptDef := ⟨c!"verbosity", some 'v', c!"verbose", true, false, true, some c!"0"⟩

/-- `#[structopt(long = "work-dir")]` on an `Option<String>`, artifact-app/src/check.rs L29-31 and the same elsewhere. -/
def workOpt : OptDef := ⟨c!"work_dir", none, c!"work-dir", true, false, false, none⟩

/-- A `bool`. artifact-app/src/ls.rs L74-122. -/
def flagOpt (id : Str) (short : Option Char) (long : Str) : OptDef := ⟨id, short, long, false, false, false, none⟩

/-- artifact-app/src/init.rs L23-33 (`Init`). -/
def initApp : AppDef := ⟨c!"init", [verboseOpt, workOpt], []⟩

/-- artifact-app/src/check.rs L21-32 (`Check`). -/
def checkApp : AppDef := ⟨c!"check", [verboseOpt, workOpt], []⟩

/-- artifact-app/src/fmt.rs L21-36 (`Fmt`). -/
def fmtApp : AppDef := ⟨c!"fmt", [verboseOpt, workOpt, ⟨c!"ty_", none, c!"type", true, false, false, none⟩], []⟩

/-- artifact-app/src/ls.rs L29-127 (`Ls`). -/
def lsApp : AppDef := ⟨c!"ls", [verboseOpt, workOpt, ⟨c!"fields", some 'f', c!"fields", true, false, false, some c!"name"⟩, flagOpt c!"long" (some 'l') c!"long",
  ⟨c!"spc", some 's', c!"spc", true, false, false, some c!">0"⟩, ⟨c!"tst", some 't', c!"tst", true, false, false, some c!">0"⟩,
  flagOpt c!"name" (some 'N') c!"name", flagOpt c!"file" (some 'F') c!"file", flagOpt c!"subnames" (some 'S') c!"subnames", flagOpt c!"parts" (some 'P') c!"parts",
  flagOpt c!"partof" (some 'O') c!"partof", flagOpt c!"impl_" (some 'I') c!"impl", flagOpt c!"text" (some 'T') c!"text", flagOpt c!"all" (some 'A') c!"all",
  flagOpt c!"plain" none c!"plain", ⟨c!"output_ty", none, c!"type", true, false, false, some c!"list"⟩], [⟨c!"PATTERN", false, false, none⟩]⟩

/-- artifact-app/src/serve/mod.rs L25-40 (`Serve`); `parse(from_occurrences)` (L29) makes `-v` a flag that is counted. -/
def serveApp : AppDef := ⟨c!"serve", [⟨c!"verbosity", some 'v', c!"verbose", false, true, false, none⟩, workOpt], [⟨c!"port", false, true, some c!"5373"⟩]⟩

/-- artifact-app/src/export.rs L25-64 (`Export`). -/
def exportApp : AppDef := ⟨c!"export", [verboseOpt, workOpt], [⟨c!"TYPE", true, false, none⟩, ⟨c!"PATH", true, false, none⟩]⟩

/-- artifact-app/src/lib.rs L66-71: the sub-commands. -/
def apps : List AppDef := [initApp, checkApp, fmtApp, lsApp, serveApp, exportApp]

/-! ## reading words -/

/-- What comes of reading the words. Used for artifact-app/src/lib.rs L73 (`get_matches`): `info` prints help or the version and exits with 0, `refused` prints an
error and exits with 1. -/
inductive Outcome (α : Type) where
  | ok (a : α)
  | info
  | refused
  | dangling
  deriving DecidableEq, Repr

/-- What has been read so far: options with their values, the newest first, positional arguments in order, the option that still needs a value, and whether `--`
came. State of clap's parser, artifact-app/src/lib.rs L73. -/
structure Seen where
  given : List (Str × Option Str)
  pos : List Str
  wait : Option Str
  rest : Bool
  deriving DecidableEq, Repr

/-- State of clap's parser at the beginning, artifact-app/src/lib.rs L73. -/
def Seen.start : Seen := ⟨[], [], none, false⟩

/-- The word begins a new argument: it starts with `-` and is not just that. clap's `is_new_arg`, for artifact-app/src/lib.rs L73. -/
def isNew : Str → Bool
  | '-' :: _ :: _ => true
  | _ => false

/-- `trim_left_matches` of clap's `OsStrExt2`, for artifact-app/src/lib.rs L73. -/
def trimC (c : Char) (s : Str) : Str := s.dropWhile (· = c)

/-- An option with or without its value. clap's `parse_opt`, for artifact-app/src/lib.rs L73. -/
def addOpt (st : Seen) (o : OptDef) : Option Str → Seen
  | some v => { st with given := (o.id, some (trimC '=' v)) :: st.given, wait := none }
  | none => { st with given := (o.id, none) :: st.given, wait := some o.id }

/-- A flag. clap's `parse_flag`, for artifact-app/src/lib.rs L73. -/
def addFlag (st : Seen) (o : OptDef) : Seen := { st with given := (o.id, none) :: st.given, wait := none }

/-- A word without its dashes: the name of the option and the text after `=`, if there is one. clap's `parse_long_arg`, for artifact-app/src/lib.rs L73. -/
def splitEq (s : Str) : Str × Option Str :=
  (s.takeWhile (· ≠ '='), match s.dropWhile (· ≠ '=') with
    | [] => none
    | _ :: v => some v)

/-- A word that begins with `--`. clap's `parse_long_arg`, for artifact-app/src/lib.rs L73. The text after the `=` of a flag is dropped. -/
def longWord (a : AppDef) (st : Seen) (w : Str) : Outcome Seen :=
  let (n, v) := splitEq (trimC '-' w)
  match a.opts.find? (fun o => o.takes && o.long == n) with
  | some o => .ok (addOpt st o v)
  | none =>
    match a.opts.find? (fun o => !o.takes && o.long == n) with
    | some o => .ok (addFlag st o)
    | none => if n = c!"help" ∨ n = c!"version" then .info else .refused

/-- A word that begins with one `-`, without it. clap's `parse_short_arg`, for artifact-app/src/lib.rs L73. -/
def shortWord (a : AppDef) (st : Seen) : Str → Outcome Seen
  | [] => .ok st
  | c :: r =>
    match a.opts.find? (fun o => o.takes && o.short == some c) with
    | some o => .ok (addOpt st o (if r = [] then none else some r))
    | none =>
      match a.opts.find? (fun o => !o.takes && o.short == some c) with
      | some o => shortWord a (addFlag st o) r
      | none => if c = 'h' ∨ c = 'V' then .info else .refused

/-- A positional argument; there may be too many. clap's `get_matches_with`, for artifact-app/src/lib.rs L73. -/
def addPos (a : AppDef) (st : Seen) (w : Str) : Outcome Seen :=
  if st.pos.length < a.pos.length then .ok { st with pos := st.pos ++ [w] } else .refused

/-- One word. clap's `get_matches_with`, for artifact-app/src/lib.rs L73. -/
def oneWord (a : AppDef) (st : Seen) (w : Str) : Outcome Seen :=
  if st.rest then addPos a st w
  else if w = c!"--" then .ok { st with rest := true }
  else if isNew w then
    if c!"--".isPrefixOf w then longWord a st w else shortWord a st w.tail
  else
    match st.wait with
    | some id => .ok { st with given := (id, some w) :: st.given.tail, wait := none }
    | none => addPos a st w

/-- All words, until one is refused or asks for help. clap's `get_matches_with`, for artifact-app/src/lib.rs L73. -/
def words (a : AppDef) : Seen → List Str → Outcome Seen
  | st, [] => .ok st
  | st, w :: l =>
    match oneWord a st w with
    | .ok st => words a st l
    | x => x

/-- `u64::from_str`: decimal digits, with a `+` before them or not, below 2^64. Validator of artifact-app/src/check.rs L27, serve/mod.rs L39. -/
def u64FromStr (s : Str) : Option Nat :=
  let d := match s with
    | '+' :: d => d
    | _ => s
  usizeFromStr (2 ^ 64) d

/-- What is known of the words at the end: options with values, in order, and positional arguments. clap's `ArgMatches`, artifact-app/src/lib.rs L73. -/
structure Matches where
  given : List (Str × Option Str)
  pos : List Str
  deriving DecidableEq, Repr

/-- An option that cannot be repeated is there twice, or a value is no number. clap's `Validator`, for artifact-app/src/lib.rs L73. -/
def badOpt (m : Matches) (o : OptDef) : Bool :=
  (!o.many && decide (1 < (m.given.filter fun g => g.1 == o.id).length)) ||
    (o.number && m.given.any fun g => g.1 == o.id && g.2.any fun v => (u64FromStr v).isNone)

/-- A required argument is missing, or it is no number. clap's `Validator`, for artifact-app/src/lib.rs L73. -/
def badPos : List PosDef → List Str → Bool
  | [], _ => false
  | p :: ps, [] => p.required || badPos ps []
  | p :: ps, v :: vs => (p.number && (u64FromStr v).isNone) || badPos ps vs

/-- An option that needs a value is there without it. clap's `Validator`, for artifact-app/src/lib.rs L73. -/
def lacksValue (a : AppDef) (m : Matches) : Bool := m.given.any fun g => g.2.isNone && a.opts.any fun o => o.takes && o.id == g.1

/-- Reading the words of a sub-command. artifact-app/src/lib.rs L73 (`get_matches`). -/
def parseApp (a : AppDef) (l : List Str) : Outcome Matches :=
  match words a .start l with
  | .ok st =>
    let m : Matches := ⟨st.given.reverse, st.pos⟩
    if a.opts.any (badOpt m) || badPos a.pos m.pos then .refused
    else if lacksValue a m then .dangling
    else .ok m
  | .info => .info
  | .refused => .refused
  | .dangling => .dangling

/-- A word before the sub-command: only help and version are known. artifact-app/src/lib.rs L62-73. -/
def rootWord (w : Str) : Outcome Unit :=
  if c!"--".isPrefixOf w then
    let n := (splitEq (trimC '-' w)).1
    if n = c!"help" ∨ n = c!"version" then .info else .refused
  else if w = c!"-" then .refused
  else
    match w with
    | '-' :: c :: _ => if c = 'h' ∨ c = 'V' then .info else .refused
    | _ => .refused

/-- The words after `art`; `ok none` if there is no sub-command. artifact-app/src/lib.rs L62-75, with the sub-command `help` that clap adds. -/
def parseArt : List Str → Outcome (Option (Str × Matches))
  | [] => .ok none
  | w :: l =>
    match apps.find? (fun a => a.name == w) with
    | some a =>
      match parseApp a l with
      | .ok m => .ok (some (a.name, m))
      | .info => .info
      | .refused => .refused
      | .dangling => .dangling
    | none =>
      if w = c!"help" then
        match l with
        | [] => .info
        | [n] => if n = c!"help" ∨ apps.any (fun a => a.name == n) then .info else .refused
        | _ => .refused
      else if w = c!"--" then (if l = [] then .ok none else .refused)
      else
        match rootWord w with
        | .info => .info
        | _ => .refused

/-! ## the options of a command -/

/-- `ArgMatches::value_of`, used by the code that structopt makes of e.g. artifact-app/src/check.rs L22-32. -/
def Matches.valueOf (m : Matches) (o : OptDef) : Option Str :=
  match m.given.find? (fun g => g.1 == o.id) with
  | some (_, some v) => some v
  | _ => o.default

/-- `ArgMatches::is_present`, used by the code that structopt makes of artifact-app/src/ls.rs L74-122. -/
def Matches.present (m : Matches) (id : Str) : Bool := m.given.any fun g => g.1 == id

/-- `ArgMatches::occurrences_of`, used by the code that structopt makes of artifact-app/src/serve/mod.rs L29-31. -/
def Matches.count (m : Matches) (id : Str) : Nat := (m.given.filter fun g => g.1 == id).length

/-- The number that `-v` gives. artifact-app/src/check.rs L25-27. -/
def Matches.verbosity (m : Matches) : Nat := ((m.valueOf verboseOpt).bind u64FromStr).getD 0

deriving instance DecidableEq for Ls

/-- A command with its options. artifact-app/src/lib.rs L75-95. The `Ls` of the model has no `--plain`. -/
inductive Cmd where
  | init (verbosity : Nat) (work : Option Str)
  | check (verbosity : Nat) (work : Option Str)
  | fmt (verbosity : Nat) (work ty : Option Str)
  | ls (verbosity : Nat) (work : Option Str) (ls : Ls) (plain : Bool)
  | serve (verbosity : Nat) (work : Option Str) (port : Nat)
  | export (verbosity : Nat) (work : Option Str) (ty path : Str)
  /-- L82-87. -/
  | missing
  /-- L88-94. -/
  | unknown (sub : Str)
  deriving DecidableEq

/-- `Ls::from_clap`, artifact-app/src/lib.rs L79 with artifact-app/src/ls.rs L33-127. -/
def lsOf (m : Matches) : Ls where
  pattern := m.pos[0]?
  fields := (m.valueOf ⟨c!"fields", some 'f', c!"fields", true, false, false, some c!"name"⟩).getD []
  long := m.present c!"long"
  spc := (m.valueOf ⟨c!"spc", some 's', c!"spc", true, false, false, some c!">0"⟩).getD []
  tst := (m.valueOf ⟨c!"tst", some 't', c!"tst", true, false, false, some c!">0"⟩).getD []
  shown := ⟨m.present c!"name", m.present c!"file", m.present c!"subnames", m.present c!"parts", m.present c!"partof", m.present c!"impl_", m.present c!"text"⟩
  all := m.present c!"all"
  outputTy := (m.valueOf ⟨c!"output_ty", none, c!"type", true, false, false, some c!"list"⟩).getD []

/-- artifact-app/src/lib.rs L75-95: the `match`. -/
def cmdOf : Option (Str × Matches) → Cmd
  | none => .missing
  | some (sub, m) =>
    if sub = c!"init" then .init m.verbosity (m.valueOf workOpt)
    else if sub = c!"check" then .check m.verbosity (m.valueOf workOpt)
    else if sub = c!"fmt" then .fmt m.verbosity (m.valueOf workOpt) (m.valueOf ⟨c!"ty_", none, c!"type", true, false, false, none⟩)
    else if sub = c!"ls" then .ls m.verbosity (m.valueOf workOpt) (lsOf m) (m.present c!"plain")
    else if sub = c!"serve" then .serve (m.count c!"verbosity") (m.valueOf workOpt) ((u64FromStr (m.pos[0]?.getD c!"5373")).getD 0)
    else if sub = c!"export" then .export m.verbosity (m.valueOf workOpt) (m.pos[0]?.getD []) (m.pos[1]?.getD [])
    else .unknown sub

/-- The command that the words after `art` are. artifact-app/src/lib.rs L60-96 up to the call. -/
def commandOf (l : List Str) : Outcome Cmd :=
  match parseArt l with
  | .ok x => .ok (cmdOf x)
  | .info => .info
  | .refused => .refused
  | .dangling => .dangling

end Cli
end Art
