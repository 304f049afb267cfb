import Verif.Model.App
import Verif.Model.View

/-!
# What `art ls` prints
Models the printing of artifact-app/src/ls.rs and the `Display` of artifact-lib/src/lib.rs.
Simplification: `termstyle` is trusted to print each piece of text in its style and to lay out the cells of a table; the pieces are modelled.
-/

namespace Art

/-- A piece of text with its style (`termstyle::Text`). Used at artifact-app/src/ls.rs L433-567. -/
structure Styled where
  text : Str
  color : Option TermColor := none
  bold : Bool := false
  italic : Bool := false
  deriving DecidableEq, Repr

/-- The macro `t!` of `termstyle`: text without any style. Used at artifact-app/src/ls.rs L437-523. -/
def plainText (s : Str) : Styled := ⟨s, none, false, false⟩

/-- `t!(s).bold()`. Used at artifact-app/src/ls.rs L485-502. -/
def boldText (s : Str) : Styled := { plainText s with bold := true }

/-- `El::set_plain` of `termstyle`, used at artifact-app/src/ls.rs L153-155, L255-257. -/
def Styled.setPlain (s : Styled) : Styled := plainText s.text

/-- A ratio printed by `format!("{:.1}", x * 100.0)` (artifact-app/src/ls.rs L585, L596). Simplification: as `tenths`; ratios are never negative. -/
def percent (x : ℚ) : Str := showNat ((tenths x).toNat / 10) ++ c!"." ++ showNat ((tenths x).toNat % 10)

/-- artifact-app/src/ls.rs L577-586 (`spc_style`). -/
def Completed.spcStyle (c : Completed) : Res Unit Styled := do
  let k ← c.spcColor
  .ok { plainText (percent c.spc) with color := some k }

/-- artifact-app/src/ls.rs L588-597 (`tst_style`). -/
def Completed.tstStyle (c : Completed) : Res Unit Styled := do
  let k ← c.tstColor
  .ok { plainText (percent c.tst) with color := some k }

/-- artifact-app/src/ls.rs L522-524 (`name_style`). -/
def Artifact.nameStyle (a : Artifact) : Res Unit Styled := do
  let k ← a.completed.termColor
  .ok { plainText a.name.raw with color := some k }

/-- artifact-app/src/ls.rs L526-540 (`subname_style`). -/
def Artifact.subnameStyle (a : Artifact) (s : SubName) : Styled :=
  let color := match a.impl with
    | .done _ => TermColor.red
    | .code c => if (IMap.get? c.secondary s).isSome then .green else .red
    | .notImpl => .red
  { plainText s.raw with color := some color }

/-- The loops at artifact-app/src/ls.rs L449-456 and L559-566: the pieces with commas between them, the last comma is removed again. -/
def commaed (l : List Styled) : List Styled := (l.flatMap (fun x => [x, plainText c!", "])).dropLast

/-- artifact-app/src/ls.rs L553-557: the closure `lookup`. -/
def lookupStyle (arts : IMap Name Artifact) (n : Name) : Res Unit Styled :=
  match IMap.get? arts n with
  | none => .ok { plainText n.raw with italic := true }
  | some a => a.nameStyle

/-- artifact-app/src/ls.rs L551-567 (`lookup_name_styles`). -/
def lookupNameStyles (arts : IMap Name Artifact) (names : ISet Name) : Res Unit (List Styled) := do
  let l ← Res.mapM' (lookupStyle arts) names
  .ok (commaed l)

/-- artifact-lib/src/lib.rs L219-223 (`Debug for CodeLoc`). -/
def CodeLoc.show (l : CodeLoc) : Str := l.file ++ c!"[" ++ showNat l.line ++ c!"]"

/-- artifact-ser/src/name.rs L493-497 (`Debug for SubName`): in quotes. Simplification: nothing is escaped, subnames have no characters that would be. -/
def SubName.show (s : SubName) : Str := c!"\"" ++ s.raw ++ c!"\""

/-- artifact-lib/src/lib.rs L207-217 (`Display for ImplCode`); the map is printed as by `Formatter::debug_map`. -/
def ImplCode.show (c : ImplCode) : Str :=
  (match c.primary with
    | some l => l.show
    | none => []) ++
  (if c.secondary.isEmpty then []
   else c!"Secondary{" ++ List.intercalate c!", " (c.secondary.map (fun x => x.1.show ++ c!": " ++ x.2.show)) ++ c!"}")

/-- artifact-lib/src/lib.rs L197-205 (`Display for Impl`). -/
def Impl.show : Impl → Str
  | .done s => s
  | .code c => c.show
  | .notImpl => c!"not directly implemented"

/-- artifact-app/src/ls.rs L470: `truncate(text, 30).replace("\n", "\\n")`, with L543-550 (`truncate`). -/
def shortText (s : Str) : Str := (s.take 30).flatMap (fun ch => if ch = '\n' then ['\\', 'n'] else [ch])

/-- A part of the output under a condition (the `if flags.…` of artifact-app/src/ls.rs L444-472 and L501-515). -/
def onlyIf {α : Type} (b : Bool) (x : Res Unit (List α)) : Res Unit (List α) := if b then x else .ok []

/-- artifact-app/src/ls.rs L435-439: the macro `cell!`. -/
def cell (l : List Styled) : List Styled := plainText c!" | " :: l

/-- artifact-app/src/ls.rs L433-474 (`line_style`). -/
def Artifact.lineStyle (arts : IMap Name Artifact) (f : Flags) (a : Artifact) : Res Unit (List (List Styled)) := do
  let spc ← a.completed.spcStyle
  let tst ← a.completed.tstStyle
  let name ← onlyIf f.name (do let n ← a.nameStyle; .ok [cell [n]])
  let parts ← onlyIf f.parts (do let l ← lookupNameStyles arts a.parts; .ok [cell l])
  let partof ← onlyIf f.partof (do let l ← lookupNameStyles arts a.partof; .ok [cell l])
  .ok ([[spc], [tst]] ++ name ++ (if f.subnames then [cell (commaed (a.subnames.map a.subnameStyle))] else []) ++ parts ++ partof ++
    (if f.file then [cell [plainText a.file]] else []) ++ (if f.impl then [cell [plainText a.impl.show]] else []) ++
    (if f.text then [cell [plainText (shortText a.text)]] else []))

/-- artifact-app/src/ls.rs L479-482: the macro `line!`. -/
def line (l : List Styled) : List Styled := l ++ [plainText c!"\n"]

/-- artifact-app/src/ls.rs L484-489: the macro `extend_names!`. -/
def extendNames (arts : IMap Name Artifact) (title : Str) (names : ISet Name) : Res Unit (List Styled) := do
  let l ← lookupNameStyles arts names
  .ok (line [boldText (title ++ c!":")] ++ l.flatMap (fun n => line [boldText c!"- ", n]))

/-- artifact-app/src/ls.rs L476-520 (`full_style`). -/
def Artifact.fullStyle (arts : IMap Name Artifact) (f : Flags) (a : Artifact) : Res Unit (List Styled) := do
  let name ← a.nameStyle
  let spc ← a.completed.spcStyle
  let tst ← a.completed.tstStyle
  let parts ← onlyIf f.parts (extendNames arts c!"Parts" a.parts)
  let partof ← onlyIf f.partof (extendNames arts c!"Partof" a.partof)
  .ok (line [boldText c!"# ", { name with bold := true }] ++
    line [boldText c!"Completed: spc=", spc, boldText c!"%  tst=", tst, boldText c!"%"] ++
    (if f.file then line [boldText c!"File: ", plainText a.file] else []) ++
    (if f.impl then line [boldText c!"Implemented: ", plainText a.impl.show] else []) ++
    parts ++ partof ++
    (if f.text then line [plainText (trimEnd a.text)] else []) ++ line [plainText c!"\n\n"])

/-- artifact-app/src/ls.rs L223-244: the header. -/
def tableHeader (f : Flags) : List (List Styled) :=
  [[boldText c!"spc%"], [boldText c!"tst%"]] ++ (if f.name then [[boldText c!" | name"]] else []) ++
    (if f.subnames then [[boldText c!" | subnames"]] else []) ++ (if f.parts then [[boldText c!" | parts"]] else []) ++
    (if f.partof then [[boldText c!" | partof"]] else []) ++ (if f.file then [[boldText c!" | file"]] else []) ++
    (if f.impl then [[boldText c!" | impl"]] else []) ++ (if f.text then [[boldText c!" | text"]] else [])

/-- What is sent to the terminal. artifact-app/src/ls.rs L129-164. -/
inductive Printed where
  /-- Cells to be laid out in columns. -/
  | table (rows : List (List (List Styled)))
  /-- Pieces one after the other. -/
  | pieces (l : List Styled)
  /-- The artifacts as JSON. -/
  | json (as : List Artifact)
  deriving DecidableEq

/-- A failure to find a colour is a panic of the whole program. artifact-app/src/ls.rs L583, L594. -/
def orPanic {ε α : Type} : Res Unit α → Res ε α
  | .ok x => .ok x
  | _ => .panic

/-- artifact-app/src/ls.rs L215-258 (`display_table`). -/
def displayTable (arts : IMap Name Artifact) (f : Flags) (plain : Bool) (as : List Artifact) : Res Unit Printed := do
  let rows ← Res.mapM' (Artifact.lineStyle arts f) as
  let table := tableHeader f :: rows
  .ok (.table (if plain then table.map (fun row => row.map (fun c => c.map Styled.setPlain)) else table))

/-- artifact-app/src/ls.rs L149-158: the long form. -/
def displayLong (arts : IMap Name Artifact) (f : Flags) (plain : Bool) (as : List Artifact) : Res Unit Printed := do
  let els ← Res.mapM' (Artifact.fullStyle arts f) as
  .ok (.pieces (if plain then els.flatten.map Styled.setPlain else els.flatten))

/-- artifact-app/src/ls.rs L129-165 (`run`), after the project is read; `plain` is the option `--plain` (L120-122). -/
def lsPrint (compile : Str → Option (Str → Bool)) (cmd : Ls) (plain : Bool) (out : Res Categorized (Categorized × Project)) : Res LsErr Printed := do
  let as ← lsShown compile cmd out
  match out with
  | .ok (_, p) =>
    if cmd.outputTy = c!"json" then .ok (.json as)
    else if cmd.long then orPanic (displayLong p.artifacts (Flags.fromCmd cmd) plain as)
    else orPanic (displayTable p.artifacts (Flags.fromCmd cmd) plain as)
  | .err c => .err (.load c)
  | .panic => .panic

end Art
