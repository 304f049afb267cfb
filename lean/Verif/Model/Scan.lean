import Verif.Model.Text
import Verif.Model.Lint

/-!
# References in artifact text and in source code
Models the text patterns of artifact-ser/src/name.rs and artifact-data/src/implemented.rs.
-/

namespace Art

/-- artifact-ser/src/name.rs L185-189 (`TEXT_SUB_NAME_STR`): `(?i)\[\[(?P<sub>\.(?:tst-)?[A-Z0-9_]+)\]\]`. Group 1 is `sub`. -/
def textSubRe : Re := .seq (.litI c!"[[") (.seq (.cap 1 subRe) (.litI c!"]]"))

/-- artifact-ser/src/name.rs L331-334: the closure of `parse_subnames`. `panic` is the `expect!` of the capture group. -/
def subOfMatch (m : Match) : Res Unit SubName :=
  match Caps.get m.2.2 1 with
  | some s => .ok (SubName.mk s)
  | none => .panic

/-- artifact-ser/src/name.rs L328-336 (`parse_subnames`). -/
def parseSubnames (text : Str) : Res Unit (ISet SubName) := do
  let l ← Res.mapM' subOfMatch (textSubRe.findIter text)
  pure (ISet.collect l)

/-- artifact-data/src/implemented.rs L29-41 (`SRC_NAME_RE`). Groups: 1 name, 2 subname, 3 `skip`, 4 `done`. -/
def srcRe : Re :=
  .alt (.seq (.litI c!"#") (.seq (.cap 1 nameRe) (.opt (.cap 2 subRe))))
    (.alt (.cap 3 (.litI c!"#ART-SKIP")) (.cap 4 (.litI c!"#ART-DONE")))

/-- What one match of the source pattern means, artifact-data/src/implemented.rs L76-92. -/
inductive SrcTok where
  | skip
  | done
  | ref (name : Str) (sub : Option Str)
  deriving DecidableEq, Repr

/-- artifact-data/src/implemented.rs L77-92: the case distinction on the captures; `none` is the `expect!` of group 1 (L88). -/
def srcTok (m : Match) : Option SrcTok :=
  if (Caps.get m.2.2 3).isSome then some .skip
  else if (Caps.get m.2.2 4).isSome then some .done
  else (Caps.get m.2.2 1).map (fun n => .ref n (Caps.get m.2.2 2))

/-- `BufRead::lines`: split at newlines, drop one carriage return before each, no final empty line.
Simplification: files that are not UTF-8 (an I/O error in the code) are not modelled here. Called at artifact-data/src/implemented.rs L74, artifact-data/src/raw.rs L222. -/
def linesAux : Str → Str → List Str
  | [], [] => []
  | acc, [] => [acc.reverse]
  | acc, '\n' :: s => (match acc with
      | '\r' :: a => a.reverse
      | a => a.reverse) :: linesAux [] s
  | acc, c :: s => linesAux (c :: acc) s

/-- `BufRead::lines` / `str::lines`. Called at artifact-data/src/implemented.rs L74, artifact-data/src/raw.rs L222, artifact-data/src/project.rs L350. -/
def lines (s : Str) : List Str := linesAux [] s

/-- A found reference, the item sent over the channel in artifact-data/src/implemented.rs L95. -/
abbrev Loc := CodeLoc × Name × Option SubName

/-- artifact-data/src/implemented.rs L76-96: the inner loop over the matches of one line. Returns the new skip state and the
locations. `panic` covers both `expect!`s (L88, L89). -/
def scanMatches (file : FilePath) (line : Nat) : Bool → List Match → Res Unit (Bool × List Loc)
  | skipping, [] => .ok (skipping, [])
  | skipping, m :: ms =>
    match srcTok m with
    | none => if skipping then scanMatches file line skipping ms else .panic
    | some .skip => scanMatches file line true ms
    | some .done => scanMatches file line false ms
    | some (.ref n sub) =>
      if skipping then scanMatches file line skipping ms
      else match Name.fromStr n with
        | .ok name => do
          let (sk, locs) ← scanMatches file line skipping ms
          pure (sk, (⟨file, line⟩, name, sub.map SubName.mk) :: locs)
        | _ => .panic

/-- artifact-data/src/implemented.rs L73-97: the loop over the lines, `n` is the number of the first line. -/
def scanLines (file : FilePath) : Nat → Bool → List Str → Res Unit (List Loc)
  | _, _, [] => .ok []
  | n, skipping, l :: ls => do
    let (sk, locs) ← scanMatches file n skipping (srcRe.findIter l)
    let rest ← scanLines file (n + 1) sk ls
    pure (locs ++ rest)

/-- artifact-data/src/implemented.rs L66-99 (`parse_locations`). -/
def parseLocations (file : FilePath) (content : Str) : Res Unit (List Loc) :=
  scanLines file 0 false (lines content)

/-- artifact-data/src/implemented.rs L176-187 (`duplicate_detected`). -/
def duplicateDetected (loc : CodeLoc) (msg : Str) : Lint :=
  ⟨.error, some loc.file, some loc.line, .parseCodeImplementations, c!"duplicate detected: " ++ msg⟩

/-- State of `join_locations`: primary locations, secondary locations, lints sent so far. artifact-data/src/implemented.rs L105-119. -/
structure JoinSt where
  primary : IMap Name CodeLoc
  secondary : IMap Name (IMap SubName CodeLoc)
  lints : List Lint

/-- artifact-data/src/implemented.rs L149-174 (`insert_secondary`). -/
def insertSecondary (st : JoinSt) (n : Name) (sub : SubName) (loc : CodeLoc) : JoinSt :=
  match IMap.get? st.secondary n with
  | some e =>
    let dup := match IMap.get? e sub with
      | some orig => [duplicateDetected orig (n.raw ++ sub.raw), duplicateDetected loc (n.raw ++ sub.raw)]
      | none => []
    { st with secondary := IMap.insert st.secondary n (IMap.insert e sub loc), lints := st.lints ++ dup }
  | none => { st with secondary := IMap.insert st.secondary n [(sub, loc)] }

/-- artifact-data/src/implemented.rs L113-119: one round of the first loop of `join_locations`. -/
def joinStep (st : JoinSt) (l : Loc) : JoinSt :=
  match l with
  | (loc, n, some sub) => insertSecondary st n sub loc
  | (loc, n, none) =>
    let dup := match IMap.get? st.primary n with
      | some orig => [duplicateDetected orig n.raw, duplicateDetected loc n.raw]
      | none => []
    { st with primary := IMap.insert st.primary n loc, lints := st.lints ++ dup }

/-- artifact-data/src/implemented.rs L123-133: combine each primary location with its secondaries, removing the latter. -/
def joinPrimary : IMap Name CodeLoc → IMap Name (IMap SubName CodeLoc) → IMap Name ImplCode → IMap Name ImplCode × IMap Name (IMap SubName CodeLoc)
  | [], sec, out => (out, sec)
  | (n, loc) :: ps, sec, out =>
    joinPrimary ps (IMap.remove sec n) (IMap.insert out n ⟨some loc, (IMap.get? sec n).getD []⟩)

/-- artifact-data/src/implemented.rs L102-147 (`join_locations`). -/
def joinLocations (locs : List Loc) : IMap Name ImplCode × List Lint :=
  let st := locs.foldl joinStep ⟨[], [], []⟩
  let (out, sec) := joinPrimary st.primary st.secondary []
  (sec.foldl (fun out p => IMap.insert out p.1 ⟨none, p.2⟩) out, st.lints)

end Art
