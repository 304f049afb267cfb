import Verif.Model.Name

/-!
# Collapsed names
Models artifact-ser/src/expand_names.rs.
-/

namespace Art

/-- `str::split(',')` (the standard library function used in artifact-ser/src/expand_names.rs L103). -/
def splitComma : Str → List Str
  | [] => [[]]
  | c :: s =>
    if c = ',' then [] :: splitComma s
    else match splitComma s with
      | [] => [[c]]
      | g :: gs => (c :: g) :: gs

/-- artifact-ser/src/expand_names.rs L102-106: split on commas and drop empty pieces. -/
def pieces (s : Str) : List Str := (splitComma s).filter (fun g => g ≠ [])

/-- artifact-ser/src/expand_names.rs L45-107 (`parse_collapsed`). The mutable iterator `raw` is the argument
and the second component of the result; `out` and `cur` are the locals `strout` and `current`.
`fuel` makes the recursion structural: running out of fuel is reported as `panic`, and it is
proved that `expandNames`, which passes more fuel than characters, never gets there. -/
def parseCollapsed : Nat → Str → Bool → Str → Str → Res NameErr (List Str × Str)
  | 0, _, _, _, _ => .panic
  | _ + 1, [], inB, out, cur =>
    if inB then .err .invalidCollapsed else .ok (pieces (out ++ cur), [])
  | f + 1, c :: s, inB, out, cur =>
    if c = ' ' ∨ c = '\n' ∨ c = '\r' then parseCollapsed f s inB out cur
    else if c = '[' then
      if cur = [] then .err .invalidCollapsed
      else match parseCollapsed f s true [] [] with
        | .ok (ps, rest) =>
          parseCollapsed f rest inB (out ++ ps.flatMap (fun p => cur ++ p ++ [','])) []
        | .err e => .err e
        | .panic => .panic
    else if c = ']' then
      if !inB then .err .invalidCollapsed else .ok (pieces (out ++ cur), s)
    else if c = ',' then parseCollapsed f s inB (out ++ cur ++ [',']) []
    else parseCollapsed f s inB out (cur ++ [c])

/-- artifact-ser/src/expand_names.rs L35-40 (`expand_names`), also artifact-ser/src/family.rs L76-83 (`Names::from_str`).
`collect` into `Result<IndexSet<Name>, _>` stops at the first invalid name. -/
def expandNames (raw : Str) : Res NameErr (ISet Name) := do
  let (ps, _) ← parseCollapsed (raw.length + 1) raw false [] []
  let ns ← Res.mapM' Name.fromStr ps
  pure (ISet.collect ns)

end Art
