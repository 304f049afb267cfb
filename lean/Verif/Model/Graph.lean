import Verif.Model.Text
import Verif.Model.Scan
import Mathlib.Data.Rat.Floor

/-!
# The family graph and completion
Models artifact-data/src/graph.rs, artifact-data/src/artifact.rs and `Impl::to_statistics` of
artifact-lib/src/lib.rs.

Simplifications: `f64`/`f32` arithmetic is exact rational arithmetic; `u32` ids do not overflow;
`debug_assert`s are not part of the release program and are left out.
-/

namespace Art

instance : HasKey Nat Nat := ⟨id⟩
instance : HasKey (Nat × Nat) (Nat × Nat) := ⟨id⟩

/-- `petgraph::graphmap::DiGraphMap<u32, ()>` as used by artifact-data/src/graph.rs L31.
`nodes` and `edges` are in insertion order, without repetitions. -/
structure DiGraph where
  nodes : ISet Nat
  edges : ISet (Nat × Nat)
  deriving DecidableEq

namespace DiGraph

/-- `DiGraphMap::new()` (artifact-data/src/graph.rs L39). -/
def empty : DiGraph := ⟨[], []⟩

/-- `DiGraphMap::add_node` (artifact-data/src/graph.rs L42). -/
def addNode (g : DiGraph) (a : Nat) : DiGraph := { g with nodes := ISet.insert g.nodes a }

/-- `DiGraphMap::add_edge` (artifact-data/src/graph.rs L44): adds missing end points, ignores an
edge that is already there. -/
def addEdge (g : DiGraph) (a b : Nat) : DiGraph :=
  { nodes := ISet.insert (ISet.insert g.nodes a) b, edges := ISet.insert g.edges (a, b) }

/-- `DiGraphMap::neighbors` (artifact-data/src/graph.rs L64, L121, L128): targets of the outgoing
edges in insertion order. -/
def neighbors (g : DiGraph) (a : Nat) : List Nat :=
  (g.edges.filter (fun e => e.1 = a)).map (·.2)

/-- What the code relies on of `petgraph::algo::toposort` (artifact-data/src/graph.rs L87):
`Ok(order)` lists every node once, with every edge going forward; `Err` only if there is a
non-empty closed walk. petgraph itself is not modelled; `DiGraph.toposort` below is one algorithm
that satisfies this contract on every graph (`Art.toposort_contract`). -/
def TopoContract (g : DiGraph) (r : Option (List Nat)) : Prop :=
  match r with
  | some order =>
    order.Perm g.nodes ∧
      ∀ a b, (a, b) ∈ g.edges → ∃ l₁ l₂ l₃, order = l₁ ++ a :: l₂ ++ b :: l₃
  | none => ∃ a, Relation.TransGen (fun x y => (x, y) ∈ g.edges) a a

/-- Remove, `fuel` times, the first remaining node without remaining predecessor. Helper of
`DiGraph.toposort`, stands for artifact-data/src/graph.rs L87. -/
def topoAux (g : DiGraph) : Nat → List Nat → Option (List Nat)
  | 0, rest => if rest = [] then some [] else none
  | fuel + 1, rest =>
    if rest = [] then some []
    else
      match rest.find? (fun b => rest.all (fun a => (a, b) ∉ g.edges)) with
      | none => none
      | some b => (topoAux g fuel (rest.erase b)).map (b :: ·)

/-- A topological sort; stands for `petgraph::algo::toposort` (artifact-data/src/graph.rs L87).
petgraph may return a different order: all theorems are about every order that satisfies
`TopoContract`. -/
def toposort (g : DiGraph) : Option (List Nat) := topoAux g g.nodes.length g.nodes

end DiGraph

/-- artifact-data/src/graph.rs L25-32 (`Graphs`). -/
structure Graphs where
  lookupName : IMap Nat Name
  lookupId : IMap Name Nat
  full : DiGraph

/-- artifact-data/src/graph.rs L177-180: the inner loop of `create_ids`. -/
def createIdsInner (st : IMap Name Nat × Nat) (pof : Name) : IMap Name Nat × Nat :=
  (IMap.insert st.1 pof st.2, st.2 + 1)

/-- artifact-data/src/graph.rs L174-181: one iteration of the outer loop of `create_ids`. -/
def createIdsStep (st : IMap Name Nat × Nat) (p : Name × ISet Name) : IMap Name Nat × Nat :=
  p.2.foldl createIdsInner (IMap.insert st.1 p.1 st.2, st.2 + 1)

/-- artifact-data/src/graph.rs L170-183 (`create_ids`). -/
def createIds (names : IMap Name (ISet Name)) : IMap Name Nat :=
  (names.foldl createIdsStep ([], 1)).1

/-- Indexing `map[key]`: panics when the key is missing (artifact-data/src/graph.rs L41, L44, L65,
L96, L120, L122, L129, L132, L134, L152, L154; also `expect!(map.get(..))` L112, L117). -/
def index {α β κ : Type} [HasKey α κ] [DecidableEq κ] (m : IMap α β) (a : α) : Res Unit β :=
  match IMap.get? m a with
  | some b => .ok b
  | none => .panic

/-- Monadic left fold: a `for` loop whose body may panic. E.g. artifact-data/src/graph.rs L111-141. -/
def foldRes {σ α : Type} (f : σ → α → Res Unit σ) : σ → List α → Res Unit σ
  | s, [] => .ok s
  | s, a :: l => do
    let s' ← f s a
    foldRes f s' l

/-- artifact-data/src/graph.rs L43-45: the inner loop of `determine_graphs`. -/
def addPartof (ids : IMap Name Nat) (id : Nat) (g : DiGraph) (p : Name) : Res Unit DiGraph := do
  let i ← index ids p
  pure (g.addEdge i id)

/-- artifact-data/src/graph.rs L40-46: one iteration of the loop of `determine_graphs`. -/
def addArtifact (ids : IMap Name Nat) (g : DiGraph) (p : Name × ISet Name) : Res Unit DiGraph := do
  let id ← index ids p.1
  foldRes (addPartof ids id) (g.addNode id) p.2

/-- artifact-data/src/graph.rs L36-54 (`determine_graphs`). -/
def determineGraphs (partofs : IMap Name (ISet Name)) : Res Unit Graphs := do
  let ids := createIds partofs
  let g ← foldRes (addArtifact ids) DiGraph.empty partofs
  pure { lookupId := ids, lookupName := IMap.collect (ids.map (fun p => (p.2, p.1))), full := g }

/-- artifact-data/src/graph.rs L61-68: the closure of `determine_parts`. -/
def partsOf (graphs : Graphs) (p : Nat × Name) : Res Unit (Name × ISet Name) := do
  let l ← Res.mapM' (fun i => index graphs.lookupName i) (graphs.full.neighbors p.1)
  pure (p.2, ISet.collect l)

/-- artifact-data/src/graph.rs L57-70 (`determine_parts`). -/
def determineParts (graphs : Graphs) : Res Unit (IMap Name (ISet Name)) := do
  let l ← Res.mapM' (partsOf graphs) graphs.lookupName
  pure (IMap.collect l)

/-- artifact-lib/src/lib.rs L43-45 (`SUBNAME_TST_RE` = `(?i)^\.tst-.*$`). -/
def subnameTstRe : Re := .seq (.litI c!".tst-") (.star true (.ch (fun c => c ≠ '\n')))

/-- artifact-lib/src/lib.rs L158 (`SUBNAME_TST_RE.is_match(&sub.raw)`). -/
def SubName.isTst (s : SubName) : Bool := subnameTstRe.isFull s.raw

/-- `f64::from(b as u8)` (artifact-lib/src/lib.rs L148, L155). -/
def oneIf (b : Bool) : ℚ := if b then 1 else 0

/-- `(count, value, sec_count, sec_value)` of artifact-lib/src/lib.rs L143-175. -/
structure Stats where
  count : Nat
  value : ℚ
  secCount : Nat
  secValue : ℚ
  deriving DecidableEq

/-- artifact-lib/src/lib.rs L152-162: the loop over the subnames in `to_statistics`. -/
def statStep (c : ImplCode) (st : Stats) (sub : SubName) : Stats :=
  let v := oneIf (IMap.contains c.secondary sub)
  { count := st.count + 1
    value := st.value + v
    secCount := if sub.isTst then st.secCount + 1 else st.secCount
    secValue := if sub.isTst then st.secValue + v else st.secValue }

/-- artifact-lib/src/lib.rs L143-175 (`Impl::to_statistics`). -/
def Impl.toStatistics (i : Impl) (subnames : ISet SubName) : Stats :=
  match i with
  | .done _ => ⟨1, 1, 1, 1⟩
  | .code c => subnames.foldl (statStep c) ⟨1, oneIf c.primary.isSome, 0, 0⟩
  | .notImpl => if subnames = [] then ⟨0, 0, 0, 0⟩ else ⟨1 + subnames.length, 0, 0, 0⟩

/-- artifact-data/src/graph.rs L100-106 (`ratio`). -/
def ratio (value : ℚ) (count : Nat) : ℚ := if count = 0 then 0 else value / count

/-- `f64::round`: to the nearest integer, half away from zero (used in
artifact-data/src/graph.rs L162). -/
def roundQ (x : ℚ) : ℤ := if 0 ≤ x then ⌊x + 1 / 2⌋ else ⌈x - 1 / 2⌉

/-- artifact-data/src/graph.rs L161-163 (`round_ratio`). -/
def roundRatio (x : ℚ) : ℚ := (roundQ (x * 1000) : ℚ) / 1000

/-- artifact-data/src/graph.rs L108-109: the two accumulators `implemented` and `tested`. -/
structure DoneSt where
  implemented : IMap Nat ℚ
  tested : IMap Nat ℚ

/-- artifact-data/src/graph.rs L121-124: loop over the parts of a TST. -/
def addPartTst (st : DoneSt) (s : Stats) (part : Nat) : Res Unit Stats := do
  let v ← index st.implemented part
  pure { s with value := s.value + v, count := s.count + 1 }

/-- artifact-data/src/graph.rs L128-137: loop over the parts of a non TST. -/
def addPart (graphs : Graphs) (st : DoneSt) (s : Stats) (part : Nat) : Res Unit Stats := do
  let t ← index st.tested part
  let n ← index graphs.lookupName part
  if n.ty ≠ Ty.TST then
    let v ← index st.implemented part
    pure { count := s.count + 1, value := s.value + v,
           secCount := s.secCount + 1, secValue := s.secValue + t }
  else
    pure { s with secCount := s.secCount + 1, secValue := s.secValue + t }

/-- artifact-data/src/graph.rs L120-138: the slots of one artifact, parts included. -/
def slots (graphs : Graphs) (st : DoneSt) (id : Nat) (name : Name) (s : Stats) :
    Res Unit Stats :=
  if name.ty = Ty.TST then do
    let s' ← foldRes (addPartTst st) s (graphs.full.neighbors id)
    pure { s' with secValue := s'.value, secCount := s'.count }
  else foldRes (addPart graphs st) s (graphs.full.neighbors id)

/-- artifact-data/src/graph.rs L111-141: one iteration of the main loop. -/
def completeStep (graphs : Graphs) (impls : IMap Nat Impl) (subnames : IMap Name (ISet SubName))
    (st : DoneSt) (id : Nat) : Res Unit DoneSt := do
  let name ← index graphs.lookupName id
  match IMap.get? subnames name with
  | none => pure st
  | some sub => do
    let impl ← index impls id
    let s ← slots graphs st id name (impl.toStatistics sub)
    pure { tested := IMap.insert st.tested id (ratio s.secValue s.secCount)
           implemented := IMap.insert st.implemented id (ratio s.value s.count) }

/-- artifact-data/src/graph.rs L147-155: the closure building the result. -/
def completeOut (graphs : Graphs) (st : DoneSt) (p : Nat × ℚ) : Res Unit (Name × Completed) := do
  let t ← index st.tested p.1
  let n ← index graphs.lookupName p.1
  pure (n, { spc := roundRatio p.2, tst := roundRatio t })

/-- artifact-data/src/graph.rs L94-97: converts `impls` to by-id. -/
def implById (graphs : Graphs) (p : Name × Impl) : Res Unit (Nat × Impl) := do
  let i ← index graphs.lookupId p.1
  pure (i, p.2)

/-- artifact-data/src/graph.rs L74-159 (`determine_completed`). `topo` is the result of
`petgraph::algo::toposort(&graphs.full, None)` (L87), `none` for `Err`. -/
def determineCompleted (topo : Option (List Nat)) (graphs : Graphs) (impls : IMap Name Impl)
    (subnames : IMap Name (ISet SubName)) : Res Unit (IMap Name Completed) :=
  match topo with
  | none => .ok (IMap.collect (impls.map (fun p => (p.1, { spc := 0, tst := 0 }))))
  | some order => do
    let byId ← Res.mapM' (implById graphs) impls
    let st ← foldRes (completeStep graphs (IMap.collect byId) subnames) ⟨[], []⟩ order.reverse
    let out ← Res.mapM' (completeOut graphs st) st.implemented
    pure (IMap.collect out)

/-- The closure of `determine_subnames` (artifact-data/src/artifact.rs L138). -/
def subnamesOf (p : Name × ArtifactIm) : Res Unit (Name × ISet SubName) := do
  let s ← parseSubnames p.2.text
  pure (p.1, s)

/-- artifact-data/src/artifact.rs L133-140 (`determine_subnames`). -/
def determineSubnames (ims : IMap Name ArtifactIm) : Res Unit (IMap Name (ISet SubName)) := do
  let l ← Res.mapM' subnamesOf ims
  pure (IMap.collect l)

/-- artifact-data/src/artifact.rs L157-163: the implementation state of one artifact. -/
def implOf (codeImpls : IMap Name ImplCode) (p : Name × ArtifactIm) : Impl :=
  match p.2.done with
  | some d => .done d
  | none =>
    match IMap.get? codeImpls p.1 with
    | some c => .code c
    | none => .notImpl

/-- artifact-data/src/artifact.rs L151-167 (`determine_impls`). -/
def determineImpls (ims : IMap Name ArtifactIm) (codeImpls : IMap Name ImplCode) :
    IMap Name Impl :=
  IMap.collect (ims.map (fun p => (p.1, implOf codeImpls p)))

/-- artifact-data/src/artifact.rs L26-32 (`ArtifactsLoaded`). -/
structure ArtifactsLoaded where
  ims : IMap Name ArtifactIm
  graphs : Graphs
  partofs : IMap Name (ISet Name)
  parts : IMap Name (ISet Name)
  subnames : IMap Name (ISet SubName)

/-- artifact-data/src/artifact.rs L37-56 (`finalize_load_artifact`). The two halves run in
parallel but share nothing that is written. -/
def finalizeLoadArtifact (ims : IMap Name ArtifactIm) : Res Unit ArtifactsLoaded := do
  let subnames ← determineSubnames ims
  let partofs ← determinePartofs ims
  let graphs ← determineGraphs partofs
  let parts ← determineParts graphs
  pure { ims := ims, graphs := graphs, partofs := partofs, parts := parts, subnames := subnames }

/-- artifact-data/src/artifact.rs L91-106: building one artifact. Simplification: the entries are
looked up instead of removed; `defined` is an `IndexMap`, so no name is asked for twice. -/
def buildArtifact (l : ArtifactsLoaded) (impls : IMap Name Impl) (completed : IMap Name Completed)
    (ids : IMap Name HashIm) (p : Name × FilePath) : Res Unit (Name × Artifact) := do
  let id ← index ids p.1
  let partof ← index l.partofs p.1
  let parts ← index l.parts p.1
  let comp ← index completed p.1
  let im ← index l.ims p.1
  let impl ← index impls p.1
  let subs ← index l.subnames p.1
  pure (p.1, { id := id, name := p.1, file := p.2, partof := partof, parts := parts,
               completed := comp, text := im.text, impl := impl, subnames := subs })

/-- artifact-data/src/artifact.rs L61-117 (`determine_artifacts`). `hashIm` is
`ArtifactIm::hash_im` (artifact-lib/src/lib.rs L243); `topo` as in `determineCompleted`. -/
def determineArtifacts (hashIm : ArtifactIm → HashIm) (topo : Option (List Nat))
    (l : ArtifactsLoaded) (codeImpls : IMap Name ImplCode) (defined : IMap Name FilePath) :
    Res Unit (IMap Name Artifact) := do
  let impls := determineImpls l.ims codeImpls
  let completed ← determineCompleted topo l.graphs impls l.subnames
  let ids := IMap.collect (l.ims.map (fun p => (p.1, hashIm p.2)))
  let out ← Res.mapM' (buildArtifact l impls completed ids) defined
  pure (IMap.collect out)

end Art
