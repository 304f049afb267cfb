import Verif.Model.Graph
import Verif.Model.App

/-!
# Completion in floating point
The arithmetic that artifact-data/src/graph.rs L74-163 and `Impl::to_statistics` of artifact-lib/src/lib.rs really do: `f64` sums and
quotients, rounded to `f32` at the end. Model/Graph.lean models the same functions with exact arithmetic; the functions of this file differ
from those only in that every arithmetic operation is followed by a rounding `fl`. With `fl = id` they are the functions of Model/Graph.lean
(`Art.C58_exact`); with `fl = f64` they are the program.

Simplifications: a floating point number is the rational number it stands for. Infinities, NaN, the sign of zero and overflow are left out:
all numbers that occur are between 0 and the number of slots of an artifact. The rounding is `roundTiesToEven` of IEEE 754, the only one
Rust uses.
-/

namespace Art

/-! ## the numbers -/

/-- `2^e` for an integer `e`. Helper of `roundTo`, stands for the exponent of a floating point number (the types `f64`, `f32` of
artifact-data/src/graph.rs L104, L162). -/
def pow2 : ℤ → ℚ
  | .ofNat n => ((2 ^ n : Nat) : ℚ)
  | .negSucc n => 1 / ((2 ^ (n + 1) : Nat) : ℚ)

/-- The exponent of the leading binary digit of `x ≠ 0`. Helper of `roundTo` (artifact-data/src/graph.rs L104, L162). -/
def ilog (x : ℚ) : ℤ :=
  let e : ℤ := (Nat.log2 x.num.natAbs : ℤ) - (Nat.log2 x.den : ℤ)
  if pow2 e ≤ |x| then e else e - 1

/-- To the nearest integer, ties to the even one. Helper of `roundTo` (artifact-data/src/graph.rs L104, L162). -/
def roundEven (x : ℚ) : ℤ :=
  let f := ⌊x⌋
  if x - f < 1 / 2 then f else if 1 / 2 < x - f then f + 1 else if f % 2 = 0 then f else f + 1

/-- The rounding of IEEE 754 to `p` binary digits with smallest exponent `emin`: what every arithmetic operation on the types `f64` and
`f32` does with the exact result (artifact-data/src/graph.rs L104, L121, L128, L133, L162; artifact-lib/src/lib.rs L156, L160). -/
def roundTo (p : Nat) (emin : ℤ) (x : ℚ) : ℚ :=
  let e := max (ilog x - ((p : ℤ) - 1)) emin
  (roundEven (x / pow2 e) : ℚ) * pow2 e

/-- Rounding to the type `f64` (artifact-data/src/graph.rs L100-106). -/
def f64 (x : ℚ) : ℚ := roundTo 53 (-1074) x

/-- Rounding to the type `f32` (artifact-data/src/graph.rs L162: `as f32`). -/
def f32 (x : ℚ) : ℚ := roundTo 24 (-149) x

/-! ## completion -/

/-- artifact-lib/src/lib.rs L153-164, as `statStep`. -/
def statStepF (fl : ℚ → ℚ) (c : ImplCode) (st : Stats) (sub : SubName) : Stats :=
  let v := oneIf (IMap.contains c.secondary sub)
  { count := st.count + 1
    value := fl (st.value + v)
    secCount := if sub.isTst then st.secCount + 1 else st.secCount
    secValue := if sub.isTst then fl (st.secValue + v) else st.secValue }

/-- artifact-lib/src/lib.rs L143-176 (`Impl::to_statistics`). -/
def Impl.toStatisticsF (fl : ℚ → ℚ) (i : Impl) (subnames : ISet SubName) : Stats :=
  match i with
  | .done _ => ⟨1, 1, 1, 1⟩
  | .code c => subnames.foldl (statStepF fl c) ⟨1, oneIf c.primary.isSome, 0, 0⟩
  | .notImpl => if subnames = [] then ⟨0, 0, 0, 0⟩ else ⟨1 + subnames.length, 0, 0, 0⟩

/-- artifact-data/src/graph.rs L100-106 (`ratio`): both the conversion `count as f64` and the quotient are rounded. -/
def ratioF (fl : ℚ → ℚ) (value : ℚ) (count : Nat) : ℚ := if count = 0 then 0 else fl (value / fl count)

/-- artifact-data/src/graph.rs L161-163 (`round_ratio`): product, `f64::round` (exact), quotient, conversion to `f32`. -/
def roundRatioF (fl fl' : ℚ → ℚ) (x : ℚ) : ℚ := fl' (fl ((roundQ (fl (x * 1000)) : ℚ) / 1000))

/-- artifact-data/src/graph.rs L121-124, as `addPartTst`. -/
def addPartTstF (fl : ℚ → ℚ) (st : DoneSt) (s : Stats) (part : Nat) : Res Unit Stats := do
  let v ← index st.implemented part
  pure { s with value := fl (s.value + v), count := s.count + 1 }

/-- artifact-data/src/graph.rs L128-137, as `addPart`. -/
def addPartF (fl : ℚ → ℚ) (graphs : Graphs) (st : DoneSt) (s : Stats) (part : Nat) : Res Unit Stats := do
  let t ← index st.tested part
  let n ← index graphs.lookupName part
  if n.ty ≠ Ty.TST then
    let v ← index st.implemented part
    pure { count := s.count + 1, value := fl (s.value + v),
           secCount := s.secCount + 1, secValue := fl (s.secValue + t) }
  else
    pure { s with secCount := s.secCount + 1, secValue := fl (s.secValue + t) }

/-- artifact-data/src/graph.rs L120-138, as `slots`. -/
def slotsF (fl : ℚ → ℚ) (graphs : Graphs) (st : DoneSt) (id : Nat) (name : Name) (s : Stats) : Res Unit Stats :=
  if name.ty = Ty.TST then do
    let s' ← foldRes (addPartTstF fl st) s (graphs.full.neighbors id)
    pure { s' with secValue := s'.value, secCount := s'.count }
  else foldRes (addPartF fl graphs st) s (graphs.full.neighbors id)

/-- artifact-data/src/graph.rs L111-141, as `completeStep`. -/
def completeStepF (fl : ℚ → ℚ) (graphs : Graphs) (impls : IMap Nat Impl) (subnames : IMap Name (ISet SubName))
    (st : DoneSt) (id : Nat) : Res Unit DoneSt := do
  let name ← index graphs.lookupName id
  match IMap.get? subnames name with
  | none => pure st
  | some sub => do
    let impl ← index impls id
    let s ← slotsF fl graphs st id name (impl.toStatisticsF fl sub)
    pure { tested := IMap.insert st.tested id (ratioF fl s.secValue s.secCount)
           implemented := IMap.insert st.implemented id (ratioF fl s.value s.count) }

/-- artifact-data/src/graph.rs L147-155, as `completeOut`. -/
def completeOutF (fl fl' : ℚ → ℚ) (graphs : Graphs) (st : DoneSt) (p : Nat × ℚ) : Res Unit (Name × Completed) := do
  let t ← index st.tested p.1
  let n ← index graphs.lookupName p.1
  pure (n, { spc := roundRatioF fl fl' p.2, tst := roundRatioF fl fl' t })

/-- artifact-data/src/graph.rs L74-159 (`determine_completed`), as `determineCompleted`. -/
def determineCompletedF (fl fl' : ℚ → ℚ) (topo : Option (List Nat)) (graphs : Graphs) (impls : IMap Name Impl)
    (subnames : IMap Name (ISet SubName)) : Res Unit (IMap Name Completed) :=
  match topo with
  | none => .ok (IMap.collect (impls.map (fun p => (p.1, { spc := 0, tst := 0 }))))
  | some order => do
    let byId ← Res.mapM' (implById graphs) impls
    let st ← foldRes (completeStepF fl graphs (IMap.collect byId) subnames) ⟨[], []⟩ order.reverse
    let out ← Res.mapM' (completeOutF fl fl' graphs st) st.implemented
    pure (IMap.collect out)

/-- artifact-data/src/artifact.rs L61-117 (`determine_artifacts`), as `determineArtifacts`. -/
def determineArtifactsF (fl fl' : ℚ → ℚ) (hashIm : ArtifactIm → HashIm) (topo : Option (List Nat))
    (l : ArtifactsLoaded) (codeImpls : IMap Name ImplCode) (defined : IMap Name FilePath) :
    Res Unit (IMap Name Artifact) := do
  let impls := determineImpls l.ims codeImpls
  let completed ← determineCompletedF fl fl' topo l.graphs impls l.subnames
  let ids := IMap.collect (l.ims.map (fun p => (p.1, hashIm p.2)))
  let out ← Res.mapM' (buildArtifact l impls completed ids) defined
  pure (IMap.collect out)

/-! ## what is shown -/

/-- artifact-ser/src/lib.rs L292-302 (`Completed::spc_points`): the constants are `f32` literals. -/
def Completed.spcPointsF (c : Completed) : Nat :=
  if c.spc ≥ f32 1 then 3 else if c.spc ≥ f32 (7 / 10) then 2 else if c.spc ≥ f32 (4 / 10) then 1 else 0

/-- artifact-ser/src/lib.rs L307-315 (`Completed::tst_points`). -/
def Completed.tstPointsF (c : Completed) : Nat := if c.tst ≥ f32 1 then 2 else if c.tst ≥ f32 (5 / 10) then 1 else 0

/-- artifact-app/src/ls.rs L585, L596; artifact-frontend/src/artifact.rs L91, L105: `format!("{:.1}", self.spc * 100.0)`, in tenths of a
percent. The product is a `f32`; it is printed correctly rounded. Simplification: ties away from zero; no ratio of a loaded project gives
a tie (`Art.C58_no_tie`). -/
def tenthsF (x : ℚ) : ℤ := roundQ (f32 (x * 100) * 10)

/-- artifact-ser/src/markdown.rs L129-131: `{:.2}` of the same product, in hundredths of a percent. Simplification as for `tenthsF`. -/
def hundredthsF (x : ℚ) : ℤ := roundQ (f32 (x * 100) * 100)

end Art
