import Verif.Props.Name
import Verif.Props.Text
import Verif.Props.ExpandNames
import Verif.Props.Scan
import Verif.Props.Join
import Verif.Props.Raw
import Verif.Props.Completion

/-!
# Cases: names, texts, references and completion
The theorems of these files applied to concrete cases that meet their hypotheses.
-/

namespace Art
open Spec

/-! ## names -/

example : IsSub NameChar (fun b => b = 's' ∨ b = 'S') c!".tst-foo_1" := (C03_sub_ascii c!".tst-foo_1" (by decide)).1 (by decide)

example : key (Name.lit c!"TST-a-b") ≠ key (Name.lit c!"REQ-a") :=
  C04_acyclic _ _ (.tail (.tail (.single (.auto (m := Name.lit c!"SPC-a-b") (by decide))) (.auto (m := Name.lit c!"REQ-a-b") (by decide))) (.parent (by decide)))

example : [c!"REQ-foo", c!"REQ-bar-x", c!"SPC-z"] = [c!"REQ-foo", c!"REQ-bar-x", c!"SPC-z"] :=
  have h : Denotes c!"REQ-[foo,bar-[x]],SPC-z" [c!"REQ-foo", c!"REQ-bar-x", c!"SPC-z"] := (parse_ok_iff c!"REQ-[foo, bar-[x]], SPC-z" _).1 ⟨[], by decide⟩
  C06_denotes_unique _ _ _ h h

/-! ## links -/

theorem exIms_nodup : IMap.Nodup exIms := by unfold IMap.Nodup; decide

example : ∃ m, determinePartofs exIms = .ok m ∧ m.map Prod.fst = exIms.map Prod.fst :=
  (C05_partof_shown exIms exIms_nodup).imp fun _ h => ⟨h.1, h.2.1⟩

/-- The automatic link `REQ-A` is gone again, the written link `REQ-b` is kept. -/
example : (Artifact.toIm ⟨⟨Vector.replicate 16 0⟩, Name.lit c!"SPC-A", c!"/a.md", [Name.lit c!"REQ-b", Name.lit c!"REQ-A"], [], ⟨0, 0⟩, c!"x", .notImpl, []⟩) =
    ⟨Name.lit c!"SPC-A", c!"/a.md", [Name.lit c!"REQ-b"], none, c!"x"⟩ := by
  refine C05_roundtrip exIms exIms_nodup [(Name.lit c!"REQ-a", []), (Name.lit c!"SPC-A", [Name.lit c!"REQ-A", Name.lit c!"REQ-b"]), (Name.lit c!"REQ-b", [])] (by decide)
    (Name.lit c!"SPC-A") _ (by decide) rfl ?_ [Name.lit c!"REQ-A", Name.lit c!"REQ-b"] (by decide) _ rfl rfl rfl (by simp) ?_
  · have h : ({ name := Name.lit c!"SPC-A", file := c!"/a.md", partof := [Name.lit c!"REQ-b"], done := none, text := c!"x" } : ArtifactIm).clean =
      ⟨Name.lit c!"SPC-A", c!"/a.md", [Name.lit c!"REQ-b"], none, c!"x"⟩ := by decide
    rw [← h]
    exact (C05_clean _ (by unfold ISet.Nodup; decide)).1
  · exact List.Perm.swap _ _ _

/-! ## references in code -/

example : reported [(1, .ref c!"SPC-a" none), (2, .done), (4, .ref c!"SPC-b" (some c!".x"))] = [(1, c!"SPC-a", none), (4, c!"SPC-b", some c!".x")] := by
  rw [C09_no_markers _ (by decide)]
  rfl

example : ∃ x ∈ exLocs.drop 1, SameSlot x (⟨c!"/b", 3⟩, Name.lit c!"SPC-a", some ⟨c!".x"⟩) ∧ x.1 = ⟨c!"/b", 3⟩ :=
  (C10_exact (exLocs.drop 1) (by decide) _ _ _).1 (by decide)

/-! ## artifacts and their raw form -/

/-- A library that reads two tables from every text. -/
example (L : Libs) : ∃ L' : Libs, loadFile L' [] c!"/a.toml" (.text c!"") = .ok ([⟨Name.lit c!"SPC-a", c!"/a.toml", [], some c!"two", []⟩], []) :=
  ⟨{ L with tomlRead := fun _ => some [(c!"SPC-a", ⟨some c!"one", none, none⟩), (c!"SPC-A", ⟨some c!"two", none, none⟩)] }, C11_one_file_lost _ _ rfl⟩

/-- An artifact with two links and two lines. -/
def exCleanIm : ArtifactIm := ⟨Name.lit c!"SPC-A", c!"/a.md", [Name.lit c!"REQ-b", Name.lit c!"SPC-c"], none, c!"x\ny\n"⟩

example : fromRaw (intoRaw exCleanIm).2.1 (intoRaw exCleanIm).1 (intoRaw exCleanIm).2.2 = exCleanIm :=
  C43_roundtrip exCleanIm (by unfold ISet.Nodup; decide) (by decide)

/-- The automatic link is dropped, the empty text and the empty list do not stay. -/
example : (intoRaw (fromRaw (Name.lit c!"SPC-a") c!"/a.md" ⟨none, some [Name.lit c!"REQ-a"], some []⟩)).2.2.partof ≠ some [] :=
  (C43_raw_normal (Name.lit c!"SPC-a") c!"/a.md" ⟨none, some [Name.lit c!"REQ-a"], some []⟩ (by intro p hp; cases hp; unfold ISet.Nodup; decide)).2.2.2.1

/-! ## completion -/

example : ∃ l, finalizeLoadArtifact exProj = .ok l ∧ ∃ topo, DiGraph.TopoContract l.graphs.full topo :=
  (C15_total (hash := exHash) (code := exCode) (exInput exProj exProj_nodup)).imp fun _ h => ⟨h.1, h.2.1⟩

/-- A loaded project, without a cycle, to which the theorems about loaded projects apply: links, the equations, and their only solution. -/
example : ∃ arts, Loads exHash exProj exCode (exDefined exProj) arts ∧ 4 = (artsOf arts).length ∧
    (∀ a ∈ artsOf arts, ∀ b ∈ artsOf arts, (∃ q ∈ a.parts, key q = key b.name) ↔ (∃ q ∈ b.partof, key q = key a.name)) ∧
    (∀ a ∈ artsOf arts, a.name.ty = .TST → a.completed.spc = a.completed.tst) ∧
    ∃ S T, CompletionRule (artsOf arts) S T ∧ (∀ S' T', CompletionRule (artsOf arts) S' T' → ∀ a ∈ artsOf arts, S (key a.name) = S' (key a.name) ∧ T (key a.name) = T' (key a.name)) ∧
      (∀ a ∈ artsOf arts, S (key a.name) = 1 ↔ spcSlots (artsOf arts) S a ≠ [] ∧ ∀ x ∈ spcSlots (artsOf arts) S a, x = 1) := by
  obtain ⟨arts, hi, hl, h1, -, hc⟩ := exProj_loads
  obtain ⟨S, T, hr, -⟩ := C16_rule hi hl hc
  refine ⟨arts, hl, ?_, (C12_converse hi hl).1, C17_tst_eq_spc hi hl, S, T, hr, fun S' T' h => C16_unique hc hr h, (C18_hundred hc hr).1⟩
  have := congrArg (Option.map List.length) h1
  simp only [exShown, Res.toOption, Option.map_some, List.length_map, List.length_cons, List.length_nil, Option.some.injEq] at this
  simp [artsOf, this]

/-- The same artifacts in another order, with code in other places. -/
example : ∃ arts arts', Loads exHash exProj exCode (exDefined exProj) arts ∧ Loads exHash exProj.reverse exCode.reverse (exDefined exProj.reverse) arts' ∧
    ∀ a ∈ artsOf arts, ∀ a' ∈ artsOf arts', key a.name = key a'.name → a.completed = a'.completed := by
  obtain ⟨arts, hi, hl, -, -, hc⟩ := exProj_loads
  have hn : IMap.Nodup exProj.reverse := by unfold IMap.Nodup; decide +kernel
  have hn' : IMap.Nodup exCode := by unfold IMap.Nodup; decide +kernel
  obtain ⟨arts', h', -⟩ := exHas (i := exProj.reverse) (c := exCode.reverse) (fun m => m.length = 4) (by decide +kernel)
  have hl' := exLoads hn h'
  have hp : ∀ n : Name, IMap.get? exProj n = IMap.get? exProj.reverse n := fun n => IMap.get?_perm (List.reverse_perm _).symm exProj_nodup n
  have hq : ∀ n : Name, IMap.get? exCode n = IMap.get? exCode.reverse n := fun n => IMap.get?_perm (List.reverse_perm _).symm hn' n
  refine ⟨arts, arts', hl, hl', C16_order_independent hi hl (exInput _ hn) hl' hp fun n => ?_⟩
  rw [← hq]
  cases IMap.get? exCode n with
  | none => trivial
  | some c => exact ⟨rfl, fun _ => Iff.rfl⟩

end Art
