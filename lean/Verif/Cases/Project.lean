import Verif.Props.Project
import Verif.Props.Completion

/-!
# Cases: loaded projects and their lints
The theorems of `Props/Completion.lean` and `Props/Project.lean` applied to concrete projects that meet their hypotheses.
-/

namespace Art
open Spec

/-! ## completion -/

/-- The loaded example project. -/
noncomputable def caseArts : IMap Name Artifact := exProj_loads.choose

theorem caseArts_loads : Loads exHash exProj exCode (exDefined exProj) caseArts := exProj_loads.choose_spec.2.1
theorem caseArts_acyclic : ¬ Cyclic (artsOf caseArts) := exProj_loads.choose_spec.2.2.2.2

/-- Loading the artifacts in another order than in the example, with the code in another order too. -/
theorem caseBack_loads : ∃ arts, Loads exHash exProj.reverse exCode.reverse (exDefined exProj.reverse) arts := by
  have hn : IMap.Nodup exProj.reverse := by unfold IMap.Nodup; decide +kernel
  obtain ⟨arts, h, -⟩ := exHas (i := exProj.reverse) (c := exCode.reverse) (fun m => m.length = 4) (by decide +kernel)
  exact ⟨arts, exLoads hn h⟩

theorem caseBack_input : LoadInput exProj.reverse (exDefined exProj.reverse) := exInput _ (by unfold IMap.Nodup; decide +kernel)

theorem caseBack_same (n : Name) : IMap.get? exProj n = IMap.get? exProj.reverse n :=
  IMap.get?_perm (List.reverse_perm _).symm exProj_nodup n

theorem caseBack_coverage (n : Name) : SameCoverage (IMap.get? exCode n) (IMap.get? exCode.reverse n) := by
  have hn : IMap.Nodup exCode := by unfold IMap.Nodup; decide +kernel
  rw [← IMap.get?_perm (List.reverse_perm _).symm hn n]
  cases IMap.get? exCode n with
  | none => trivial
  | some c => exact ⟨rfl, fun _ => Iff.rfl⟩

/-- Both orders give the same ratios, before rounding as well. -/
example : ∃ arts', Loads exHash exProj.reverse exCode.reverse (exDefined exProj.reverse) arts' ∧ ∃ S T S' T',
    CompletionRule (artsOf caseArts) S T ∧ CompletionRule (artsOf arts') S' T' ∧
    ∀ a ∈ artsOf caseArts, S (key a.name) = S' (key a.name) ∧ T (key a.name) = T' (key a.name) := by
  obtain ⟨arts', h'⟩ := caseBack_loads
  have hi := exInput exProj exProj_nodup
  have hc' : ¬ Cyclic (artsOf arts') := fun hc =>
    caseArts_acyclic (C16_cyclic_independent caseBack_input h' hi caseArts_loads (fun n => (caseBack_same n).symm) hc)
  obtain ⟨S, T, hr, -⟩ := C16_rule hi caseArts_loads caseArts_acyclic
  obtain ⟨S', T', hr', -⟩ := C16_rule caseBack_input h' hc'
  exact ⟨arts', h', S, T, S', T', hr, hr', C16_same_ratios hi caseArts_loads caseBack_input h' caseBack_same caseBack_coverage caseArts_acyclic hr hr'⟩

/-- A finished requirement with a finished specification below it. -/
def caseFull : IMap Name ArtifactIm := [exArt "REQ-a" [] (some "yes") "", exArt "SPC-a" [] (some "too") ""]

/-- Everything that counts for a complete artifact is complete: the hypotheses hold for `SPC-a` below `REQ-a`. -/
example : ∃ arts, Loads exHash caseFull [] (exDefined caseFull) arts ∧ ∃ S T, CompletionRule (artsOf arts) S T ∧
    ∃ a ∈ artsOf arts, ∃ b ∈ artsOf arts, a.name = nm "REQ-a" ∧ b.name = nm "SPC-a" ∧ CountsFor (artsOf arts) b a ∧ S (key a.name) = 1 ∧
      S (key b.name) = 1 ∧ ∀ x ∈ ownSlots b.impl b.subnames, x = 1 := by
  have hn : IMap.Nodup caseFull := by unfold IMap.Nodup; decide +kernel
  obtain ⟨arts, h, a, ha, b, hb, ea, eb, hba, h1, ia, ib, pa, pb⟩ := exHas (i := caseFull) (c := [])
    (fun m => ∃ a ∈ artsOf m, ∃ b ∈ artsOf m, a.name = nm "REQ-a" ∧ b.name = nm "SPC-a" ∧ CountsFor (artsOf m) b a ∧ a.completed.spc = 1 ∧
      a.impl = .done c!"yes" ∧ b.impl = .done c!"too" ∧ (∀ x ∈ partsIn (artsOf m) a.name, x.name = b.name) ∧ partsIn (artsOf m) b.name = []) (by decide +kernel)
  have hi := exInput _ hn
  have hl := exLoads hn h
  have hc : ¬ Cyclic (artsOf arts) := fun hc => by
    rw [(hl.spec hi).2.2.2.2.2.2.1 hc a ha] at h1
    norm_num at h1
  obtain ⟨S, T, hr, -⟩ := C16_rule hi hl hc
  have hb1 : S (key b.name) = 1 := ((C18_hundred hc hr).1 b hb).2 (by simp [spcSlots, ib, pb, ownSlots])
  have hS : S (key a.name) = 1 := by
    refine ((C18_hundred hc hr).1 a ha).2 ⟨by simp [spcSlots, ia, ownSlots], fun x hx => ?_⟩
    simp only [spcSlots, ia, ownSlots, List.singleton_append, List.mem_cons, List.mem_map, List.mem_filter] at hx
    rcases hx with rfl | ⟨y, ⟨hy, -⟩, rfl⟩
    · rfl
    · rw [pa y hy, hb1]
  exact ⟨arts, hl, S, T, hr, a, ha, b, hb, ea, eb, hba, hS, C18_everything_below hc hr ha hS (.single hba)⟩

example : |roundRatio (2 / 3) - 2 / 3| ≤ 1 / 2000 ∧ (roundRatio (2 / 3) = 1 ↔ (1999 / 2000 : ℚ) ≤ 2 / 3) ∧ (roundRatio (2 / 3) = 0 ↔ (2 / 3 : ℚ) < 1 / 2000) :=
  C18_rounding (by norm_num) (by norm_num)

/-- A cycle is exactly when there is no order, in the project with a cycle. -/
example : ∃ l topo arts, finalizeLoadArtifact exCycle = .ok l ∧ determineArtifacts exHash topo l [] (exDefined exCycle) = .ok arts ∧
    Cyclic (artsOf arts) ∧ topo = none := by
  obtain ⟨hi, arts, ⟨l, topo, h1, h2, h3⟩, hc, -, -⟩ := C19_no_cycle_lint
  exact ⟨l, topo, arts, h1, h3, hc, (C19_cycle_iff hi h1 h2 h3).1.2 hc⟩

/-! ## lints -/

/-- The loaded project with a problem of each kind. -/
noncomputable def caseBad : IMap Name Artifact := exBad_lints.2.choose

theorem caseBad_loads : Loads exHash exBad exBadCode (exDefined exBad) caseBad := exBad_lints.2.choose_spec.1

theorem caseBad_reported : ∃ ls, Project.lint exLibs ⟨exSettings, exBadCode, caseBad⟩ = .ok ls ∧ ls.map (fun l => String.ofList l.msg) = exBadSays := by
  have h := exBad_lints.2.choose_spec.2
  change (Project.lint exLibs ⟨exSettings, exBadCode, caseBad⟩).toOption.map _ = _ at h
  cases e : Project.lint exLibs ⟨exSettings, exBadCode, caseBad⟩ with
  | ok ls => rw [e] at h; exact ⟨ls, rfl, by simpa [Res.toOption] using h⟩
  | err e' => rw [e] at h; simp [Res.toOption] at h
  | panic => rw [e] at h; simp [Res.toOption] at h

noncomputable def caseLints : List Lint := caseBad_reported.choose
theorem caseLints_eq : Project.lint exLibs ⟨exSettings, exBadCode, caseBad⟩ = .ok caseLints := caseBad_reported.choose_spec.1

/-- The link to nowhere is reported. -/
example : ∃ l ∈ caseLints, l.level = .error ∧ l.category = .artifact ∧
    ∃ n q : Name, l.msg = n.raw ++ c!" defines partof=" ++ q.raw ++ c!" which does not exist" :=
  (C13_reported exBad_lints.1 caseBad_loads (.inl caseLints_eq)).2 (by decide +kernel)

example := C13_reported_each exBad_lints.1 caseBad_loads (.inl caseLints_eq) c!"/a.md" (nm "REQ-a") (nm "REQ-nowhere")

/-- The link to a lower type is reported. -/
example : ∃ l ∈ caseLints, l.level = .error ∧ l.category = .artifact ∧
    ∃ n q : Name, l.msg = n.raw ++ c!" cannot have `partof` " ++ q.raw ++ c!": invalid types." :=
  (C14_reported exBad_lints.1 caseBad_loads (.inl caseLints_eq)).2 (by decide +kernel)

example := C14_reported_each exBad_lints.1 caseBad_loads (.inl caseLints_eq) c!"/a.md" (nm "REQ-a") (nm "SPC-b")

example : tyRank (nm "TST-a-b").ty ≤ tyRank (nm "SPC-a-b").ty := C14_auto ⟨nm "SPC-a-b", .inr (by decide +kernel), rfl⟩

example := C40_warned exBad_lints.1 caseBad_loads caseLints_eq
example := C41_warned exBad_lints.1 caseBad_loads caseLints_eq
example := C42_reported exBad_lints.1 caseBad_loads (.inl caseLints_eq) c!"/a.md" (nm "SPC-c")
example := C44_reported exBad_lints.1 caseBad_loads (.inl caseLints_eq) c!"/a.md" (nm "SPC-b")

/-- The reference to the finished artifact `SPC-b` in line 1 is reported there. -/
example : ∃ l ∈ caseLints, l.category = .implCode ∧ l.path = some c!"/x.rs" ∧ l.line = some 1 := by
  have hs : ∀ (n : Name) (s : SubName) (loc : CodeLoc), Recorded exBadCode n (some s) loc → SubLike s.raw := by
    rintro n s loc ⟨c, hc, hm⟩
    simp only [exBadCode, List.mem_cons, List.not_mem_nil, or_false, Prod.mk.injEq] at hc
    rcases hc with ⟨-, rfl⟩ | ⟨-, rfl⟩ | ⟨-, rfl⟩ <;> simp at hm
    · rcases hm with ⟨rfl, -⟩ | ⟨rfl, -⟩ <;> (unfold SubLike; decide +kernel)
    · obtain ⟨rfl, -⟩ := hm
      unfold SubLike
      decide +kernel
  have hr : Recorded exBadCode (nm "SPC-b") none ⟨c!"/x.rs", 1⟩ := ⟨⟨some ⟨c!"/x.rs", 1⟩, []⟩, by unfold exBadCode; exact List.mem_cons_self, rfl⟩
  have hw : WrongRef exBad (nm "SPC-b") none c!"Artifact's done field is set" :=
    .done none (exArt "SPC-b" [] (some "yes") "[[.one]]") (by unfold exBad; exact List.mem_cons_of_mem _ List.mem_cons_self) rfl (by decide)
  obtain ⟨l, h1, h2, h3, h4, -⟩ := (C41_each exBad_lints.1 caseBad_loads caseLints_eq hs hr).2 ⟨_, hw⟩
  exact ⟨l, h1, h2, h3, h4⟩

/-- A reference to a finished artifact changes nothing but the lints. -/
example : Loads exHash exBad (exBadCode.drop 1) (exDefined exBad) caseBad :=
  C44_done_overrides (by decide +kernel) caseBad_loads

/-! ## projects without lints -/

/-- The loaded project with a cycle, which has no lints. -/
noncomputable def caseCycle : IMap Name Artifact := C19_no_cycle_lint.2.choose

theorem caseCycle_loads : Loads exHash exCycle [] (exDefined exCycle) caseCycle := C19_no_cycle_lint.2.choose_spec.1
theorem caseCycle_cyclic : Cyclic (artsOf caseCycle) := C19_no_cycle_lint.2.choose_spec.2.1
theorem caseCycle_lints : Project.lint exLibs ⟨exSettings, [], caseCycle⟩ = .ok [] := C19_no_cycle_lint.2.choose_spec.2.2.1

/-- All links of a project without errors lead somewhere, and never to a lower type. -/
example : (∀ a ∈ artsOf caseCycle, ∀ q ∈ a.partof, ∃ b ∈ artsOf caseCycle, key b.name = key q) ∧
    ∃ a, Relation.TransGen (DirectPart (artsOf caseCycle)) a a ∧ tyRank a.name.ty ≤ tyRank a.name.ty := by
  refine ⟨C13_resolvable C19_no_cycle_lint.1 caseCycle_loads (.inl caseCycle_lints) (by simp), ?_⟩
  obtain ⟨a, ha⟩ := caseCycle_cyclic
  exact ⟨a, ha, C14_order C19_no_cycle_lint.1 caseCycle_loads (.inl caseCycle_lints) (by simp) ha⟩

/-- All conditions for a silent project hold in the project with a cycle. -/
example : ([] : List Lint) = [] := by
  have inp := C19_no_cycle_lint.1
  refine C19_silent inp caseCycle_loads caseCycle_lints (by decide +kernel) (by decide +kernel) ?_ ?_ ?_ ?_ (by simp [exSettings])
  · intro a ha line hl
    have := fun h => (C42_reported inp caseCycle_loads (.inl caseCycle_lints) a.file a.name).2 ⟨a, ha, rfl, rfl, line, hl, h⟩
    simpa [not_or] using this
  · intro x hx hd sub
    simp only [exCycle, exArt, List.mem_cons, List.not_mem_nil, or_false] at hx
    rcases hx with rfl | rfl <;> (rintro ⟨pre, s, post, h, -⟩; have := congrArg List.length h; simp at this; omega)
  · intro a ha n sub hw hn
    have := (C40_warned inp caseCycle_loads caseCycle_lints ⟨.warn, some a.file, none, .artifact, _⟩).2 ⟨a, ha, n, sub, hw, hn, rfl⟩
    simp at this
  · rintro n sub loc msg ⟨c, hc, -⟩
    simp at hc

end Art
