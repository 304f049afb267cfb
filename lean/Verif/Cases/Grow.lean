import Verif.Props.Grow
import Verif.Cases.Better

/-! # Property C96: concrete cases -/

namespace Art.Grow
open Spec Depends Tested Better Share

/-- A requirement and a specification with code for one of its two subnames. -/
def smallFs : FS := exFs c!"# REQ-a\nwhat\n# SPC-a\nhow [[.x]] [[.y]]\n" c!"" c!"// #SPC-a\n// #SPC-a.x" c!""

/-- The same with a new part of the specification that has a part of its own, which is done, and is itself done. -/
def moreDone : FS := exFs c!"# REQ-a\nwhat\n# SPC-a\nhow [[.x]] [[.y]]\n" c!"# SPC-a-b\ndone: yes\n###\n# SPC-a-b-c\ndone: yes\n###\n" c!"// #SPC-a\n// #SPC-a.x" c!""

/-- The same with new parts for which there is nothing yet. -/
def morePlans : FS := exFs c!"# REQ-a\nwhat\n# SPC-a\nhow [[.x]] [[.y]]\n" c!"# SPC-a-b\nidea [[.z]]\n# SPC-a-b-c\nidea\n" c!"// #SPC-a\n// #SPC-a.x" c!""

/-- `Old`, computed. -/
def oldNow (as : List Artifact) (n : Name) : Bool := as.any fun b => decide (key b.name = key n)

theorem oldNow_iff {as : List Artifact} {n : Name} : oldNow as n = true ↔ Old as n := by
  unfold oldNow Old
  simp

/-- `StillThere`, computed. -/
def stillNow (as as' : List Artifact) : Bool := as.all fun a => as'.any fun a' =>
  decide (key a'.name = key a.name) && decide ((a.partof.filter (oldNow as)).map key = (a'.partof.filter (oldNow as)).map key)

theorem stillNow_still {as as' : List Artifact} (h : stillNow as as' = true) : StillThere as as' := by
  intro a ha
  obtain ⟨a', ha', h⟩ := List.any_eq_true.1 (List.all_eq_true.1 h a ha)
  simp only [Bool.and_eq_true, decide_eq_true_eq] at h
  refine ⟨a', ha', h.1, fun n hn => ?_⟩
  have e : ∀ b : Artifact, PartOf b n ↔ key n ∈ (b.partof.filter (oldNow as)).map key := by
    intro b
    unfold PartOf
    rw [List.mem_map]
    refine exists_congr fun q => ⟨fun hq => ⟨List.mem_filter.2 ⟨hq.1, oldNow_iff.2 ?_⟩, hq.2⟩, fun hq => ⟨(List.mem_filter.1 hq.1).1, hq.2⟩⟩
    obtain ⟨b, h1, h2⟩ := hn
    exact ⟨b, h1, h2.trans hq.2.symm⟩
  rw [e, e, h.2]

/-- `AllAt`, computed down to some depth. -/
def allAtNow (v : ℚ) (as : List Artifact) : Nat → Artifact → Bool
  | 0, _ => false
  | d + 1, a => decide (a ∈ as) && (ownSlots a.impl a.subnames).all (fun x => decide (x = v)) &&
    (decide (v = 0) || !(ownSlots a.impl a.subnames).isEmpty || !(Counts as a).isEmpty) && (Counts as a).all (allAtNow v as d)

theorem allAtNow_all {v : ℚ} {as : List Artifact} : ∀ {d : Nat} {a : Artifact}, allAtNow v as d a = true → AllAt v as a
  | 0, _, h => by cases h
  | d + 1, a, h => by
    unfold allAtNow at h
    simp only [Bool.and_eq_true, decide_eq_true_eq, List.all_eq_true, Bool.or_eq_true, Bool.not_eq_true', List.isEmpty_eq_false_iff] at h
    exact .mk h.1.1.1 h.1.1.2 (or_assoc.1 h.1.2) fun b hb => allAtNow_all (h.2 b hb)

/-- `NewParts`, computed. -/
def newNow (as as' : List Artifact) (P : Artifact → Bool) : Bool := as'.all fun a' => !oldNow as a'.name || (Counts as' a').all fun x => oldNow as x.name || P x

theorem newNow_new {as as' : List Artifact} {P : Artifact → Bool} {Q : Artifact → Prop} (hQ : ∀ x, P x = true → Q x) (h : newNow as as' P = true) : NewParts as as' Q := by
  intro a' ha' ho x hx hn
  have := List.all_eq_true.1 h a' ha'
  rw [oldNow_iff.2 ho, Bool.not_true, Bool.false_or] at this
  rcases Bool.or_eq_true_iff.1 (List.all_eq_true.1 this x hx) with h1 | h1
  · exact absurd (oldNow_iff.1 h1) hn
  · exact hQ x h1

/-- `Each` and `NoWorse`, computed. -/
def eachNow (as as' : List Artifact) (P : Artifact → Artifact → Bool) : Bool := as.all fun a => as'.all fun a' => !decide (key a'.name = key a.name) || P a a'

theorem eachNow_each {as as' : List Artifact} {P : Artifact → Artifact → Bool} {Q : Artifact → Artifact → Prop} (hQ : ∀ a a', P a a' = true → Q a a') (h : eachNow as as' P = true) :
    Each as as' Q := by
  intro a ha a' ha' e
  have := List.all_eq_true.1 (List.all_eq_true.1 h a ha) a' ha'
  simp only [e, decide_true, Bool.not_true, Bool.false_or] at this
  exact hQ a a' this

instance (o o' : List ℚ) : Decidable (NoWorse o o') := inferInstanceAs (Decidable (_ ∧ _))

theorem small_reads : ∃ c p, ReadsProject doneLibs (fun _ => some exRaw) exId 4 smallFs c!"/p" (.ok (c, p)) ∧ artsRead smallFs = artsOf p.artifacts :=
  artsRead_reads _ _ _ _ (by decide +kernel) (by decide +kernel) (by decide +kernel)

theorem done_reads : ∃ c p, ReadsProject doneLibs (fun _ => some exRaw) exId 4 moreDone c!"/p" (.ok (c, p)) ∧ artsRead moreDone = artsOf p.artifacts :=
  artsRead_reads _ _ _ _ (by decide +kernel) (by decide +kernel) (by decide +kernel)

theorem plans_reads : ∃ c p, ReadsProject doneLibs (fun _ => some exRaw) exId 4 morePlans c!"/p" (.ok (c, p)) ∧ artsRead morePlans = artsOf p.artifacts :=
  artsRead_reads _ _ _ _ (by decide +kernel) (by decide +kernel) (by decide +kernel)

/-- The hypotheses of `C96_finished` are met by two new artifacts that are done; they raise the percentages of the old ones. -/
theorem finished_case : (∃ c p c' p', ReadsProject doneLibs (fun _ => some exRaw) exId 4 smallFs c!"/p" (.ok (c, p)) ∧
      ReadsProject doneLibs (fun _ => some exRaw) exId 4 moreDone c!"/p" (.ok (c', p')) ∧ ¬ Cyclic (artsOf p'.artifacts) ∧
      StillThere (artsOf p.artifacts) (artsOf p'.artifacts) ∧
      (Each (artsOf p.artifacts) (artsOf p'.artifacts) fun a a' => NoWorse (ownSlots a.impl a.subnames) (ownSlots a'.impl a'.subnames)) ∧
      NewParts (artsOf p.artifacts) (artsOf p'.artifacts) (AllAt 1 (artsOf p'.artifacts)) ∧
      Each (artsOf p.artifacts) (artsOf p'.artifacts) fun a a' => a.completed.spc ≤ a'.completed.spc) ∧
    (artsRead smallFs).map (fun a => (a.name.raw, a.completed.spc)) = [(c!"REQ-a", 667 / 1000), (c!"SPC-a", 667 / 1000)] ∧
    (artsRead moreDone).map (fun a => (a.name.raw, a.completed.spc)) = [(c!"REQ-a", 3 / 4), (c!"SPC-a", 3 / 4), (c!"SPC-a-b", 1), (c!"SPC-a-b-c", 1)] := by
  refine ⟨?_, by decide +kernel, by decide +kernel⟩
  obtain ⟨c, p, h, e⟩ := small_reads
  obtain ⟨c', p', h', e'⟩ := done_reads
  have k1 : stillNow (artsRead smallFs) (artsRead moreDone) = true := by decide +kernel
  have k2 : eachNow (artsRead smallFs) (artsRead moreDone) (fun a a' => decide (NoWorse (ownSlots a.impl a.subnames) (ownSlots a'.impl a'.subnames))) = true := by decide +kernel
  have k3 : newNow (artsRead smallFs) (artsRead moreDone) (allAtNow 1 (artsRead moreDone) 3) = true := by decide +kernel
  have k4 : (artsRead moreDone).any (fun a => decide (a.completed ≠ ⟨0, 0⟩)) = true := by decide +kernel
  rw [e, e'] at k1 k2 k3
  rw [e'] at k4
  have hc' : ¬ Cyclic (artsOf p'.artifacts) := by
    obtain ⟨a, ha, hn⟩ := List.any_eq_true.1 k4
    exact fun hc => of_decide_eq_true hn (C79_cycle h' hc a ha)
  have hE : Each (artsOf p.artifacts) (artsOf p'.artifacts) fun a a' => NoWorse (ownSlots a.impl a.subnames) (ownSlots a'.impl a'.subnames) :=
    eachNow_each (fun _ _ h => of_decide_eq_true h) k2
  have hN : NewParts (artsOf p.artifacts) (artsOf p'.artifacts) (AllAt 1 (artsOf p'.artifacts)) := newNow_new (fun _ h => allAtNow_all h) k3
  exact ⟨c, p, c', p', h, h', hc', stillNow_still k1, hE, hN, C96_finished h h' hc' (stillNow_still k1) hE hN⟩

/-- The hypotheses of `C96_planned` are met by two new artifacts that are only planned; they lower the percentages of the old ones. -/
theorem planned_case : (∃ c p c' p', ReadsProject doneLibs (fun _ => some exRaw) exId 4 smallFs c!"/p" (.ok (c, p)) ∧
      ReadsProject doneLibs (fun _ => some exRaw) exId 4 morePlans c!"/p" (.ok (c', p')) ∧ StillThere (artsOf p.artifacts) (artsOf p'.artifacts) ∧
      (Each (artsOf p.artifacts) (artsOf p'.artifacts) fun a a' => NoWorse (ownSlots a'.impl a'.subnames) (ownSlots a.impl a.subnames)) ∧
      NewParts (artsOf p.artifacts) (artsOf p'.artifacts) (AllAt 0 (artsOf p'.artifacts)) ∧
      Each (artsOf p.artifacts) (artsOf p'.artifacts) fun a a' => a'.completed.spc ≤ a.completed.spc) ∧
    (artsRead morePlans).map (fun a => (a.name.raw, a.completed.spc)) = [(c!"REQ-a", 1 / 2), (c!"SPC-a", 1 / 2), (c!"SPC-a-b", 0), (c!"SPC-a-b-c", 0)] := by
  refine ⟨?_, by decide +kernel⟩
  obtain ⟨c, p, h, e⟩ := small_reads
  obtain ⟨c', p', h', e'⟩ := plans_reads
  have k1 : stillNow (artsRead smallFs) (artsRead morePlans) = true := by decide +kernel
  have k2 : eachNow (artsRead smallFs) (artsRead morePlans) (fun a a' => decide (NoWorse (ownSlots a'.impl a'.subnames) (ownSlots a.impl a.subnames))) = true := by decide +kernel
  have k3 : newNow (artsRead smallFs) (artsRead morePlans) (allAtNow 0 (artsRead morePlans) 3) = true := by decide +kernel
  rw [e, e'] at k1 k2 k3
  have hE : Each (artsOf p.artifacts) (artsOf p'.artifacts) fun a a' => NoWorse (ownSlots a'.impl a'.subnames) (ownSlots a.impl a.subnames) :=
    eachNow_each (fun _ _ h => of_decide_eq_true h) k2
  have hN : NewParts (artsOf p.artifacts) (artsOf p'.artifacts) (AllAt 0 (artsOf p'.artifacts)) := newNow_new (fun _ h => allAtNow_all h) k3
  exact ⟨c, p, c', p', h, h', stillNow_still k1, hE, hN, C96_planned h h' (stillNow_still k1) hE hN⟩

/-- `TestsAt`, computed down to some depth, for artifacts that are no tests. -/
def testsAtNow (v : ℚ) (as : List Artifact) : Nat → Artifact → Bool
  | 0, _ => false
  | d + 1, a => decide (a ∈ as) && decide (a.name.ty ≠ .TST) && (ownTests a.impl a.subnames).all (fun x => decide (x = v)) &&
    (decide (v = 0) || !(ownTests a.impl a.subnames).isEmpty || !(partsIn as a.name).isEmpty) && (partsIn as a.name).all (testsAtNow v as d)

theorem testsAtNow_all {v : ℚ} {as : List Artifact} : ∀ {d : Nat} {a : Artifact}, testsAtNow v as d a = true → TestsAt v as a
  | 0, _, h => by cases h
  | d + 1, a, h => by
    unfold testsAtNow at h
    simp only [Bool.and_eq_true, decide_eq_true_eq, List.all_eq_true, Bool.or_eq_true, Bool.not_eq_true', List.isEmpty_eq_false_iff] at h
    exact .other h.1.1.1.1 h.1.1.1.2 h.1.1.2 (or_assoc.1 h.1.2) fun b hb => testsAtNow_all (h.2 b hb)

/-- `AnyNewParts`, computed. -/
def anyNewNow (as as' : List Artifact) (P : Artifact → Bool) : Bool := as'.all fun a' => !oldNow as a'.name || (partsIn as' a'.name).all fun x => oldNow as x.name || P x

theorem anyNewNow_new {as as' : List Artifact} {P : Artifact → Bool} {Q : Artifact → Prop} (hQ : ∀ x, P x = true → Q x) (h : anyNewNow as as' P = true) : AnyNewParts as as' Q := by
  intro a' ha' ho x hx hn
  have := List.all_eq_true.1 h a' ha'
  rw [oldNow_iff.2 ho, Bool.not_true, Bool.false_or] at this
  rcases Bool.or_eq_true_iff.1 (List.all_eq_true.1 this x hx) with h1 | h1
  · exact absurd (oldNow_iff.1 h1) hn
  · exact hQ x h1

/-- The further hypotheses of `C96_tested` are met by the project of `finished_case`, and those of `C96_untested` by the one of `planned_case`. -/
theorem tests_case : eachNow (artsRead smallFs) (artsRead moreDone) (fun a a' => decide (NoWorse (testSlots a) (testSlots a'))) = true ∧
    AnyNewParts (artsRead smallFs) (artsRead moreDone) (TestsAt 1 (artsRead moreDone)) ∧
    eachNow (artsRead smallFs) (artsRead morePlans) (fun a a' => decide (NoWorse (testSlots a') (testSlots a))) = true ∧
    AnyNewParts (artsRead smallFs) (artsRead morePlans) (TestsAt 0 (artsRead morePlans)) ∧
    (artsRead smallFs).map (fun a => (a.name.raw, a.completed.tst)) = [(c!"REQ-a", 0), (c!"SPC-a", 0)] ∧
    (artsRead moreDone).map (fun a => (a.name.raw, a.completed.tst)) = [(c!"REQ-a", 1), (c!"SPC-a", 1), (c!"SPC-a-b", 1), (c!"SPC-a-b-c", 1)] := by
  have k1 : anyNewNow (artsRead smallFs) (artsRead moreDone) (testsAtNow 1 (artsRead moreDone) 3) = true := by decide +kernel
  have k2 : anyNewNow (artsRead smallFs) (artsRead morePlans) (testsAtNow 0 (artsRead morePlans) 3) = true := by decide +kernel
  refine ⟨by decide +kernel, anyNewNow_new (fun _ h => testsAtNow_all h) k1, by decide +kernel, anyNewNow_new (fun _ h => testsAtNow_all h) k2, by decide +kernel, by decide +kernel⟩

/-- Two YAML texts can be read. -/
def ringLibs : Libs := { exLibs with yamlRead := fun t => if t = c!"partof: REQ-b" then some (none, some (.str c!"REQ-b")) else
  if t = c!"done: yes\npartof: REQ-a" then some (some c!"yes", some (.str c!"REQ-a")) else none }

/-- That no cycle is closed is needed in `C96_finished`: a finished artifact that the old one waits for takes the percentages of everything to zero, if it is also a part of it. -/
theorem C96_cycle_lowers :
    ((readNow ringLibs exId (exFs c!"# REQ-a\npartof: REQ-b\n###\n# SPC-c\nhow\n" c!"" c!"// #SPC-c" c!"") exS).toOption.map fun r =>
      r.2.artifacts.map fun x => (x.1.raw, x.2.completed.spc)) = some [(c!"REQ-a", 0), (c!"SPC-c", 1)] ∧
    ((readNow ringLibs exId (exFs c!"# REQ-a\npartof: REQ-b\n###\n# SPC-c\nhow\n" c!"# REQ-b\ndone: yes\npartof: REQ-a\n###\n" c!"// #SPC-c" c!"") exS).toOption.map fun r =>
      r.2.artifacts.map fun x => (x.1.raw, x.2.completed.spc)) = some [(c!"REQ-a", 0), (c!"REQ-b", 0), (c!"SPC-c", 0)] := by
  refine ⟨?_, ?_⟩ <;> decide +kernel

end Art.Grow
