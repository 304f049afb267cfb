import Verif.Props.Better
import Verif.Props.Dot
import Verif.Cases.Depends

/-! # Property C95: concrete cases -/

namespace Art.Better
open Spec Depends Tested

/-- One YAML text can be read. -/
def doneLibs : Libs := { exLibs with yamlRead := fun t => if t = c!"done: yes" then some (some c!"yes", none) else none }

/-- A requirement, a specification with code for itself and for its subname, another one without code as its part, which in the second version is done. -/
def beforeFs : FS := exFs c!"# REQ-a\nwhat\n# SPC-a\nhow [[.x]]\n" c!"# SPC-a-b\nmore\n" c!"// #SPC-a\n// #SPC-a.x" c!""
def afterFs : FS := exFs c!"# REQ-a\nwhat\n# SPC-a\nhow [[.x]]\n" c!"# SPC-a-b\ndone: yes\n###\nmore\n" c!"// #SPC-a\n// #SPC-a.x" c!""

/-- The second version of the first specification is done instead, although it has a subname with code. -/
def wrongFs : FS := exFs c!"# REQ-a\nwhat\n# SPC-a\ndone: yes\n###\nhow [[.x]]\n" c!"# SPC-a-b\nmore\n" c!"// #SPC-a\n// #SPC-a.x" c!""

def artsRead (fs : FS) : List Artifact := match readNow doneLibs exId fs exS with
  | .ok r => artsOf r.2.artifacts
  | _ => []

theorem artsRead_reads (a b x y : Str) (hc : (walkCode (exFs a b x y) exS).countP (fun f => (codeSent doneLibs (exFs a b x y) f).dead) < 4)
    (ha : (walkArtifacts (exFs a b x y) exS).countP (fun f => (artSent doneLibs exS.pre (exFs a b x y) f).dead) < 4)
    (ho : (readNow doneLibs exId (exFs a b x y) exS).isOk = true) :
    ∃ c p, ReadsProject doneLibs (fun _ => some exRaw) exId 4 (exFs a b x y) c!"/p" (.ok (c, p)) ∧ artsRead (exFs a b x y) = artsOf p.artifacts := by
  have hs : SettingsOf (fun _ => some exRaw) (exFs a b x y) c!"/p" exS := ⟨_, _, (exFs_settings _ _ _ _).1, (exFs_settings [] [] [] []).2⟩
  have r := readNow_reads (hash := exId) hs hc ha
  unfold artsRead
  generalize readNow doneLibs exId (exFs a b x y) exS = o at r ho ⊢
  cases o with
  | ok x => exact ⟨x.1, x.2, r, rfl⟩
  | err => cases ho
  | panic => cases ho

/-- `Kept`, computed. -/
def keptNow (as as' : List Artifact) : Bool := as.all fun a => as'.any fun a' => decide (key a'.name = key a.name) && decide (a.partof.map key = a'.partof.map key)

theorem keptNow_kept {as as' : List Artifact} (h : keptNow as as' = true) : Kept as as' := by
  intro a ha
  obtain ⟨a', ha', h⟩ := List.any_eq_true.1 (List.all_eq_true.1 h a ha)
  simp only [Bool.and_eq_true, decide_eq_true_eq] at h
  refine ⟨a', ha', h.1, fun n => ?_⟩
  have e : ∀ b : Artifact, PartOf b n ↔ key n ∈ b.partof.map key := by
    intro b
    unfold PartOf
    rw [List.mem_map]
  rw [e, e, h.2]

def doneNow (a a' : Artifact) : Bool := ownNow a a' || (match a'.impl with | .done _ => true | _ => false) && (a.subnames.isEmpty || a.impl == .notImpl)

theorem doneNow_done {a a' : Artifact} (h : doneNow a a' = true) : SameOwn a a' ∨ (∃ d, a'.impl = .done d) ∧ (a.subnames = [] ∨ a.impl = .notImpl) := by
  unfold doneNow at h
  rcases Bool.or_eq_true_iff.1 h with h | h
  · exact .inl (ownNow_own h)
  · obtain ⟨h1, h2⟩ := Bool.and_eq_true_iff.1 h
    refine .inr ⟨?_, by simpa using h2⟩
    split at h1
    · rename_i d e; exact ⟨d, e⟩
    · cases h1

/-- The hypotheses of `C95_done` are met: in the second version one specification is marked as done; this raises three percentages and lowers none. -/
theorem done_case : ∃ c p c' p', ReadsProject doneLibs (fun _ => some exRaw) exId 4 beforeFs c!"/p" (.ok (c, p)) ∧
    ReadsProject doneLibs (fun _ => some exRaw) exId 4 afterFs c!"/p" (.ok (c', p')) ∧ Kept (artsOf p.artifacts) (artsOf p'.artifacts) ∧
    Kept (artsOf p'.artifacts) (artsOf p.artifacts) ∧
    (Each (artsOf p.artifacts) (artsOf p'.artifacts) fun a a' => SameOwn a a' ∨ (∃ d, a'.impl = .done d) ∧ (a.subnames = [] ∨ a.impl = .notImpl)) ∧
    (artsOf p.artifacts).map (fun a => (a.name.raw, a.completed)) = [(c!"REQ-a", ⟨667 / 1000, 0⟩), (c!"SPC-a", ⟨667 / 1000, 0⟩), (c!"SPC-a-b", ⟨0, 0⟩)] ∧
    (artsOf p'.artifacts).map (fun a => (a.name.raw, a.completed)) = [(c!"REQ-a", ⟨1, 1⟩), (c!"SPC-a", ⟨1, 1⟩), (c!"SPC-a-b", ⟨1, 1⟩)] ∧
    Each (artsOf p.artifacts) (artsOf p'.artifacts) fun a a' => a.completed.spc ≤ a'.completed.spc ∧ a.completed.tst ≤ a'.completed.tst := by
  obtain ⟨c, p, h, e⟩ := artsRead_reads c!"# REQ-a\nwhat\n# SPC-a\nhow [[.x]]\n" c!"# SPC-a-b\nmore\n" c!"// #SPC-a\n// #SPC-a.x" c!""
    (by decide +kernel) (by decide +kernel) (by decide +kernel)
  obtain ⟨c', p', h', e'⟩ := artsRead_reads c!"# REQ-a\nwhat\n# SPC-a\nhow [[.x]]\n" c!"# SPC-a-b\ndone: yes\n###\nmore\n" c!"// #SPC-a\n// #SPC-a.x" c!""
    (by decide +kernel) (by decide +kernel) (by decide +kernel)
  have k1 : keptNow (artsRead beforeFs) (artsRead afterFs) = true := by decide +kernel
  have k2 : keptNow (artsRead afterFs) (artsRead beforeFs) = true := by decide +kernel
  have k3 : ((artsRead beforeFs).all fun a => (artsRead afterFs).all fun a' => !decide (key a'.name = key a.name) || doneNow a a') = true := by decide +kernel
  have k4 : (artsRead beforeFs).map (fun a => (a.name.raw, a.completed)) = [(c!"REQ-a", ⟨667 / 1000, 0⟩), (c!"SPC-a", ⟨667 / 1000, 0⟩), (c!"SPC-a-b", ⟨0, 0⟩)] := by decide +kernel
  have k5 : (artsRead afterFs).map (fun a => (a.name.raw, a.completed)) = [(c!"REQ-a", ⟨1, 1⟩), (c!"SPC-a", ⟨1, 1⟩), (c!"SPC-a-b", ⟨1, 1⟩)] := by decide +kernel
  have b1 : artsRead beforeFs = artsOf p.artifacts := e
  have b2 : artsRead afterFs = artsOf p'.artifacts := e'
  rw [b1] at k4
  rw [b2] at k5
  rw [b1, b2] at k1 k2 k3
  have hE : Each (artsOf p.artifacts) (artsOf p'.artifacts) fun a a' => SameOwn a a' ∨ (∃ d, a'.impl = .done d) ∧ (a.subnames = [] ∨ a.impl = .notImpl) := by
    intro a ha a' ha' ek
    have := List.all_eq_true.1 (List.all_eq_true.1 k3 a ha) a' ha'
    simp only [ek, decide_true, Bool.not_true, Bool.false_or] at this
    exact doneNow_done this
  exact ⟨c, p, c', p', h, h', keptNow_kept k1, keptNow_kept k2, hE, k4, k5, C95_done h h' (keptNow_kept k1) (keptNow_kept k2) hE⟩

/-- The condition of `C95_done` is needed: marking a specification as done that has code for itself and its subname lowers its percentage and the one of the requirement above it, which the program reports
as an error. -/
theorem C95_done_lowers : (artsRead beforeFs).map (fun a => (a.name.raw, a.completed.spc)) = [(c!"REQ-a", 667 / 1000), (c!"SPC-a", 667 / 1000), (c!"SPC-a-b", 0)] ∧
    (artsRead wrongFs).map (fun a => (a.name.raw, a.completed.spc)) = [(c!"REQ-a", 1 / 2), (c!"SPC-a", 1 / 2), (c!"SPC-a-b", 0)] ∧
    ((readNow doneLibs exId wrongFs exS).toOption.map fun r => r.1.error.map fun l => String.ofList l.msg) =
      some ["SPC-a: subnames are defined when the `done` field is set."] := by
  refine ⟨?_, ?_, ?_⟩ <;> decide +kernel

/-- `C95_slots` applied: code for the artifact and one of two subnames can be exchanged for code for the two subnames, but not for `done`. -/
theorem slots_case : NoWorse [1, 1, 0] [0, 1, 1] ∧ ¬ NoWorse [1, 1, 0] [1] ∧ Bits [1, 1, 0] ∧ Bits [0, 1, 1] := by
  unfold NoWorse Bits; decide +kernel

end Art.Better
