import Verif.Cases.Reports
import Verif.Props.Layout

/-!
# Concrete cases for C85
-/

namespace Art.Layout
open Spec Reports Cli Undo Split
open Spec.Export (arts)

/-- SPC-a goes to the file of SPC-b, and is spelled with other capitals; SPC-b goes to a new file. -/
def exMovedA : ArtifactIm := ⟨Name.lit c!"spc-A", c!"/p/design/b.md", [], none, c!"how [[.x]]"⟩
def exMovedB : ArtifactIm := ⟨Name.lit c!"SPC-b", c!"/p/design/e.md", [], none, c!"more"⟩
def exMove : List ArtifactOp := [.update exMovedA (exId exImA), .update exMovedB (exId exImB)]

def exPlaced : List ArtifactIm := [exReqA, exMovedA, exMovedB]

theorem exPlaced_storable {q : Project} (h : ∀ a ∈ editable q, a ∈ exPlaced) (hc : (match q.lint keptLibs with | .panic => true | _ => false) = false) : Storable keptLibs exS q := by
  refine ⟨fun a ha => ?_, fun a ha b hb e => ?_, fun e => ?_⟩
  · have hno : ∀ a ∈ exPlaced, (a.text ≠ [] → TextOk keptLibs.fold exS.pre a.text) ∧ YamlOk keptLibs (intoRaw a).2.2 := by
      intro a ha
      simp only [exPlaced, List.mem_cons, List.not_mem_nil, or_false] at ha
      rcases ha with rfl | rfl | rfl <;>
        exact ⟨fun _ => textOk_of (by decide) (by decide) (by decide) (by decide), ⟨nofun, nofun, nofun, nofun, fun h => absurd rfl h⟩⟩
    have hall : ∀ a ∈ exPlaced, ArtFileType.fromPath a.file = some .md := by decide
    unfold Survives
    rw [hall a (h a ha)]
    exact ⟨exS_ok, fun b hb => hno b (h b (List.mem_filter.1 hb).1)⟩
  · have key : ∀ a ∈ exPlaced, ∀ b ∈ exPlaced,
        a.file.reverse.dropWhile (fun c => c != '.') = b.file.reverse.dropWhile (fun c => c != '.') → a.file = b.file := by decide +kernel
    exact key a (h a ha) b (h b hb) (stem_same e)
  · rw [(C40_crash_iff (L := keptLibs) q).2 e] at hc
    cases hc

theorem moved_now : (modifiedNow keptLibs exId exGood exS exMove 1000).map look = some ([exReqA, exMovedA, exMovedB], .done, false, true) ∧
    (modifiedNow keptLibs exId exGood exS exMove 1000).bind (fun r => told r.2.2) = some ([], []) ∧
    (modifiedNow keptLibs exId exGood exS exMove 1000).map (fun r => (IMap.get? r.2.2 c!"/p/design/b.md", IMap.get? r.2.2 c!"/p/design/e.md")) =
      some (some (.file (.text c!"# spc-A\nhow [[.x]]")), some (.file (.text c!"# SPC-b\nmore"))) := by
  refine ⟨?_, ?_, ?_⟩ <;> decide +kernel

/-- The hypotheses of the theorems: two artifacts go to other files. -/
example : ∃ c0 p0 c1 q1 fs1 c1' p1, ReadsProject keptLibs (fun _ => some exRaw) exId 4 exGood c!"/p" (.ok (c0, p0)) ∧
    Modifies keptLibs (fun _ => some exRaw) exId (fun _ => []) 4 exGood c!"/p" exMove (some (.ok (c1, q1))) fs1 ∧ MovesOnly exId p0 (exMove.map ArtifactOp.clean) ∧
    ReadsProject keptLibs (fun _ => some exRaw) exId 4 fs1 c!"/p" (.ok (c1', p1)) ∧ editable p0 = [exReqA, exImA, exImB] ∧ (editable p1).Perm [exReqA, exMovedA, exMovedB] ∧
    SameArtifacts (editable p0) (editable p1) ∧ (∀ a ∈ arts p0, ∃ a' ∈ arts p1, ShownSame a a') := by
  obtain ⟨b1, b2, -⟩ := moved_now
  obtain ⟨c0, p0, r0, -, o0⟩ := told_sound exGood_settings exGood_kept.1 exGood_kept.2 told_now.1
  have H := life_holds r0
  have hed := exGood_editable r0
  obtain ⟨⟨q1, ph, fs1⟩, n1, k⟩ := Option.map_eq_some_iff.1 b1
  rw [n1, Option.bind_some] at b2
  simp only [look, Prod.mk.injEq] at k
  obtain ⟨hed1, rfl, hlint, hk⟩ := k
  obtain ⟨w1, w1'⟩ := of_decide_eq_true hk
  obtain ⟨c1, m1⟩ := modifiedNow_sound (ncpu := 4) H.settings exGood_kept.1 exGood_kept.2 n1
  have s1 : Storable keptLibs exS q1 := exPlaced_storable (by rw [hed1]; decide) hlint
  obtain ⟨hl1, once1⟩ := exPlain_ops (ops := exMove) (by decide +kernel)
  have H1 := C74_modify (E := exEnv keptLibs) H sess_apart hl1 once1 m1 s1
  obtain ⟨c1', p1, r1, -, o1⟩ := told_sound H1.settings w1 w1' b2
  have hmove : MovesOnly exId p0 (exMove.map ArtifactOp.clean) := by
    intro op ho
    rw [hed]
    simp only [exMove, List.map_cons, List.map_nil, List.mem_cons, List.not_mem_nil, or_false] at ho
    rcases ho with rfl | rfl
    · exact ⟨exImA, by simp, _, rfl, by decide +kernel, fun q => by rw [show exMovedA.clean.partof = [] by decide +kernel]; rfl, rfl, by decide +kernel⟩
    · exact ⟨exImB, by simp, _, rfl, by decide +kernel, fun q => by rw [show exMovedB.clean.partof = [] by decide +kernel]; rfl, rfl, by decide +kernel⟩
  obtain ⟨x1, x2, -⟩ := C85_move (E := exEnv keptLibs) H sess_apart hl1 once1 (noCollision_of (by rw [hed]; decide +kernel)) hmove m1 s1 r0 r1
  obtain ⟨_, _, o2, f2⟩ := H1.reads _ _ r1
  cases o2
  exact ⟨c0, p0, c1, q1, fs1, c1', p1, r0, m1, hmove, r1, hed, by rw [editable_foldCase f2, hed1], x1, x2⟩

end Art.Layout
