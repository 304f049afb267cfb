import Verif.Cases.Split
import Verif.Props.Bytes

/-!
# Concrete cases for C84
-/

namespace Art.Bytes
open Spec Cli Undo Split

/-- No file of this disk kills the threads that read. -/
def Alive (fs : FS) : Prop :=
  (walkCode fs exS).countP (fun f => (codeSent keptLibs fs f).dead) < 4 ∧ (walkArtifacts fs exS).countP (fun f => (artSent keptLibs exS.pre fs f).dead) < 4

/-- A batch, computed. -/
theorem next {fs : FS} {p : Project} {ops : List ArtifactOp} {l : List ArtifactIm} (H : Holds (exEnv keptLibs) c!"/p" exS fs p) (w : Alive fs)
    (h : (modifiedNow keptLibs exId fs exS ops 1000).map look = some (l, .done, false, true)) (hl : ∀ a ∈ l, a ∈ exPlain)
    (ho : ∀ op ∈ ops, ∀ a ∈ op.brought, (List.map (fun n : Name => key n) a.partof).Nodup ∧ startsWith a.file c!"/p/design" = true) :
    ∃ c q fs', modifiedNow keptLibs exId fs exS ops 1000 = some (q, .done, fs') ∧ Modifies keptLibs (fun _ => some exRaw) exId (fun _ => []) 4 fs c!"/p" ops (some (.ok (c, q))) fs' ∧
      editable q = l ∧ Alive fs' ∧ Edit (exEnv keptLibs) c!"/p" exS fs fs' q ∧ Holds (exEnv keptLibs) c!"/p" exS fs' q := by
  obtain ⟨⟨q, ph, fs'⟩, hnow, h2⟩ := Option.map_eq_some_iff.1 h
  simp only [look, Prod.mk.injEq] at h2
  obtain ⟨rfl, rfl, hlint, hk⟩ := h2
  have hk := of_decide_eq_true hk
  obtain ⟨c1, hm⟩ := modifiedNow_sound (ncpu := 4) H.settings w.1 w.2 hnow
  obtain ⟨hls, once⟩ := exPlain_ops ho
  have st := exPlain_storable hl hlint
  exact ⟨c1, q, fs', hnow, hm, rfl, hk, ⟨⟨4, ops, c1, hls, once, hm⟩, st⟩, C74_modify (E := exEnv keptLibs) H sess_apart hls once hm st⟩

/-- Format, change SPC-b, take the change back. -/
theorem thrice_now : (modifiedNow keptLibs exId exGood exS [] 1000).map look = some ([exReqA, exImA, exImB], .done, false, true) ∧
    (twiceNow keptLibs exGood exS [] exOne).map look = some ([exReqA, exImA, exImB'.clean], .done, false, true) ∧
    ((twiceNow keptLibs exGood exS [] exOne).bind fun r => modifiedNow keptLibs exId r.2.2 exS exAgain 1000).map look = some ([exReqA, exImA, exImB], .done, false, true) := by
  refine ⟨?_, ?_, ?_⟩ <;> decide +kernel

theorem format_now : (modifiedNow keptLibs exId exGood exS [] 1000).map (fun r => IMap.get? r.2.2 c!"/p/design/b.md") = some (some (.file (.text c!"# SPC-b\nmore"))) ∧
    IMap.get? exGood c!"/p/design/b.md" = some (.file (.text c!"# SPC-b\nmore\n")) := by
  refine ⟨?_, ?_⟩ <;> decide +kernel

/-- After formatting, a change that is taken back leaves the disk as it was. -/
example : ∃ c1 q1 fs1 c2 q2 fs2 c3 q3 fs3, Modifies keptLibs (fun _ => some exRaw) exId (fun _ => []) 4 exGood c!"/p" [] (some (.ok (c1, q1))) fs1 ∧
    Modifies keptLibs (fun _ => some exRaw) exId (fun _ => []) 4 fs1 c!"/p" exOne (some (.ok (c2, q2))) fs2 ∧
    Modifies keptLibs (fun _ => some exRaw) exId (fun _ => []) 4 fs2 c!"/p" exAgain (some (.ok (c3, q3))) fs3 ∧ TakesBack exId q1 exOne exAgain ∧ editable q2 ≠ editable q1 ∧
    SameDisk fs3 fs1 := by
  obtain ⟨c, p, r0⟩ := exGood_kept_reads
  have H := life_holds r0
  obtain ⟨b1, b2, b3⟩ := thrice_now
  obtain ⟨c1, q1, fs1, n1, m1, hed1, w1, e1, H1⟩ := next H exGood_kept b1 (by decide) (by decide)
  unfold twiceNow at b2 b3
  rw [n1, Option.bind_some] at b2 b3
  obtain ⟨c2, q2, fs2, n2, m2, hed2, w2, e2, H2⟩ := next H1 w1 b2 (by decide) (by decide +kernel)
  rw [n2, Option.bind_some] at b3
  obtain ⟨c3, q3, fs3, n3, m3, hed3, w3, e3, H3⟩ := next H2 w2 b3 (by decide) (by decide +kernel)
  have hb : TakesBack exId q1 exOne exAgain := ⟨_, .cons (.update (by rw [hed1]; simp)) .nil, .refl _⟩
  obtain ⟨hl, once⟩ := exPlain_ops (ops := exOne) (by decide +kernel)
  refine ⟨c1, q1, fs1, c2, q2, fs2, c3, q3, fs3, m1, m2, m3, hb, by rw [hed1, hed2]; decide +kernel, ?_⟩
  rcases C84_back (E := exEnv keptLibs) H sess_apart (.one e1) roots_included hl once (noCollision_of (by rw [hed1]; decide +kernel)) (unchained_of (by decide +kernel)) (by
      intro a id ha
      rw [hed1]
      simp only [exOne, List.mem_cons, ArtifactOp.update.injEq, List.not_mem_nil, or_false] at ha
      obtain ⟨rfl, rfl⟩ := ha
      intro _
      decide +kernel) m2 e2.storable hb m3 with ⟨_, h, _⟩ | h
  · cases h
  · exact h

/-- That the disk was written by artifact is needed: the first batch that is saved, even one without any operation, rewrites files of artifacts that nobody touched. -/
theorem C84_first : ∃ (E : Env) (base : FilePath) (s : Settings) (fs fs' : FS) (p q : Project), Holds E base s fs p ∧ Apart s ∧ Edits E base s fs fs' q ∧
    editable q = editable p ∧ ¬ SameDisk fs' fs := by
  obtain ⟨c, p, r0⟩ := exGood_kept_reads
  have H := life_holds r0
  obtain ⟨b1, -⟩ := thrice_now
  obtain ⟨f1, f2⟩ := format_now
  obtain ⟨c1, q1, fs1, n1, m1, hed1, w1, e1, H1⟩ := next H exGood_kept b1 (by decide) (by decide)
  refine ⟨_, _, _, _, fs1, p, q1, H, sess_apart, .one e1, hed1.trans (exGood_editable r0).symm, fun h => ?_⟩
  rw [n1] at f1
  have := h c!"/p/design/b.md" (by rintro ⟨d, hd⟩; exact absurd (congrArg (fun x => x.reverse.take 1) hd) (by simp))
  exact absurd ((Option.some.inj f1).symm.trans (this.trans f2)) (by decide)

/-- Two batches in both orders and in one. -/
example : ∃ fs1 fs12 fs2 fs21 fs3 p1 p12 p2 p21 p3, Edit (exEnv keptLibs) c!"/p" exS exGood fs1 p1 ∧ Edit (exEnv keptLibs) c!"/p" exS fs1 fs12 p12 ∧
    Edit (exEnv keptLibs) c!"/p" exS exGood fs2 p2 ∧ Edit (exEnv keptLibs) c!"/p" exS fs2 fs21 p21 ∧ Edit (exEnv keptLibs) c!"/p" exS exGood fs3 p3 ∧
    editable p12 = [exReqA, exImB'.clean] ∧ SameDisk fs12 fs21 ∧ SameDisk fs12 fs3 := by
  obtain ⟨c, p, r0⟩ := exGood_kept_reads
  have H := life_holds r0
  have hed := exGood_editable r0
  obtain ⟨b1, b2, b3, b12, b21⟩ := both_now
  unfold twiceNow at b12 b21
  obtain ⟨c1, p1, fs1, n1, m1, hed1, w1, e1, H1⟩ := next H exGood_kept b1 (by decide) (by decide +kernel)
  obtain ⟨c2, p2, fs2, n2, m2, hed2, w2, e2, H2⟩ := next H exGood_kept b2 (by decide) (by decide +kernel)
  obtain ⟨c3, p3, fs3, n3, m3, hed3, w3, e3, H3⟩ := next H exGood_kept b3 (by decide) (by decide +kernel)
  rw [n1, Option.bind_some] at b12
  rw [n2, Option.bind_some] at b21
  obtain ⟨c12, p12, fs12, n12, m12, hed12, w12, e12, H12⟩ := next H1 w1 b12 (by decide) (by decide +kernel)
  obtain ⟨c21, p21, fs21, n21, m21, hed21, w21, e21, H21⟩ := next H2 w2 b21 (by decide) (by decide +kernel)
  obtain ⟨hl, once⟩ := exPlain_ops (ops := exOne ++ exTwo) (by decide +kernel)
  have hno : NoOverlap exId ((exOne ++ exTwo).map ArtifactOp.clean) := (noOverlap_iff _).1 (by decide +kernel)
  have hcol : NoCollision exId p ((exOne ++ exTwo).map ArtifactOp.clean) := noCollision_of (by rw [hed]; decide +kernel)
  have hu : Unchained exId ((exOne ++ exTwo).map ArtifactOp.clean) := unchained_of (by decide +kernel)
  exact ⟨fs1, fs12, fs2, fs21, fs3, p1, p12, p2, p21, p3, e1, e12, e2, e21, e3, hed12,
    C84_order (E := exEnv keptLibs) H sess_apart hl once hno hcol hu m1 e1.storable m12 e12.storable m2 e2.storable m21,
    C84_split (E := exEnv keptLibs) H sess_apart hl once hno hcol hu m1 e1.storable m12 e12.storable m3⟩

end Art.Bytes
