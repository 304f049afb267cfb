import Verif.Cases.Split
import Verif.Props.Reports

/-!
# Concrete cases for C83
-/

namespace Art.Reports
open Spec Cli Undo Split

/-- A new artifact whose text refers to one that does not exist, and SPC-a with another text. -/
def exSoft : ArtifactIm := ⟨Name.lit c!"SPC-d", c!"/p/design/d.md", [], none, c!"see [[SPC-zz]]"⟩
def exA2 : ArtifactIm := ⟨Name.lit c!"SPC-a", c!"/p/design/e.md", [], none, c!"again"⟩

/-- The artifacts of the cases. -/
def exTold : List ArtifactIm := [exReqA, exImB, exSoft, exA2]

theorem exTold_storable {q : Project} (h : ∀ a ∈ editable q, a ∈ exTold) (hc : (match q.lint keptLibs with | .panic => true | _ => false) = false) : Storable keptLibs exS q := by
  refine ⟨fun a ha => ?_, fun a ha b hb e => ?_, fun e => ?_⟩
  · have hno : ∀ a ∈ exTold, (a.text ≠ [] → TextOk keptLibs.fold exS.pre a.text) ∧ YamlOk keptLibs (intoRaw a).2.2 := by
      intro a ha
      simp only [exTold, List.mem_cons, List.not_mem_nil, or_false] at ha
      rcases ha with rfl | rfl | rfl | rfl <;>
        exact ⟨fun _ => textOk_of (by decide) (by decide) (by decide) (by decide), ⟨nofun, nofun, nofun, nofun, fun h => absurd rfl h⟩⟩
    have hall : ∀ a ∈ exTold, ArtFileType.fromPath a.file = some .md := by decide
    unfold Survives
    rw [hall a (h a ha)]
    exact ⟨exS_ok, fun b hb => hno b (h b (List.mem_filter.1 hb).1)⟩
  · have key : ∀ a ∈ exTold, ∀ b ∈ exTold,
        a.file.reverse.dropWhile (fun c => c != '.') = b.file.reverse.dropWhile (fun c => c != '.') → a.file = b.file := by decide +kernel
    exact key a (h a ha) b (h b hb) (stem_same e)
  · rw [(C40_crash_iff (L := keptLibs) q).2 e] at hc
    cases hc

/-- What the next reading of a disk is told. -/
def told (fs : FS) : Option (List Lint × List Lint) :=
  match readNow keptLibs exId fs exS with
  | .ok (c, _) => some (c.error, c.other)
  | _ => none

theorem told_sound {fs : FS} {e o : List Lint} (hs : SettingsOf (fun _ => some exRaw) fs c!"/p" exS)
    (k1 : (walkCode fs exS).countP (fun f => (codeSent keptLibs fs f).dead) < 4) (k2 : (walkArtifacts fs exS).countP (fun f => (artSent keptLibs exS.pre fs f).dead) < 4)
    (h : told fs = some (e, o)) : ∃ c p, ReadsProject keptLibs (fun _ => some exRaw) exId 4 fs c!"/p" (.ok (c, p)) ∧ c.error = e ∧ c.other = o := by
  have hr := readNow_reads (L := keptLibs) (hash := exId) (ncpu := 4) hs k1 k2
  unfold told at h
  cases hn : readNow keptLibs exId fs exS with
  | err => rw [hn] at h; cases h
  | panic => rw [hn] at h; cases h
  | ok r =>
    obtain ⟨c, p⟩ := r
    rw [hn] at h hr
    cases h
    exact ⟨c, p, hr, rfl, rfl⟩

/-- Two places in the code refer to SPC-a. -/
def exPlace : CodeLoc := ⟨c!"/p/src/x.rs", 0⟩
def exPlaceX : CodeLoc := ⟨c!"/p/src/x.rs", 1⟩
def exSub : SubName := ⟨c!".x"⟩

/-- SPC-a is deleted; then another SPC-a is created, and an artifact that refers to nothing. -/
def exThree : List ArtifactOp := [.create exSoft, .create exA2]

/-- Without SPC-a both places are wrong; with the other SPC-a only the one that refers to a subname. -/
def exMissing : List Lint := [placeLint (Name.lit c!"SPC-a") none exPlace .missing, placeLint (Name.lit c!"SPC-a") (some exSub) exPlaceX .missing]
def exLeft : List Lint := [softLint (Name.lit c!"SPC-d") c!"/p/design/d.md" (Name.lit c!"SPC-zz") none, placeLint (Name.lit c!"SPC-a") (some exSub) exPlaceX (.noSub exSub)]

theorem told_now : told exGood = some ([], []) ∧ (modifiedNow keptLibs exId exGood exS exTwo 1000).bind (fun r => told r.2.2) = some ([], exMissing) ∧
    (twiceNow keptLibs exGood exS exTwo exThree).bind (fun r => told r.2.2) = some ([], exLeft) ∧
    (twiceNow keptLibs exGood exS exTwo exThree).map look = some ([exReqA, exA2, exImB, exSoft], .done, false, true) := by
  refine ⟨?_, ?_, ?_, ?_⟩ <;> decide +kernel

/-- The hypotheses of the theorems: a project that is told nothing, told of two places in the code after SPC-a is deleted, and told of one of them and of a text after another SPC-a and SPC-d are
created. The reasons are those of the theorems. -/
example : ∃ c0 p0 c1 q1 fs1 c1' p1 c2 q2 fs2 c2' p2, ReadsProject keptLibs (fun _ => some exRaw) exId 4 exGood c!"/p" (.ok (c0, p0)) ∧ c0.other = [] ∧
    Modifies keptLibs (fun _ => some exRaw) exId (fun _ => []) 4 exGood c!"/p" exTwo (some (.ok (c1, q1))) fs1 ∧
    ReadsProject keptLibs (fun _ => some exRaw) exId 4 fs1 c!"/p" (.ok (c1', p1)) ∧ c1'.other = exMissing ∧
    Modifies keptLibs (fun _ => some exRaw) exId (fun _ => []) 4 fs1 c!"/p" exThree (some (.ok (c2, q2))) fs2 ∧
    ReadsProject keptLibs (fun _ => some exRaw) exId 4 fs2 c!"/p" (.ok (c2', p2)) ∧ c2'.other = exLeft ∧
    (∀ l ∈ exMissing, Explained (editable p0) (editable p1) [] l) ∧ c1'.error = [] ∧ c2'.error = [] ∧
    (∀ l, l ∈ exLeft ↔ Complaint keptLibs p2 l ∧ l.level = .warn) ∧
    (∀ l ∈ exLeft, (∃ l' ∈ exMissing, SameLint l' l) ∨ (∃ a, .create a ∈ exThree ∧ Holder a.name l) ∨
      ∃ a m m' sub loc w, .create a ∈ exThree ∧ key m = key a.name ∧ key m' = key a.name ∧ l = placeLint m sub loc w ∧ placeLint m' sub loc .missing ∈ exMissing) := by
  obtain ⟨b0, b1, b2, b3⟩ := told_now
  obtain ⟨c0, p0, r0, -, o0⟩ := told_sound exGood_settings exGood_kept.1 exGood_kept.2 b0
  have H := life_holds r0
  obtain ⟨c1, q1, fs1, n1, m1, s1, hed1, w1, w1'⟩ := first both_now.2.1 (by decide)
  rw [n1, Option.bind_some] at b1
  obtain ⟨hl1, once1⟩ := exPlain_ops (ops := exTwo) (by decide +kernel)
  have H1 := C74_modify (E := exEnv keptLibs) H sess_apart hl1 once1 m1 s1
  obtain ⟨c1', p1, r1, -, o1⟩ := told_sound H1.settings w1 w1' b1
  unfold twiceNow at b2 b3
  rw [n1, Option.bind_some] at b2 b3
  obtain ⟨⟨q2, ph, fs2⟩, n2, k⟩ := Option.map_eq_some_iff.1 b3
  rw [n2, Option.bind_some] at b2
  simp only [look, Prod.mk.injEq] at k
  obtain ⟨hed2, rfl, hlint, hk⟩ := k
  obtain ⟨w2, w2'⟩ := of_decide_eq_true hk
  obtain ⟨c2, m2⟩ := modifiedNow_sound (ncpu := 4) H1.settings w1 w1' n2
  have s2 : Storable keptLibs exS q2 := exTold_storable (by rw [hed2]; decide) hlint
  obtain ⟨hl2, once2⟩ := exPlain_ops (ops := exThree) (by decide +kernel)
  have H2 := C74_modify (E := exEnv keptLibs) H1 sess_apart hl2 once2 m2 s2
  obtain ⟨c2', p2, r2, -, o2⟩ := told_sound H2.settings w2 w2' b2
  have hcol : NoCollision exId q1 (exThree.map ArtifactOp.clean) := noCollision_of (by rw [hed1]; decide +kernel)
  obtain ⟨-, z1, k1, -⟩ := C83_modify (E := exEnv keptLibs) H sess_apart hl1 once1 m1 s1 r0 r1
  obtain ⟨-, z2, -⟩ := C83_modify (E := exEnv keptLibs) H1 sess_apart hl2 once2 m2 s2 r1 r2
  have k2 := C83_create (E := exEnv keptLibs) H1 sess_apart hl2 once2 hcol (by intro op ho; simp only [exThree, List.mem_cons, List.not_mem_nil, or_false] at ho; rcases ho with rfl | rfl <;> exact ⟨_, rfl⟩)
    m2 s2 r1 r2
  refine ⟨c0, p0, c1, q1, fs1, c1', p1, c2, q2, fs2, c2', p2, r0, o0, m1, r1, o1, m2, r2, o2, ?_, z1, z2, o2 ▸ (C83_complete r2).2.1, o1 ▸ o2 ▸ k2⟩
  intro l hl
  rcases k1 l (o1 ▸ hl) with ⟨l', h, -⟩ | h
  · rw [o0] at h; cases h
  · rw [o0] at h; exact h

end Art.Reports
