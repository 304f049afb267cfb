import Verif.Cases.Undo
import Verif.Props.Split

/-!
# Concrete cases for C81
-/

namespace Art.Split
open Spec Cli Undo

/-- Two new artifacts with the same name. -/
def exD1 : ArtifactIm := ⟨Name.lit c!"SPC-d", c!"/p/design/d.md", [], none, c!"one"⟩
def exD2 : ArtifactIm := ⟨Name.lit c!"SPC-d", c!"/p/design/e.md", [], none, c!"two"⟩

/-- The artifacts of the cases. -/
def exPlain : List ArtifactIm := [exReqA, exImA, exImB, exImB'.clean, exD1, exD2]

theorem exPlain_storable {q : Project} (h : ∀ a ∈ editable q, a ∈ exPlain) (hc : (match q.lint keptLibs with | .panic => true | _ => false) = false) : Storable keptLibs exS q := by
  refine ⟨fun a ha => ?_, fun a ha b hb e => ?_, fun e => ?_⟩
  · have hno : ∀ a ∈ exPlain, (a.text ≠ [] → TextOk keptLibs.fold exS.pre a.text) ∧ YamlOk keptLibs (intoRaw a).2.2 := by
      intro a ha
      simp only [exPlain, List.mem_cons, List.not_mem_nil, or_false] at ha
      rcases ha with rfl | rfl | rfl | rfl | rfl | rfl <;>
        first
        | exact ⟨fun _ => textOk_of (by decide) (by decide) (by decide) (by decide), ⟨nofun, nofun, nofun, nofun, fun h => absurd rfl h⟩⟩
        | exact ⟨fun _ => textOk_of (by decide) (by decide) (by decide) (by decide), ⟨nofun, nofun, nofun, nofun, fun _ => by decide⟩⟩
    have hall : ∀ a ∈ exPlain, ArtFileType.fromPath a.file = some .md := by decide
    unfold Survives
    rw [hall a (h a ha)]
    exact ⟨exS_ok, fun b hb => hno b (h b (List.mem_filter.1 hb).1)⟩
  · have key : ∀ a ∈ exPlain, ∀ b ∈ exPlain,
        a.file.reverse.dropWhile (fun c => c != '.') = b.file.reverse.dropWhile (fun c => c != '.') → a.file = b.file := by decide +kernel
    exact key a (h a ha) b (h b hb) (stem_same e)
  · rw [(C40_crash_iff (L := keptLibs) q).2 e] at hc
    cases hc

/-- All that is needed of operations that bring artifacts of the cases. -/
theorem exPlain_ops {ops : List ArtifactOp} (h : ∀ op ∈ ops, ∀ a ∈ op.brought, (List.map (fun n : Name => key n) a.partof).Nodup ∧ startsWith a.file c!"/p/design" = true) :
    LinkSets ops ∧ ∀ op ∈ ops, ∀ a, Brings op a → ReadOnce exS a.file := by
  refine ⟨fun op ho a ha => (h op ho a (mem_brought.2 ha)).1, fun op ho a ha => ⟨[], c!"/p/design", [], rfl, ⟨?_, ?_⟩, ?_⟩⟩
  · rw [← startsWith_iff]; exact (h op ho a (mem_brought.2 ha)).2
  · intro e he; cases he
  · intro r hr; cases hr

theorem unchained_of {ops : List ArtifactOp} (h : ∀ op ∈ ops, ∀ a ∈ op.brought, ArtifactOp.update a (exId a) ≠ op) : Unchained exId ops := fun a ha =>
  absurd rfl (h _ ha a (mem_brought.2 (.inr ⟨_, rfl⟩)))

/-- What is looked at after a modification. -/
def look (r : Project × Phase × FS) : List ArtifactIm × Phase × Bool × Bool :=
  (editable r.1, r.2.1, (match r.1.lint keptLibs with | .panic => true | _ => false),
    decide ((walkCode r.2.2 exS).countP (fun f => (codeSent keptLibs r.2.2 f).dead) < 4 ∧ (walkArtifacts r.2.2 exS).countP (fun f => (artSent keptLibs exS.pre r.2.2 f).dead) < 4))

/-- A first batch, computed. -/
theorem first {ops : List ArtifactOp} {l : List ArtifactIm} (h : (modifiedNow keptLibs exId exGood exS ops 1000).map look = some (l, .done, false, true)) (hl : ∀ a ∈ l, a ∈ exPlain) :
    ∃ c q fs', modifiedNow keptLibs exId exGood exS ops 1000 = some (q, .done, fs') ∧ Modifies keptLibs (fun _ => some exRaw) exId (fun _ => []) 4 exGood c!"/p" ops (some (.ok (c, q))) fs' ∧
      Storable keptLibs exS q ∧ editable q = l ∧ (walkCode fs' exS).countP (fun f => (codeSent keptLibs fs' f).dead) < 4 ∧
      (walkArtifacts fs' exS).countP (fun f => (artSent keptLibs exS.pre fs' f).dead) < 4 := by
  obtain ⟨⟨q, ph, fs'⟩, hnow, h2⟩ := Option.map_eq_some_iff.1 h
  simp only [look, Prod.mk.injEq] at h2
  obtain ⟨rfl, rfl, hlint, hk⟩ := h2
  obtain ⟨k1, k2⟩ := of_decide_eq_true hk
  obtain ⟨c1, hm⟩ := modifiedNow_sound (ncpu := 4) exGood_settings exGood_kept.1 exGood_kept.2 hnow
  exact ⟨c1, q, fs', hnow, hm, exPlain_storable hl hlint, rfl, k1, k2⟩

/-- A second batch that is refused, computed. -/
def refusedNow (fs : FS) (ops : List ArtifactOp) : Option ModifyErrorKind :=
  match readNow keptLibs exId fs exS with
  | .ok (c, p) => (match planNow keptLibs exId (fun _ => []) c p ops with | .err e => some e.kind | _ => none)
  | _ => none

theorem refusedNow_sound {fs : FS} {ops : List ArtifactOp} {k : ModifyErrorKind} (hs : SettingsOf (fun _ => some exRaw) fs c!"/p" exS)
    (k1 : (walkCode fs exS).countP (fun f => (codeSent keptLibs fs f).dead) < 4) (k2 : (walkArtifacts fs exS).countP (fun f => (artSent keptLibs exS.pre fs f).dead) < 4)
    (h : refusedNow fs ops = some k) : ∃ e, Modifies keptLibs (fun _ => some exRaw) exId (fun _ => []) 4 fs c!"/p" ops (some (.err e)) fs ∧ e.kind = k := by
  have hr := readNow_reads (L := keptLibs) (hash := exId) (ncpu := 4) hs k1 k2
  unfold refusedNow at h
  cases hn : readNow keptLibs exId fs exS with
  | err => rw [hn] at h; cases h
  | panic => rw [hn] at h; cases h
  | ok r =>
  obtain ⟨c2, p2⟩ := r
  rw [hn] at h hr
  have ht := C23_total keptLibs exId (fun _ => []) c2 p2 ops
  cases hpl : planNow keptLibs exId (fun _ => []) c2 p2 ops with
  | ok => simp only [hpl] at h; cases h
  | panic => simp only [hpl] at h; cases h
  | err e =>
    simp only [hpl] at h
    rw [hpl] at ht
    exact ⟨e, .refused hr ht nofun, Option.some.inj h⟩

/-- One user changes SPC-b, another one deletes SPC-a. -/
def exOne : List ArtifactOp := [.update exImB' (exId exImB)]
def exTwo : List ArtifactOp := [.delete (Name.lit c!"SPC-a") (exId exImA)]

theorem both_now : (modifiedNow keptLibs exId exGood exS exOne 1000).map look = some ([exReqA, exImA, exImB'.clean], .done, false, true) ∧
    (modifiedNow keptLibs exId exGood exS exTwo 1000).map look = some ([exReqA, exImB], .done, false, true) ∧
    (modifiedNow keptLibs exId exGood exS (exOne ++ exTwo) 1000).map look = some ([exReqA, exImB'.clean], .done, false, true) ∧
    (twiceNow keptLibs exGood exS exOne exTwo).map look = some ([exReqA, exImB'.clean], .done, false, true) ∧
    (twiceNow keptLibs exGood exS exTwo exOne).map look = some ([exReqA, exImB'.clean], .done, false, true) := by
  refine ⟨?_, ?_, ?_, ?_, ?_⟩ <;> decide +kernel

/-- In one batch, and in both orders. -/
example : ∃ c p c1 p1 fs1 c2 p2 fs2 c3 p3 fs3 c12 p12 fs12 c21 p21 fs21, ReadsProject keptLibs (fun _ => some exRaw) exId 4 exGood c!"/p" (.ok (c, p)) ∧
    Modifies keptLibs (fun _ => some exRaw) exId (fun _ => []) 4 exGood c!"/p" exOne (some (.ok (c1, p1))) fs1 ∧
    Modifies keptLibs (fun _ => some exRaw) exId (fun _ => []) 4 fs1 c!"/p" exTwo (some (.ok (c12, p12))) fs12 ∧
    Modifies keptLibs (fun _ => some exRaw) exId (fun _ => []) 4 exGood c!"/p" exTwo (some (.ok (c2, p2))) fs2 ∧
    Modifies keptLibs (fun _ => some exRaw) exId (fun _ => []) 4 fs2 c!"/p" exOne (some (.ok (c21, p21))) fs21 ∧
    Modifies keptLibs (fun _ => some exRaw) exId (fun _ => []) 4 exGood c!"/p" (exOne ++ exTwo) (some (.ok (c3, p3))) fs3 ∧
    SameAnswer (.ok (c12, p12)) (.ok (c3, p3)) ∧ SameAnswer (.ok (c12, p12)) (.ok (c21, p21)) ∧
    Holds (exEnv keptLibs) c!"/p" exS fs12 p12 ∧ Holds (exEnv keptLibs) c!"/p" exS fs21 p12 := by
  obtain ⟨c, p, r0⟩ := exGood_kept_reads
  have H := life_holds r0
  have hed := exGood_editable r0
  obtain ⟨b1, b2, b3, b12, b21⟩ := both_now
  obtain ⟨c1, p1, fs1, n1, m1, q1, -, w1, w1'⟩ := first b1 (by decide)
  obtain ⟨c2, p2, fs2, n2, m2, q2, -, w2, w2'⟩ := first b2 (by decide)
  obtain ⟨c3, p3, fs3, n3, m3, q3, -⟩ := first b3 (by decide)
  unfold twiceNow at b12 b21
  rw [n1, Option.bind_some] at b12
  rw [n2, Option.bind_some] at b21
  obtain ⟨hl, once⟩ := exPlain_ops (ops := exOne ++ exTwo) (by decide +kernel)
  obtain ⟨hl1, once1⟩ := exPlain_ops (ops := exOne) (by decide +kernel)
  obtain ⟨hl2, once2⟩ := exPlain_ops (ops := exTwo) (by decide +kernel)
  have hno : NoOverlap exId ((exOne ++ exTwo).map ArtifactOp.clean) := (noOverlap_iff _).1 (by decide +kernel)
  have hcol : NoCollision exId p ((exOne ++ exTwo).map ArtifactOp.clean) := noCollision_of (by rw [hed]; decide +kernel)
  have hu : Unchained exId ((exOne ++ exTwo).map ArtifactOp.clean) := unchained_of (by decide +kernel)
  obtain ⟨⟨p12, ph, fs12⟩, hn, hk⟩ := Option.map_eq_some_iff.1 b12
  obtain ⟨⟨p21, ph', fs21⟩, hn', hk'⟩ := Option.map_eq_some_iff.1 b21
  simp only [look, Prod.mk.injEq] at hk hk'
  obtain ⟨e1, rfl, e2, -⟩ := hk
  obtain ⟨-, rfl, -, -⟩ := hk'
  obtain ⟨c12, m12⟩ := modifiedNow_sound (ncpu := 4) (C74_modify (E := exEnv keptLibs) H sess_apart hl1 once1 m1 q1).settings w1 w1' hn
  obtain ⟨c21, m21⟩ := modifiedNow_sound (ncpu := 4) (C74_modify (E := exEnv keptLibs) H sess_apart hl2 once2 m2 q2).settings w2 w2' hn'
  refine ⟨c, p, c1, p1, fs1, c2, p2, fs2, c3, p3, fs3, c12, p12, fs12, c21, p21, fs21, r0, m1, m12, m2, m21, m3, ?_, ?_⟩
  · rcases C81_split (E := exEnv keptLibs) H sess_apart hl1 once1 hno hcol hu m1 q1 m12 m3 with ⟨_, h, _⟩ | ⟨_, h, _⟩ | h
    · cases h
    · cases h
    · exact h
  · rcases C81_order (E := exEnv keptLibs) H sess_apart hl once hno hcol hu m1 q1 m12 m2 q2 m21 with ⟨_, h, _⟩ | ⟨_, h, _⟩ | h
    · cases h
    · cases h
    · exact ⟨h.1, h.2 _ _ rfl (exPlain_storable (by rw [e1]; decide) e2)⟩

/-- Two users create artifacts with the same name: in both orders the second one is refused. -/
theorem clash_now : (modifiedNow keptLibs exId exGood exS [.create exD1] 1000).map look = some ([exReqA, exImA, exImB, exD1], .done, false, true) ∧
    (modifiedNow keptLibs exId exGood exS [.create exD2] 1000).map look = some ([exReqA, exImA, exImB, exD2], .done, false, true) ∧
    (modifiedNow keptLibs exId exGood exS [.create exD1] 1000).bind (fun r => refusedNow r.2.2 [.create exD2]) = some .invalidFromModify ∧
    refusedNow exGood [.create exD1, .create exD2] = some .invalidFromModify := by decide +kernel

example : ∃ c1 p1 fs1 c2 p2 fs2 e, Modifies keptLibs (fun _ => some exRaw) exId (fun _ => []) 4 exGood c!"/p" [.create exD1] (some (.ok (c1, p1))) fs1 ∧
    Modifies keptLibs (fun _ => some exRaw) exId (fun _ => []) 4 fs1 c!"/p" [.create exD2] (some (.err e)) fs1 ∧ e.kind = .invalidFromModify ∧
    Modifies keptLibs (fun _ => some exRaw) exId (fun _ => []) 4 exGood c!"/p" [.create exD2] (some (.ok (c2, p2))) fs2 ∧
    ∀ out fs', Modifies keptLibs (fun _ => some exRaw) exId (fun _ => []) 4 fs2 c!"/p" [.create exD1] (some out) fs' → DiskFailed out ∨ ∃ e', out = .err e' ∧ e'.kind = .invalidFromModify := by
  obtain ⟨c, p, r0⟩ := exGood_kept_reads
  have H := life_holds r0
  have hed := exGood_editable r0
  obtain ⟨b1, b2, b3, -⟩ := clash_now
  obtain ⟨c1, p1, fs1, n1, m1, q1, -, w1, w1'⟩ := first b1 (by decide)
  obtain ⟨c2, p2, fs2, n2, m2, q2, -⟩ := first b2 (by decide)
  rw [n1, Option.bind_some] at b3
  obtain ⟨hl, once⟩ := exPlain_ops (ops := [ArtifactOp.create exD1] ++ [.create exD2]) (by decide +kernel)
  obtain ⟨hl1, once1⟩ := exPlain_ops (ops := [ArtifactOp.create exD1]) (by decide +kernel)
  obtain ⟨e, he, hk⟩ := refusedNow_sound (C74_modify (E := exEnv keptLibs) H sess_apart hl1 once1 m1 q1).settings w1 w1' b3
  refine ⟨c1, p1, fs1, c2, p2, fs2, e, m1, he, hk, m2, fun out fs' h => ?_⟩
  rcases C81_order (E := exEnv keptLibs) H sess_apart hl once ((noOverlap_iff _).1 (by decide +kernel)) (noCollision_of (by rw [hed]; decide +kernel))
      (unchained_of (by decide +kernel)) m1 q1 he m2 q2 h with ⟨_, h, h'⟩ | h | ⟨h, -⟩
  · cases h
    rw [hk] at h'
    rcases h' with h' | h' <;> cases h'
  · exact Or.inl h
  · rcases h with ⟨_, _, _, _, h, _⟩ | ⟨_, e', h1, h2, h3⟩
    · cases h
    · cases h1
      exact Or.inr ⟨e', h2, h3.symm.trans hk⟩

/-- Change SPC-b, and change the changed artifact again. -/
def exAgain : List ArtifactOp := [.update exImB (exId exImB'.clean)]

theorem chain_now : (twiceNow keptLibs exGood exS exOne exAgain).map look = some ([exReqA, exImA, exImB], .done, false, true) ∧
    refusedNow exGood (exOne ++ exAgain) = some .invalidPaths := by decide +kernel

/-- That the second batch is about other artifacts is needed: changing an artifact and then changing the result is accepted in two batches and refused in one. -/
theorem C81_chain : ∃ (E : Env) (base : FilePath) (s : Settings) (fs : FS) (p : Project) (n : Nat) (ops1 ops2 : List ArtifactOp) (c : Categorized) (q : Project) (fs1 : FS)
    (c2 : Categorized) (q2 : Project) (fs2 : FS) (e : ModifyError), Holds E base s fs p ∧ Apart s ∧ LinkSets ops1 ∧ (∀ op ∈ ops1, ∀ a, Brings op a → ReadOnce s a.file) ∧
    NoCollision E.hash p ((ops1 ++ ops2).map ArtifactOp.clean) ∧ Unchained E.hash ((ops1 ++ ops2).map ArtifactOp.clean) ∧
    Modifies E.L E.readToml E.hash E.dbg n fs base ops1 (some (.ok (c, q))) fs1 ∧ Storable E.L s q ∧
    Modifies E.L E.readToml E.hash E.dbg n fs1 base ops2 (some (.ok (c2, q2))) fs2 ∧
    Modifies E.L E.readToml E.hash E.dbg n fs base (ops1 ++ ops2) (some (.err e)) fs ∧ e.kind = .invalidPaths := by
  obtain ⟨c, p, r0⟩ := exGood_kept_reads
  have H := life_holds r0
  have hed := exGood_editable r0
  obtain ⟨b1, -⟩ := both_now
  obtain ⟨b12, b3⟩ := chain_now
  obtain ⟨c1, p1, fs1, n1, m1, q1, -, w1, w1'⟩ := first b1 (by decide)
  unfold twiceNow at b12
  rw [n1, Option.bind_some] at b12
  obtain ⟨⟨p12, ph, fs12⟩, hn, hk⟩ := Option.map_eq_some_iff.1 b12
  simp only [look, Prod.mk.injEq] at hk
  obtain ⟨-, rfl, -, -⟩ := hk
  obtain ⟨hl1, once1⟩ := exPlain_ops (ops := exOne) (by decide +kernel)
  obtain ⟨c12, m12⟩ := modifiedNow_sound (ncpu := 4) (C74_modify (E := exEnv keptLibs) H sess_apart hl1 once1 m1 q1).settings w1 w1' hn
  obtain ⟨e, he, hk⟩ := refusedNow_sound exGood_settings exGood_kept.1 exGood_kept.2 b3
  exact ⟨exEnv keptLibs, c!"/p", exS, exGood, p, 4, exOne, exAgain, c1, p1, fs1, c12, p12, fs12, e, H, sess_apart, hl1, once1, noCollision_of (by rw [hed]; decide +kernel),
    unchained_of (by decide +kernel), m1, q1, m12, he, hk⟩

end Art.Split
