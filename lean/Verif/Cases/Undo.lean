import Verif.Cases.Life
import Verif.Props.Undo

/-!
# Concrete cases for C80
-/

namespace Art.Undo
open Spec Cli

/-- What takes `exOps` back, in another order. -/
def exBack : List ArtifactOp := [.delete (Name.lit c!"SPC-c") (exId exImC.clean), .update exImB (exId exImB'.clean), .create exImA]

/-- The two modifications one after the other. -/
def twiceNow (L : Libs) (fs : FS) (s : Settings) (ops ops' : List ArtifactOp) : Option (Project × Phase × FS) :=
  (modifiedNow L exId fs s ops 1000).bind fun r => modifiedNow L exId r.2.2 s ops' 1000

theorem back_now : (twiceNow keptLibs exGood exS exOps exBack).map (fun r => (editable r.1, r.2.1)) = some ([exReqA, exImA, exImB], .done) := by decide +kernel

theorem exGood_editable {c : Categorized} {p : Project} (h : ReadsProject keptLibs (fun _ => some exRaw) exId 4 exGood c!"/p" (.ok (c, p))) : editable p = [exReqA, exImA, exImB] := by
  have h1 := exFmt_now.1
  have hr := readNow_reads (L := keptLibs) (hash := exId) (ncpu := 4) exGood_settings exGood_kept.1 exGood_kept.2
  obtain ⟨c2, q2, e, hf⟩ := (life_holds h).reads 4 _ hr
  rw [e] at h1
  have h1 : editable q2 = [exReqA, exImA, exImB] := Option.some.inj h1
  rw [← editable_foldCase hf, h1]

theorem exBack_takes {p : Project} (h : editable p = [exReqA, exImA, exImB]) : TakesBack exId p exOps exBack := by
  refine ⟨[.update exImB (exId exImB'.clean), .delete (Name.lit c!"SPC-c") (exId exImC.clean), .create exImA], ?_, .swap _ _ _⟩
  exact .cons (.update (by rw [h]; simp)) (.cons .create (.cons (.delete (by rw [h]; simp)) .nil))

theorem roots_included : RootsIncluded exS := by
  intro r hr e he
  cases he

/-- The case: three changes, and the three changes that take them back. -/
theorem back_case : ∃ c p c1 q fs' c2 q2 fs'', ReadsProject keptLibs (fun _ => some exRaw) exId 4 exGood c!"/p" (.ok (c, p)) ∧
    Modifies keptLibs (fun _ => some exRaw) exId (fun _ => []) 4 exGood c!"/p" exOps (some (.ok (c1, q))) fs' ∧ Storable keptLibs exS q ∧ TakesBack exId p exOps exBack ∧
    NoMerge exId p exOps ∧ NoCollision exId p (exOps.map ArtifactOp.clean) ∧
    Modifies keptLibs (fun _ => some exRaw) exId (fun _ => []) 4 fs' c!"/p" exBack (some (.ok (c2, q2))) fs'' ∧ editable q2 = [exReqA, exImA, exImB] := by
  obtain ⟨c, p, r0⟩ := exGood_kept_reads
  have hed := exGood_editable r0
  obtain ⟨c1, q, fs', hm, -, ap, hl, once, surv, ncr, hedq, hnow⟩ := exKept
  have hq : Storable keptLibs exS q := by
    refine ⟨surv, ?_, ncr⟩
    rw [hedq]
    intro a ha b hb h
    have := stem_same h
    clear h
    revert a b
    decide +kernel
  have H' := C74_modify (E := exEnv keptLibs) (life_holds r0) ap hl once hm hq
  have hleft := life_now
  have hback := back_now
  unfold twiceNow at hback
  rw [hnow] at hleft hback
  obtain ⟨-, k1, k2⟩ := of_decide_eq_true (Option.some.inj hleft)
  obtain ⟨⟨q2, ph, fs''⟩, h1, h2⟩ := Option.map_eq_some_iff.1 hback
  simp only [Prod.mk.injEq] at h2
  obtain ⟨h2, rfl⟩ := h2
  obtain ⟨c2, hm2⟩ := modifiedNow_sound (ncpu := 4) H'.settings k1 k2 h1
  refine ⟨c, p, c1, q, fs', c2, q2, fs'', r0, hm, hq, exBack_takes hed, ?_, noCollision_of ?_, hm2, h2⟩
  · intro a id ha
    rw [hed]
    simp only [exOps, List.mem_cons, ArtifactOp.update.injEq, List.not_mem_nil, or_false, reduceCtorEq] at ha
    obtain ⟨rfl, rfl⟩ := ha
    intro _
    decide +kernel
  · rw [hed]; decide +kernel

/-- A project of artifacts without links. -/
theorem plain_storable {s : Settings} (hs : SettingsOk s.pre s.mdAttrs) (hpre : s.pre = exS.pre) {q : Project} (h : ∀ a ∈ editable q, a ∈ [exReqA, exImA, exImB])
    (hc : (match q.lint keptLibs with | .panic => true | _ => false) = false) : Storable keptLibs s q := by
  refine ⟨fun a ha => ?_, fun a ha b hb e => ?_, fun e => ?_⟩
  · have hno : ∀ a ∈ [exReqA, exImA, exImB], (a.text ≠ [] → TextOk keptLibs.fold s.pre a.text) ∧ YamlOk keptLibs (intoRaw a).2.2 := by
      rw [hpre]
      intro a ha
      simp only [List.mem_cons, List.not_mem_nil, or_false] at ha
      rcases ha with rfl | rfl | rfl <;>
        exact ⟨fun _ => textOk_of (by decide) (by decide) (by decide) (by decide), ⟨nofun, nofun, nofun, nofun, fun h => absurd rfl h⟩⟩
    have hall : ∀ a ∈ [exReqA, exImA, exImB], ArtFileType.fromPath a.file = some .md := by decide
    unfold Survives
    rw [hall a (h a ha)]
    exact ⟨hs, fun b hb => hno b (h b (List.mem_filter.1 hb).1)⟩
  · have key : ∀ a ∈ [exReqA, exImA, exImB], ∀ b ∈ [exReqA, exImA, exImB],
        a.file.reverse.dropWhile (fun c => c != '.') = b.file.reverse.dropWhile (fun c => c != '.') → a.file = b.file := by decide +kernel
    exact key a (h a ha) b (h b hb) (stem_same e)
  · rw [(C40_crash_iff (L := keptLibs) q).2 e] at hc
    cases hc

theorem exS_ok : SettingsOk exS.pre exS.mdAttrs := ⟨by decide, by rintro p ⟨⟩⟩

theorem exGood_parses : (match readNow keptLibs exId exGood exS with | .ok r => (match r.2.lint keptLibs with | .panic => true | _ => false) | _ => true) = false := by decide +kernel

/-- The project is back on the disk. -/
example : ∃ c p c1 q fs' c2 q2 fs'', ReadsProject keptLibs (fun _ => some exRaw) exId 4 exGood c!"/p" (.ok (c, p)) ∧ TakesBack exId p exOps exBack ∧
    Modifies keptLibs (fun _ => some exRaw) exId (fun _ => []) 4 exGood c!"/p" exOps (some (.ok (c1, q))) fs' ∧
    Modifies keptLibs (fun _ => some exRaw) exId (fun _ => []) 4 fs' c!"/p" exBack (some (.ok (c2, q2))) fs'' ∧
    foldCase q2 = foldCase p ∧ Holds (exEnv keptLibs) c!"/p" exS fs'' p ∧ ∃ ops', TakesBack exId p exOps ops' ∧ ops'.length = 3 := by
  obtain ⟨_, _, _, _, _, ap, hl, once, _, _, _⟩ := exKept
  obtain ⟨c, p, c1, q, fs', c2, q2, fs'', r0, hm, hq, hb, hme, hcol, hm2, h2⟩ := back_case
  have hu := exOps_ok.2.2.2.2.2
  have H := life_holds r0
  refine ⟨c, p, c1, q, fs', c2, q2, fs'', r0, hb, hm, hm2, ?_⟩
  rcases C80_back (E := exEnv keptLibs) H ap roots_included hl once hcol hu hme hm hq hb hm2 with ⟨_, _, e, h3, h4⟩ | ⟨_, e, _⟩
  · cases e
    refine ⟨h3, h4 ?_, C80_exists (E := exEnv keptLibs) H hu hm⟩
    have hr := readNow_reads (L := keptLibs) (hash := exId) (ncpu := 4) exGood_settings exGood_kept.1 exGood_kept.2
    obtain ⟨c3, q3, e, hf⟩ := H.reads 4 _ hr
    have hp := exGood_parses
    rw [e] at hp
    refine storable_same hf.symm (plain_storable exS_ok rfl ?_ hp)
    rw [editable_foldCase hf, exGood_editable r0]
    exact fun a ha => ha
  · cases e

/-- After it a request is not refused because of what was loaded. -/
example : ∃ fs' c2 q2 fs'', Modifies keptLibs (fun _ => some exRaw) exId (fun _ => []) 4 fs' c!"/p" exBack (some (.ok (c2, q2))) fs'' ∧
    ∀ n2 ops' out fs3, Modifies keptLibs (fun _ => some exRaw) exId (fun _ => []) n2 fs' c!"/p" ops' (some out) fs3 → out ≠ .panic := by
  obtain ⟨_, _, _, _, _, ap, hl, once, _, _, _⟩ := exKept
  obtain ⟨c, p, c1, q, fs', c2, q2, fs'', r0, hm, hq, hb, hme, hcol, hm2, h2⟩ := back_case
  exact ⟨fs', c2, q2, fs'', hm2, fun n2 ops' out fs3 h => (C80_again (E := exEnv keptLibs) (life_holds r0) ap hl once hm hq h).1⟩

/-! ## what the conditions are for -/

/-- Make SPC-a the artifact SPC-b, which is there already, and make it SPC-a again. -/
def exMerge : List ArtifactOp := [.update exImB (exId exImA)]
def exUnmerge : List ArtifactOp := [.update exImA (exId exImB)]

theorem merge_now : (modifiedNow keptLibs exId exGood exS exMerge 1000).map (fun r => (editable r.1, r.2.1, (match r.1.lint keptLibs with | .panic => true | _ => false),
      decide ((walkCode r.2.2 exS).countP (fun f => (codeSent keptLibs r.2.2 f).dead) < 4 ∧ (walkArtifacts r.2.2 exS).countP (fun f => (artSent keptLibs exS.pre r.2.2 f).dead) < 4))) =
      some ([exReqA, exImB], .done, false, true) ∧
    (twiceNow keptLibs exGood exS exMerge exUnmerge).map (fun r => (editable r.1, r.2.1)) = some ([exReqA, exImA], .done) := by decide +kernel

/-- The condition that no update turns an artifact into another one of the project is needed: such an update is accepted and leaves one of the two, while creating the artifact
would be refused. Taking it back is accepted as well, and an artifact is lost. -/
theorem C80_merge : ∃ (E : Env) (base : FilePath) (s : Settings) (fs : FS) (p : Project) (n : Nat) (ops ops' : List ArtifactOp) (c : Categorized) (q : Project) (fs' : FS)
    (c2 : Categorized) (q2 : Project) (fs'' : FS), Holds E base s fs p ∧ Apart s ∧ RootsIncluded s ∧ LinkSets ops ∧ (∀ op ∈ ops, ∀ a, Brings op a → ReadOnce s a.file) ∧
    NoCollision E.hash p (ops.map ArtifactOp.clean) ∧ Unchained E.hash (ops.map ArtifactOp.clean) ∧
    Modifies E.L E.readToml E.hash E.dbg n fs base ops (some (.ok (c, q))) fs' ∧ Storable E.L s q ∧ TakesBack E.hash p ops ops' ∧
    Modifies E.L E.readToml E.hash E.dbg n fs' base ops' (some (.ok (c2, q2))) fs'' ∧ ∃ a ∈ editable p, a ∉ editable q2 := by
  obtain ⟨_, _, _, _, _, ap, -, once, _, _, _⟩ := exKept
  obtain ⟨c, p, r0⟩ := exGood_kept_reads
  have hed := exGood_editable r0
  obtain ⟨⟨q, ph, fs'⟩, hnow, h2⟩ := Option.map_eq_some_iff.1 merge_now.1
  have hback := merge_now.2
  unfold twiceNow at hback
  rw [hnow] at hback
  simp only [Prod.mk.injEq] at h2
  obtain ⟨hedq, rfl, hlint, hk⟩ := h2
  obtain ⟨k1, k2⟩ := of_decide_eq_true hk
  obtain ⟨c1, hm⟩ := modifiedNow_sound (ncpu := 4) exGood_settings exGood_kept.1 exGood_kept.2 hnow
  have hq : Storable keptLibs exS q := plain_storable exS_ok rfl (by rw [hedq]; decide) hlint
  have hb : ∀ op ∈ exMerge, ∀ a, Brings op a → a = exImB := by
    intro op ho a ha
    rw [List.mem_singleton.1 ho] at ha
    rcases ha with h | ⟨_, h⟩ <;> cases h
    rfl
  have hl : LinkSets exMerge := by
    intro op ho a ha
    rw [hb op ho a ha]
    unfold ISet.Nodup
    decide
  have once : ∀ op ∈ exMerge, ∀ a, Brings op a → ReadOnce exS a.file := by
    intro op ho a ha
    rw [hb op ho a ha]
    exact once (.update exImB' (exId exImB)) (by simp [exOps]) exImB' (.inr ⟨_, rfl⟩)
  have H' := C74_modify (E := exEnv keptLibs) (life_holds r0) ap hl once hm hq
  obtain ⟨⟨q2, ph, fs''⟩, h1, h2⟩ := Option.map_eq_some_iff.1 hback
  simp only [Prod.mk.injEq] at h2
  obtain ⟨h2, rfl⟩ := h2
  obtain ⟨c2, hm2⟩ := modifiedNow_sound (ncpu := 4) H'.settings k1 k2 h1
  refine ⟨exEnv keptLibs, c!"/p", exS, exGood, p, 4, exMerge, exUnmerge, c1, q, fs', c2, q2, fs'', life_holds r0, ap, roots_included, hl, once, noCollision_of ?_, ?_, hm, hq,
    ⟨_, .cons (.update ?_) .nil, .refl _⟩, hm2, exImB, ?_, ?_⟩
  · rw [hed]; decide +kernel
  · intro a ha
    exfalso
    have : ∀ op ∈ exMerge.map ArtifactOp.clean, ∀ a ∈ op.brought, ArtifactOp.update a (exId a) ≠ op := by decide +kernel
    exact this _ ha a (mem_brought.2 (.inr ⟨_, rfl⟩)) rfl
  · rw [hed]; decide
  · rw [hed]; decide
  · rw [h2]; decide +kernel

/-- The whole directory is excluded, and the artifact path is inside it. -/
def exRawEx : SettingsRaw := { exRaw with excludeArtifactPaths := [c!"."] }
def exSEx : Settings := { exS with excludeArtifactPaths := [c!"/p"] }
def exEnvEx : Env := { exEnv keptLibs with readToml := fun _ => some exRawEx }

theorem exEx_settings : SettingsOf (fun _ => some exRawEx) exGood c!"/p" exSEx := ⟨exS.settingsPath, exRawEx, rfl, rfl⟩

def exDrop : List ArtifactOp := [.delete (Name.lit c!"SPC-b") (exId exImB)]

theorem excluded_now : ((walkCode exGood exSEx).countP (fun f => (codeSent keptLibs exGood f).dead) < 4 ∧
      (walkArtifacts exGood exSEx).countP (fun f => (artSent keptLibs exSEx.pre exGood f).dead) < 4) ∧
    (match readNow keptLibs exId exGood exSEx with | .ok r => some (editable r.2) | _ => none) = some [exReqA, exImA, exImB] ∧
    (modifiedNow keptLibs exId exGood exSEx exDrop 1000).map (fun r => (editable r.1, r.2.1, (match r.1.lint keptLibs with | .panic => true | _ => false),
      decide ((walkCode r.2.2 exSEx).countP (fun f => (codeSent keptLibs r.2.2 f).dead) < 4 ∧ (walkArtifacts r.2.2 exSEx).countP (fun f => (artSent keptLibs exSEx.pre r.2.2 f).dead) < 4),
      match readNow keptLibs exId r.2.2 exSEx with
      | .ok (c, p) => (match planNow keptLibs exId (fun _ => []) c p [.create exImB] with | .err e => some e.kind | _ => none)
      | _ => none)) =
      some ([exReqA, exImA], .done, false, true, some .invalidPaths) := by decide +kernel

/-- The condition that no artifact path is inside an excluded one is needed: such a path is read, so its artifacts can be deleted, but they cannot be created again. -/
theorem C80_excluded : ∃ (E : Env) (base : FilePath) (s : Settings) (fs : FS) (p : Project) (n : Nat) (ops ops' : List ArtifactOp) (c : Categorized) (q : Project) (fs' : FS)
    (e : ModifyError), Holds E base s fs p ∧ Apart s ∧ LinkSets ops ∧ (∀ op ∈ ops, ∀ a, Brings op a → ReadOnce s a.file) ∧
    NoCollision E.hash p (ops.map ArtifactOp.clean) ∧ Unchained E.hash (ops.map ArtifactOp.clean) ∧ NoMerge E.hash p ops ∧
    Modifies E.L E.readToml E.hash E.dbg n fs base ops (some (.ok (c, q))) fs' ∧ Storable E.L s q ∧ TakesBack E.hash p ops ops' ∧
    Modifies E.L E.readToml E.hash E.dbg n fs' base ops' (some (.err e)) fs' ∧ e.kind = .invalidPaths := by
  obtain ⟨⟨j1, j2⟩, hread, hmod⟩ := excluded_now
  have hr := readNow_reads (L := keptLibs) (hash := exId) (ncpu := 4) exEx_settings j1 j2
  have hw := exGood_wf
  have hset := exEx_settings
  have hsafe : Safe exGood exSEx := exSafe_of exGood_wf (by decide +kernel) (by decide +kernel)
  generalize exGood = g at *
  cases hn : readNow keptLibs exId g exSEx with
  | err => rw [hn] at hread; cases hread
  | panic => rw [hn] at hread; cases hread
  | ok r =>
  obtain ⟨c, p⟩ := r
  rw [hn] at hread hr
  have hed : editable p = [exReqA, exImA, exImB] := Option.some.inj hread
  obtain ⟨⟨q, ph, fs'⟩, hnow, h2⟩ := Option.map_eq_some_iff.1 hmod
  simp only [Prod.mk.injEq] at h2
  obtain ⟨hedq, rfl, hlint, hk, hplan⟩ := h2
  obtain ⟨k1, k2⟩ := of_decide_eq_true hk
  obtain ⟨c1, hm⟩ := modifiedNow_sound (ncpu := 4) hset j1 j2 hnow
  have hq : Storable keptLibs exSEx q := plain_storable (s := exSEx) exS_ok rfl (by rw [hedq]; decide) hlint
  have hb : ∀ op ∈ exDrop, ∀ a, ¬ Brings op a := by
    intro op ho a ha
    rw [List.mem_singleton.1 ho] at ha
    rcases ha with h | ⟨_, h⟩ <;> cases h
  have hl : LinkSets exDrop := fun op ho a ha => absurd ha (hb op ho a)
  have once : ∀ op ∈ exDrop, ∀ a, Brings op a → ReadOnce exSEx a.file := fun op ho a ha => absurd ha (hb op ho a)
  have H : Holds exEnvEx c!"/p" exSEx g p := C74_read (E := exEnvEx) hw hset hsafe hr
  have ap : Apart exSEx := ⟨sess_apart.1, sess_apart.2⟩
  have H' := C74_modify (E := exEnvEx) H ap hl once hm hq
  have hr2 := readNow_reads (L := keptLibs) (hash := exId) (ncpu := 4) H'.settings k1 k2
  have : ∃ e, Modifies keptLibs (fun _ => some exRawEx) exId (fun _ => []) 4 fs' c!"/p" [.create exImB] (some (.err e)) fs' ∧ e.kind = .invalidPaths := by
    cases hn2 : readNow keptLibs exId fs' exSEx with
    | err => rw [hn2] at hplan; cases hplan
    | panic => rw [hn2] at hplan; cases hplan
    | ok r =>
    obtain ⟨c2, p2⟩ := r
    rw [hn2] at hplan hr2
    have ht := C23_total keptLibs exId (fun _ => []) c2 p2 [.create exImB]
    cases hpl : planNow keptLibs exId (fun _ => []) c2 p2 [.create exImB] with
    | ok => simp only [hpl] at hplan; cases hplan
    | panic => simp only [hpl] at hplan; cases hplan
    | err e =>
      simp only [hpl] at hplan
      rw [hpl] at ht
      exact ⟨e, .refused hr2 ht nofun, Option.some.inj hplan⟩
  obtain ⟨e, he, hk⟩ := this
  refine ⟨exEnvEx, c!"/p", exSEx, g, p, 4, exDrop, [.create exImB], c1, q, fs', e, H, ap, hl, once, noCollision_of ?_, ?_, ?_, hm, hq,
    ⟨_, .cons (.delete ?_) .nil, .refl _⟩, he, hk⟩
  · rw [hed]; decide +kernel
  · intro a ha
    rw [exDrop, List.map_singleton, List.mem_singleton] at ha
    cases ha
  · intro a id ha
    rw [exDrop, List.mem_singleton] at ha
    cases ha
  · rw [hed]; decide

end Art.Undo
