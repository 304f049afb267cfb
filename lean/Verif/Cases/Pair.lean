import Verif.Cases.Bytes
import Verif.Props.Pair

/-!
# Concrete cases for C86
-/

namespace Art.Pair
open Spec Cli Bytes Undo Split

/-- What a program has decided on, computed. -/
def planFull (fs : FS) (ops : List ArtifactOp) : Option (Categorized × Project × List (FilePath × Str)) :=
  match readNow keptLibs exId fs exS with
  | .ok (c, p) =>
    match planNow keptLibs exId (fun _ => []) c p ops with
    | .ok (c', p') => (match projectFiles keptLibs p' with | .ok files => some (c', p', files) | _ => none)
    | _ => none
  | _ => none

theorem planFull_go {fs : FS} {ops : List ArtifactOp} {c : Categorized} {p : Project} {files : List (FilePath × Str)} (H : SettingsOf (fun _ => some exRaw) fs c!"/p" exS) (w : Alive fs)
    (h : planFull fs ops = some (c, p, files)) : Go (exEnv keptLibs) c!"/p" fs (.fresh ops) fs (.planned c p files) := by
  have hr := readNow_reads (L := keptLibs) (hash := exId) H w.1 w.2
  unfold planFull at h
  split at h
  · rename_i c0 p0 he
    rw [he] at hr
    split at h
    · rename_i c' p' hp
      have hpl : PlansRead keptLibs exId (fun _ => []) ops (.ok (c0, p0)) (.ok (c', p')) := by
        have := C23_total keptLibs exId (fun _ => []) c0 p0 ops
        rw [hp] at this
        exact this
      split at h
      · rename_i files' hf
        simp only [Option.some.injEq, Prod.mk.injEq] at h
        obtain ⟨rfl, rfl, rfl⟩ := h
        exact .read hr hpl hf
      · cases h
    · cases h
  · cases h

/-- The program writes what it has decided on, computed. -/
def lateNow (fs : FS) (x : Categorized × Project × List (FilePath × Str)) : Cfg := runNow keptLibs x.2.1.settings x.2.2 1000 (Cfg.init keptLibs fs x.2.1.settings)

theorem start_solo {E : Env} {base : FilePath} {fs : FS} {c : Categorized} {p : Project} {files : List (FilePath × Str)} {cfg : Cfg} (h : Reaches E.L p.settings files (Cfg.init E.L fs p.settings) cfg) :
    Solo E base (fs, .planned c p files) (cfg.fs, .writing c p files cfg.phase cfg.jobs cfg.lints) := by
  have g : Solo E base (fs, .planned c p files) (fs, .writing c p files (Cfg.init E.L fs p.settings).phase (Cfg.init E.L fs p.settings).jobs (Cfg.init E.L fs p.settings).lints) := .single Go.start
  exact g.trans (reaches_solo h)

theorem lateNow_solo {fs : FS} {c : Categorized} {p : Project} {files : List (FilePath × Str)} (h : (lateNow fs (c, p, files)).phase = .done) :
    ∃ r, Solo (exEnv keptLibs) c!"/p" (fs, .planned c p files) ((lateNow fs (c, p, files)).fs, .over (some (.ok r))) := by
  have h1 := start_solo (E := exEnv keptLibs) (base := c!"/p") (c := c) (runNow_reaches keptLibs p.settings files 1000 (Cfg.init keptLibs fs p.settings))
  change Solo _ _ _ ((lateNow fs (c, p, files)).fs, Proc.writing c p files (lateNow fs (c, p, files)).phase _ _) at h1
  rw [h] at h1
  exact ⟨_, h1.tail .finish⟩

/-! ## an edit that is lost -/

/-- Another program creates an artifact while the change of SPC-b is decided on, but not written. -/
def exOther : List ArtifactOp := [.create exD1]

set_option maxRecDepth 8000 in
theorem other_now : (modifiedNow keptLibs exId exGood exS exOther 1000).map look = some ([exReqA, exImA, exImB, exD1], .done, false, true) ∧
    (modifiedNow keptLibs exId exGood exS exOther 1000).map (fun r => (IMap.get? r.2.2 exD1.file).isSome) = some true ∧
    (planFull exGood exOne).map (fun x => decide ((lateNow exGood x).phase = .done)) = some true ∧
    (modifiedNow keptLibs exId exGood exS exOther 1000).bind (fun r => (planFull exGood exOne).map fun x => decide ((lateNow r.2.2 x).phase = .done)) = some true ∧
    (planFull exGood exOne).map (fun x => decide (IMap.get? (lateNow exGood x).fs exD1.file = none)) = some true := by
  refine ⟨?_, ?_, ?_, ?_, ?_⟩ <;> decide +kernel

theorem exDirs : ∀ r ∈ exS.artifactPaths, IMap.get? exGood r = some .dir := by decide +kernel

theorem exD1_file : ¬ IsBackup exD1.file := by
  rintro ⟨d, e⟩
  have := congrArg List.getLast? e
  rw [List.getLast?_append] at this
  exact absurd this (by simp [exD1])

/-- C86: an edit that was reported as saved is lost, and nobody is told. Two programs, the batches are about different artifacts and in different files, no program dies and no action fails. -/
theorem C86_lost : ∃ fs1 fs' c1 q1 r, Batch exS exOne ∧ Batch exS exOther ∧
    Modifies keptLibs (fun _ => some exRaw) exId (fun _ => []) 4 exGood c!"/p" exOther (some (.ok (c1, q1))) fs1 ∧ exD1 ∈ editable q1 ∧ (IMap.get? fs1 exD1.file).isSome = true ∧
    Ticks (exEnv keptLibs) c!"/p" ⟨exGood, begun [exOne, exOther]⟩ ⟨fs', [.over (some (.ok r)), .over (some (.ok (c1, q1)))]⟩ ∧ IMap.get? fs' exD1.file = none := by
  obtain ⟨c, p, r0⟩ := exGood_kept_reads
  have H := life_holds r0
  obtain ⟨b1, b2, b3, b4, b5⟩ := other_now
  obtain ⟨c1, q1, fs1, n1, m1, hed1, w1, e1, H1⟩ := next H exGood_kept b1 (by decide) (by decide +kernel)
  rw [n1] at b2 b4
  simp only [Option.map_some, Option.some.injEq, Option.bind_some] at b2 b4
  obtain ⟨⟨c2, p2, files⟩, hx, b3⟩ := Option.map_eq_some_iff.1 b3
  rw [hx] at b4 b5
  simp only [Option.map_some, Option.some.injEq, decide_eq_true_eq] at b3 b4 b5
  have g := planFull_go H.settings exGood_kept hx
  obtain ⟨r, late⟩ := lateNow_solo b4
  obtain ⟨r2, alone⟩ := lateNow_solo b3
  generalize (lateNow fs1 (c2, p2, files)).fs = fs' at late
  generalize (lateNow exGood (c2, p2, files)).fs = fs2 at alone b5
  have hb1 : Batch exS exOne := exPlain_ops (ops := exOne) (by decide +kernel)
  have hb2 : Batch exS exOther := exPlain_ops (ops := exOther) (by decide +kernel)
  have others : Ticks (exEnv keptLibs) c!"/p" ⟨exGood, begun [exOther]⟩ ⟨fs1, [.over (some (.ok (c1, q1)))]⟩ := C86_alone.2 ⟨4, m1⟩
  have same := C86_last (E := exEnv keptLibs) H.tree H.settings H.safe sess_apart exDirs hb1 g (l := [exOther]) (by
      intro o ho
      rw [List.mem_singleton] at ho
      exact ho ▸ hb2) others H1.safe late alone
  refine ⟨fs1, fs', c1, q1, r, hb1, hb2, m1, by rw [hed1]; simp, b2, ?_, (same.1 _ exD1_file).trans b5⟩
  have t1 : Ticks (exEnv keptLibs) c!"/p" ⟨exGood, [.fresh exOne, .fresh exOther]⟩ ⟨exGood, [.planned c2 p2 files, .fresh exOther]⟩ := .single (.tick [] [.fresh exOther] g)
  have t2 := solo_ticks [.planned c2 p2 files] [] (solo_of_modifies (E := exEnv keptLibs) (n := 4) (base := c!"/p") m1)
  have t3 := solo_ticks [] [.over (some (.ok (c1, q1)))] late
  exact (t1.trans t2).trans t3

/-! ## everything is lost -/

/-- The next action of job `i`. -/
def actNow (i : Nat) (c : Cfg) : Option Cfg :=
  match c.jobs[i]? with
  | some (a :: rest) => (a.apply c.fs).map fun fs' => { c with fs := fs', jobs := c.jobs.take i ++ rest :: c.jobs.drop (i + 1) }
  | _ => none

theorem actNow_reaches {L : Libs} {s : Settings} {files : List (FilePath × Str)} {i : Nat} {c c' : Cfg} (h : actNow i c = some c') : Reaches L s files c c' := by
  unfold actNow at h
  split at h
  · rename_i a rest hj
    obtain ⟨fs', h1, rfl⟩ := Option.map_eq_some_iff.1 h
    refine .single (.act c _ _ a rest fs' ?_ h1)
    obtain ⟨hi, e⟩ := List.getElem?_eq_some_iff.1 hj
    rw [← e, ← List.drop_eq_getElem_cons hi, List.take_append_drop]
  · cases h

/-- The first program has moved both files away and has made both files anew, without text. -/
def ruinOne (x : Categorized × Project × List (FilePath × Str)) : Option Cfg :=
  (actNow 0 (runNow keptLibs x.2.1.settings x.2.2 3 (Cfg.init keptLibs exGood x.2.1.settings))).bind (actNow 1)

/-- The second program then moves both files away. -/
def ruinTwo (fs : FS) (x : Categorized × Project × List (FilePath × Str)) : Cfg := runNow keptLibs x.2.1.settings x.2.2 2 (Cfg.init keptLibs fs x.2.1.settings)

/-- All files in the directory of the artifacts are empty. -/
def emptied (fs : FS) : Bool := fs.all fun e => !startsWith e.1 c!"/p/design" || decide (e.2 = .dir ∨ e.2 = .file (.text []))

theorem ruin_now : (planFull exGood []).bind (fun x => (ruinOne x).map fun c => emptied (ruinTwo c.fs x).fs) = some true := by decide +kernel

theorem ours_design {x : FilePath} (hx : Ours exS x) : startsWith x c!"/p/design" = true := by
  have hm : ∃ r ∈ exS.artifactPaths, Under r x := by
    rcases hx with ⟨_, r, hr, h⟩ | ⟨_, h⟩
    · exact ⟨r, hr, h.1⟩
    · exact h
  obtain ⟨r, hr, hu⟩ := hm
  obtain rfl : r = c!"/p/design" := List.mem_singleton.1 hr
  rcases hu with rfl | ⟨z, rfl⟩
  · decide
  · simp [startsWith]

theorem emptied_gone {fs : FS} (h : emptied fs = true) : AllGone exS fs := by
  intro x hx c hc
  have hs := ours_design hx
  obtain ⟨x', e, hm⟩ := IMap.mem_of_get? hc
  have e : x' = x := e
  have := List.all_eq_true.1 h _ hm
  rw [e] at this
  simpa [hs] using this

/-- C86: two programs that only format the project, and that are killed at the wrong moment, leave nothing of it: every artifact file and every backup is empty. For one
program this is impossible, `C27_crash_safe`. -/
theorem C86_ruin : ∃ c p fs', ReadsProject keptLibs (fun _ => some exRaw) exId 4 exGood c!"/p" (.ok (c, p)) ∧ Holds (exEnv keptLibs) c!"/p" exS exGood p ∧ editable p = [exReqA, exImA, exImB] ∧
    Ticks (exEnv keptLibs) c!"/p" ⟨exGood, begun [[], []]⟩ ⟨fs', [.over none, .over none]⟩ ∧ AllGone exS fs' := by
  obtain ⟨c, p, r0⟩ := exGood_kept_reads
  have H := life_holds r0
  obtain ⟨⟨c2, p2, files⟩, hx, h⟩ := Option.bind_eq_some_iff.1 ruin_now
  obtain ⟨cfg, h1, h2⟩ := Option.map_eq_some_iff.1 h
  have g := planFull_go H.settings exGood_kept hx
  obtain ⟨m, a1, a2⟩ := Option.bind_eq_some_iff.1 h1
  have re1 : Reaches keptLibs p2.settings files (Cfg.init keptLibs exGood p2.settings) cfg := ((runNow_reaches _ _ _ 3 _).trans (actNow_reaches a1)).trans (actNow_reaches a2)
  have re2 : Reaches keptLibs p2.settings files (Cfg.init keptLibs cfg.fs p2.settings) (ruinTwo cfg.fs (c2, p2, files)) := runNow_reaches _ _ _ 2 _
  refine ⟨c, p, _, r0, H, exGood_editable r0, ?_, emptied_gone h2⟩
  have t1 : Ticks (exEnv keptLibs) c!"/p" ⟨exGood, [.fresh [], .fresh []]⟩ ⟨exGood, [.planned c2 p2 files, .fresh []]⟩ := .single (.tick [] [.fresh []] g)
  have t2 : Ticks (exEnv keptLibs) c!"/p" ⟨exGood, [.planned c2 p2 files, .fresh []]⟩ ⟨exGood, [.planned c2 p2 files, .planned c2 p2 files]⟩ := .single (.tick [.planned c2 p2 files] [] g)
  have t3 := solo_ticks [] [.planned c2 p2 files] (start_solo (E := exEnv keptLibs) (base := c!"/p") (c := c2) re1)
  have t4 := solo_ticks [.writing c2 p2 files cfg.phase cfg.jobs cfg.lints] [] (start_solo (E := exEnv keptLibs) (base := c!"/p") (c := c2) re2)
  exact (((((t1.trans t2).trans t3).trans t4).tail (.tick [.writing c2 p2 files cfg.phase cfg.jobs cfg.lints] [] (.die nofun))).tail (.tick [] [.over none] (.die nofun)))

/-! ## everything is lost and all is well -/

/-- The first program has moved both files away; it then goes on to the end. -/
def wipeOne (n : Nat) (x : Categorized × Project × List (FilePath × Str)) : Cfg := runNow keptLibs x.2.1.settings x.2.2 n (Cfg.init keptLibs exGood x.2.1.settings)

/-- No files in the directory of the artifacts. -/
def wipedNow (fs : FS) : Bool := fs.all fun e => !startsWith e.1 c!"/p/design" || decide (e.2 = .dir)

theorem wipedNow_wiped {fs : FS} (h : wipedNow fs = true) : Wiped exS fs := by
  intro x hx c hc
  obtain ⟨x', e, hm⟩ := IMap.mem_of_get? hc
  have e : x' = x := e
  have := List.all_eq_true.1 h _ hm
  rw [e] at this
  simp [ours_design hx] at this

set_option maxRecDepth 8000 in
theorem wipe_now : (planFull exGood []).bind (fun x => (planFull (wipeOne 2 x).fs []).map fun y =>
    (decide ((wipeOne 1002 x).phase = .done), decide ((lateNow (wipeOne 1002 x).fs y).phase = .done), wipedNow (lateNow (wipeOne 1002 x).fs y).fs, editable y.2.1,
      decide ((walkCode (wipeOne 2 x).fs exS).countP (fun f => (codeSent keptLibs (wipeOne 2 x).fs f).dead) < 4 ∧
        (walkArtifacts (wipeOne 2 x).fs exS).countP (fun f => (artSent keptLibs exS.pre (wipeOne 2 x).fs f).dead) < 4))) =
    some (true, true, true, [], true) := by decide +kernel

theorem runNow_add (L : Libs) (s : Settings) (files : List (FilePath × Str)) (m n : Nat) (c : Cfg) : runNow L s files (m + n) c = runNow L s files n (runNow L s files m c) := by
  induction m generalizing c with
  | zero => rw [Nat.zero_add]; rfl
  | succ m ih => rw [Nat.add_right_comm]; exact ih _

/-- C86: two programs that only format the project, and that both succeed, can leave nothing of it: no program dies, no action fails, and no artifact file and no backup is left. -/
theorem C86_wiped : ∃ c p fs' r r', ReadsProject keptLibs (fun _ => some exRaw) exId 4 exGood c!"/p" (.ok (c, p)) ∧ Holds (exEnv keptLibs) c!"/p" exS exGood p ∧ editable p = [exReqA, exImA, exImB] ∧
    Ticks (exEnv keptLibs) c!"/p" ⟨exGood, begun [[], []]⟩ ⟨fs', [.over (some (.ok r)), .over (some (.ok r'))]⟩ ∧ Wiped exS fs' := by
  obtain ⟨c, p, r0⟩ := exGood_kept_reads
  have H := life_holds r0
  obtain ⟨⟨c2, p2, files⟩, hx, h⟩ := Option.bind_eq_some_iff.1 wipe_now
  obtain ⟨⟨c3, p3, files3⟩, hy, h⟩ := Option.map_eq_some_iff.1 h
  simp only [Prod.mk.injEq, decide_eq_true_eq] at h
  obtain ⟨h1, h2, h3, -, h5⟩ := h
  have g := planFull_go H.settings exGood_kept hx
  have re1 : Reaches keptLibs p2.settings files (Cfg.init keptLibs exGood p2.settings) (wipeOne 2 (c2, p2, files)) := runNow_reaches _ _ _ 2 _
  have re2 : Reaches keptLibs p2.settings files (wipeOne 2 (c2, p2, files)) (wipeOne 1002 (c2, p2, files)) := by
    have e : wipeOne 1002 (c2, p2, files) = runNow keptLibs p2.settings files 1000 (wipeOne 2 (c2, p2, files)) := runNow_add _ _ _ 2 1000 _
    rw [e]
    exact runNow_reaches _ _ _ 1000 _
  generalize wipeOne 1002 (c2, p2, files) = w at h1 h2 h3 re2
  obtain ⟨fw, ph, jw, lw⟩ := w
  simp only at h1 h2 h3
  subst h1
  have t1 : Ticks (exEnv keptLibs) c!"/p" ⟨exGood, begun [[], []]⟩ ⟨exGood, [.planned c2 p2 files, .fresh []]⟩ := .single (.tick [] [.fresh []] g)
  have t2 := solo_ticks [] [.fresh []] (start_solo (E := exEnv keptLibs) (base := c!"/p") (c := c2) re1)
  have hb : ∀ ops ∈ [([] : List ArtifactOp), []], Batch exS ops := by
    intro o ho
    simp only [List.mem_cons, List.not_mem_nil, or_false, or_self] at ho
    subst ho
    exact ⟨nofun, nofun⟩
  have g3 := planFull_go (C86_frame (E := exEnv keptLibs) H.tree H.settings sess_apart exDirs hb (t1.trans t2)).2.1 h5 hy
  obtain ⟨r', late⟩ := lateNow_solo h2
  have hw := wipedNow_wiped h3
  generalize (lateNow fw (c3, p3, files3)).fs = fs' at late hw
  have t4 := reaches_solo (E := exEnv keptLibs) (base := c!"/p") (c := c2) re2
  have t5 := solo_ticks (y := (fw, .over (some (.ok (c2.categorize lw, p2.sort))))) [] [.planned c3 p3 files3] (t4.tail .finish)
  have t6 := solo_ticks [.over (some (.ok (c2.categorize lw, p2.sort)))] [] late
  exact ⟨c, p, fs', _, r', r0, H, exGood_editable r0, (((t1.trans t2).tail (.tick [_] [] g3)).trans t5).trans t6, hw⟩

/-- What someone who reads at that moment gets. -/
def readThen : Option (Bool × Bool × Bool × Bool) :=
  match planFull exGood [] with
  | some x =>
    match readNow keptLibs exId (wipeOne 2 x).fs exS with
    | .ok (c, p) => some (decide (p.artifacts.length = 0), decide (c.error.length = 0), decide ((walkCode (wipeOne 2 x).fs exS).countP (fun f => (codeSent keptLibs (wipeOne 2 x).fs f).dead) < 4),
        decide ((walkArtifacts (wipeOne 2 x).fs exS).countP (fun f => (artSent keptLibs exS.pre (wipeOne 2 x).fs f).dead) < 4))
    | _ => none
  | none => none

theorem readThen_now : readThen = some (true, true, true, true) := by decide +kernel

/-- C86: someone who reads while another program formats the project can be told, without an error, that there are no artifacts at all. -/
theorem C86_reader : ∃ fs' procs c p, Ticks (exEnv keptLibs) c!"/p" ⟨exGood, begun [[]]⟩ ⟨fs', procs⟩ ∧ ReadsProject keptLibs (fun _ => some exRaw) exId 4 fs' c!"/p" (.ok (c, p)) ∧
    p.artifacts = [] ∧ c.error = [] := by
  obtain ⟨c, p, r0⟩ := exGood_kept_reads
  have H := life_holds r0
  have h := readThen_now
  unfold readThen at h
  split at h
  · rename_i x hx
    obtain ⟨c2, p2, files⟩ := x
    have g := planFull_go H.settings exGood_kept hx
    have re1 : Reaches keptLibs p2.settings files (Cfg.init keptLibs exGood p2.settings) (wipeOne 2 (c2, p2, files)) := runNow_reaches _ _ _ 2 _
    have t1 : Ticks (exEnv keptLibs) c!"/p" ⟨exGood, begun [[]]⟩ ⟨exGood, [.planned c2 p2 files]⟩ := .single (.tick [] [] g)
    have t2 := solo_ticks [] [] (start_solo (E := exEnv keptLibs) (base := c!"/p") (c := c2) re1)
    have hs := (C86_frame (E := exEnv keptLibs) H.tree H.settings sess_apart exDirs (l := [[]]) (fun o ho => by
      rw [List.mem_singleton] at ho
      subst ho
      exact ⟨nofun, nofun⟩) (t1.trans t2)).2.1
    split at h
    · rename_i c3 p3 e
      simp only [Option.some.injEq, Prod.mk.injEq, decide_eq_true_eq] at h
      obtain ⟨h1, h2, h3, h4⟩ := h
      have hr := readNow_reads (L := keptLibs) (hash := exId) (ncpu := 4) hs h3 h4
      rw [e] at hr
      exact ⟨_, _, c3, p3, t1.trans t2, hr, List.eq_nil_of_length_eq_zero h1, List.eq_nil_of_length_eq_zero h2⟩
    · cases h
  · cases h

/-- The conditions of C86_frame and C86_last hold for the example. -/
example : FS.WF exGood ∧ Safe exGood exS ∧ Apart exS ∧ (∀ r ∈ exS.artifactPaths, IMap.get? exGood r = some .dir) ∧ Batch exS exOne ∧ Batch exS exOther ∧ exOne ≠ [] :=
  ⟨exGood_wf, exGood_safe, sess_apart, exDirs, exPlain_ops (by decide +kernel), exPlain_ops (by decide +kernel), List.cons_ne_nil _ _⟩

end Art.Pair
