import Verif.Lemmas.LiveSim
import Verif.Props.Save

/-!
# C64: looking for files while they are renamed and removed
-/

namespace Art
open Spec

section
variable {L : Libs} {readToml : Str → Option SettingsRaw} {hash : ArtifactIm → HashIm} {dbg : ArtifactIm → Str} {ncpu : Nat} {fs fs' : FS} {base : FilePath}
  {ops : List ArtifactOp} {s : Settings} {files : List (FilePath × Str)}

/-- C64: the walk that runs while files are renamed and removed has no other effect than a walk made before: if no artifact path lies inside another,
every moment of the one is a moment of the other, with the same disk, phase and lints. -/
theorem C64_sound (w : FS.WF fs) (hr : SeparateDirs fs s.artifactPaths) (hf : ∀ x ∈ files, FilePathOk x.1) {c : LiveCfg}
    (h : LiveReaches L s files (LiveCfg.init fs s) c) :
    ∃ c', Reaches L s files (Cfg.init L fs s) c' ∧ c'.fs = c.fs ∧ c'.phase = c.phase ∧ c'.lints = c.lints := by
  obtain ⟨c', h1, h2⟩ := sim_reaches w hr hf h
  exact ⟨c', h1, h2.fs, h2.phase, h2.lints⟩

/-- C64: conversely the walk may be as fast as a walk made before, for all paths. -/
theorem C64_complete (w : FS.WF fs) (hf : ∀ x ∈ files, FilePathOk x.1) {c : Cfg} (h : Reaches L s files (Cfg.init L fs s) c) :
    ∃ c', LiveReaches L s files (LiveCfg.init fs s) c' ∧ c'.fs = c.fs ∧ c'.phase = c.phase ∧ c'.lints = c.lints :=
  ⟨_, live_reaches w hf h, rfl, rfl, rfl⟩

theorem accepted_paths (w : FS.WF fs) (hs : SettingsOf readToml fs base s) (hl : LinkSets ops) {p' : Project}
    (h : Accepted L readToml hash dbg ncpu fs base ops p') (hf : projectFiles L p' = .ok files) : p'.settings = s ∧ ∀ x ∈ files, FilePathOk x.1 := by
  obtain ⟨h1, h2, h3⟩ := accepted_settings w hs hl h
  obtain ⟨_, _, h6⟩ := projectFiles_spec h2 hf
  refine ⟨h1, ?_⟩
  intro x hx
  obtain ⟨h7, _⟩ := h6 x hx
  obtain ⟨a, ha⟩ := List.exists_mem_of_ne_nil _ h7
  obtain ⟨h8, h9⟩ := mem_inFile.1 ha
  exact h9 ▸ (supported_ext (h3 a h8).1).2

/-- C64: for a whole modification: the results, the lints and the disks left behind are the same, whether the walks see the disk as it was when the phase began or
while the other threads work on it. So everything that is shown about `Modifies` holds for the threads as they run. -/
theorem C64_modify (w : FS.WF fs) (hs : SettingsOf readToml fs base s) (hl : LinkSets ops) (hr : SeparateDirs fs s.artifactPaths)
    (out : Option (Res ModifyError (Categorized × Project))) :
    LiveModifies L readToml hash dbg ncpu fs base ops out fs' ↔ Modifies L readToml hash dbg ncpu fs base ops out fs' := by
  constructor
  · intro h
    cases h with
    | early => exact .early
    | refused h1 h2 h3 => exact .refused h1 h2 h3
    | crash h1 h2 h3 h4 =>
      obtain ⟨e, hf⟩ := accepted_paths w hs hl ⟨_, _, h1, h2⟩ h3
      obtain ⟨c', g1, g2, g3, g4⟩ := C64_sound w (e ▸ hr) hf h4
      rw [← g2]
      exact .crash h1 h2 h3 g1
    | failed h1 h2 h3 h4 h5 =>
      obtain ⟨e, hf⟩ := accepted_paths w hs hl ⟨_, _, h1, h2⟩ h3
      obtain ⟨c', g1, g2, g3, g4⟩ := C64_sound w (e ▸ hr) hf h4
      rw [← g2, ← g4]
      exact .failed h1 h2 h3 g1 (g3.trans h5)
    | done h1 h2 h3 h4 h5 =>
      obtain ⟨e, hf⟩ := accepted_paths w hs hl ⟨_, _, h1, h2⟩ h3
      obtain ⟨c', g1, g2, g3, g4⟩ := C64_sound w (e ▸ hr) hf h4
      rw [← g2, ← g4]
      exact .done h1 h2 h3 g1 (g3.trans h5)
  · intro h
    cases h with
    | early => exact .early
    | refused h1 h2 h3 => exact .refused h1 h2 h3
    | crash h1 h2 h3 h4 =>
      obtain ⟨e, hf⟩ := accepted_paths w hs hl ⟨_, _, h1, h2⟩ h3
      obtain ⟨c', g1, g2, g3, g4⟩ := C64_complete w hf h4
      rw [← g2]
      exact .crash h1 h2 h3 g1
    | failed h1 h2 h3 h4 h5 =>
      obtain ⟨e, hf⟩ := accepted_paths w hs hl ⟨_, _, h1, h2⟩ h3
      obtain ⟨c', g1, g2, g3, g4⟩ := C64_complete w hf h4
      rw [← g2, ← g4]
      exact .failed h1 h2 h3 g1 (g3.trans h5)
    | done h1 h2 h3 h4 h5 =>
      obtain ⟨e, hf⟩ := accepted_paths w hs hl ⟨_, _, h1, h2⟩ h3
      obtain ⟨c', g1, g2, g3, g4⟩ := C64_complete w hf h4
      rw [← g2, ← g4]
      exact .done h1 h2 h3 g1 (g3.trans h5)

/-- C64 with C27 and C49: the guarantees for the threads as they run. If an error is returned, the content of every artifact file is still there; if none is
returned, all files of the new project are completely written; if the process dies, one of the two holds; and nothing but what may be touched is touched. -/
theorem C64_safe (w : FS.WF fs) (hs : SettingsOf readToml fs base s) (hl : LinkSets ops) (hr : SeparateDirs fs s.artifactPaths) (hsafe : Safe fs s)
    {out : Option (Res ModifyError (Categorized × Project))} (h : LiveModifies L readToml hash dbg ncpu fs base ops out fs') :
    (((∀ r, out ≠ some (.ok r)) ∧ ∀ q, ArtifactFile fs s q → StillThere fs fs' q) ∨
      ((∀ e, out ≠ some (.err e)) ∧ ∃ p' files, Accepted L readToml hash dbg ncpu fs base ops p' ∧ projectFiles L p' = .ok files ∧
        ∀ x ∈ files, contentAt fs' x.1 = some (.text x.2))) ∧
    (∀ q, IMap.get? fs' q ≠ IMap.get? fs q → MayTouch L readToml hash dbg ncpu fs base ops s q) ∧
    (∀ q, IMap.get? fs' q = some .dir ↔ IMap.get? fs q = some .dir) := by
  have h' := (C64_modify w hs hl hr out).1 h
  exact ⟨C27_modify w hs hsafe hl h', C49_frame w hs hl h'⟩

end

/-! ## paths inside one another -/

section
variable {L : Libs} {fs : FS} {s : Settings} {files : List (FilePath × Str)}

/-- A file has two jobs and only one of them can succeed. -/
structure Doomed (p : FilePath) (c : LiveCfg) : Prop where
  roots : c.roots = []
  stack : c.stack = []
  jobs : ∀ j ∈ c.jobs, j = [] ∨ ∃ q, j = [backupAct q] ∧ Supported q
  state : c.phase = .backup ∧ (hasError c.lints = true ∨ 2 ≤ c.jobs.count [backupAct p] ∨ 1 ≤ c.jobs.count [backupAct p] ∧ IMap.get? c.fs p = none) ∨
    c.phase = .failed .createBackups ∧ ∀ j ∈ c.jobs, j = []

theorem doomed_step {p : FilePath} (hp : Supported p) {c d : LiveCfg} (h : Doomed p c) (hs : LiveStep L s files c d) : Doomed p d := by
  have hwalk : ∀ {f mk}, WalkStep L f mk c d → False := by
    intro f mk hw
    have h1 := h.roots
    have h2 := h.stack
    cases hw <;> simp_all
  have hsplit : ∀ {b af : List (List Act)} {a : Act} {r : List Act}, c.jobs = b ++ (a :: r) :: af →
      ∃ q, a = backupAct q ∧ r = [] ∧ Supported q ∧ c.phase = .backup ∧ (∀ j ∈ b ++ [] :: af, j = [] ∨ ∃ q, j = [backupAct q] ∧ Supported q) := by
    intro b af a r hj
    rcases h.jobs (a :: r) (by rw [hj]; exact mem_mid) with e | ⟨q, e, hq⟩
    · cases e
    · obtain ⟨rfl, rfl⟩ := List.cons.inj e
      refine ⟨q, rfl, rfl, hq, ?_, ?_⟩
      · rcases h.state with h | ⟨_, h⟩
        · exact h.1
        · cases h _ (by rw [hj]; exact mem_mid)
      · intro j hj'
        rcases mem_split_job (j := [backupAct q]) hj' with h' | h'
        · exact Or.inl h'
        · exact h.jobs j (hj ▸ h')
  have hcount : ∀ {b af : List (List Act)} {q : FilePath}, c.jobs = b ++ [backupAct q] :: af →
      (b ++ [] :: af).count [backupAct p] + (if q = p then 1 else 0) = c.jobs.count [backupAct p] := by
    intro b af q hj
    rw [hj]
    simp only [List.count_append, List.count_cons]
    have e1 : (([] : List Act) == [backupAct p]) = false := rfl
    have e2 : ([backupAct q] == [backupAct p]) = decide (q = p) := by
      by_cases hqp : q = p
      · subst hqp
        simp
      · simp only [hqp, decide_false, beq_eq_false_iff_ne, ne_eq, List.cons.injEq, and_true, backupAct, Act.rename.injEq, false_and, not_false_eq_true]
    rw [e1, e2]
    simp only [Bool.false_eq_true, if_false, decide_eq_true_eq]
    omega
  cases hs with
  | findArtifacts _ _ hw => exact (hwalk hw).elim
  | findBackups _ _ hw => exact (hwalk hw).elim
  | act b af a r fs' hj ha =>
    obtain ⟨q, rfl, rfl, hq, hph, hjobs⟩ := hsplit hj
    refine ⟨h.roots, h.stack, hjobs, ?_⟩
    have hc := hcount hj
    refine Or.inl ⟨hph, ?_⟩
    rcases h.state with ⟨_, hst⟩ | ⟨hx, _⟩
    · rcases hst with h1 | h1 | ⟨h1, h2⟩
      · exact Or.inl h1
      · by_cases hqp : q = p
        · subst hqp
          have hne : q ≠ backupPath q := by
            intro e
            have := (supported_ext hq).1
            rw [e] at this
            exact this (supported_backup hq).2.1
          obtain ⟨_, _, h3, _⟩ := apply_rename ha hne
          simp only [if_true] at hc
          exact Or.inr (Or.inr ⟨by simp only; omega, h3⟩)
        · rw [if_neg hqp] at hc
          exact Or.inr (Or.inl (by simp only; omega))
      · by_cases hqp : q = p
        · subst hqp
          simp only [backupAct, Act.apply, h2] at ha
          cases ha
        · rw [if_neg hqp] at hc
          refine Or.inr (Or.inr ⟨by simp only; omega, ?_⟩)
          simp only
          rw [apply_frame ha (Ne.symm hqp), h2]
          simp only [backupAct, Act.target, ne_eq, Option.some.injEq]
          intro e
          exact (supported_ext hp).1 (e ▸ (supported_backup hq).2.1)
    · rw [hph] at hx
      cases hx
  | fail b af a r msg hj =>
    obtain ⟨q, rfl, rfl, hq, hph, hjobs⟩ := hsplit hj
    refine ⟨h.roots, h.stack, hjobs, Or.inl ⟨hph, Or.inl ?_⟩⟩
    simp [hasError, hph, failLint]
  | backupErr hph hi he => exact ⟨h.roots, h.stack, h.jobs, Or.inr ⟨rfl, hi.2.2⟩⟩
  | backupOk hph hi he =>
    exfalso
    have h0 : c.jobs.count [backupAct p] = 0 := List.count_eq_zero_of_not_mem fun hm => by cases hi.2.2 _ hm
    rcases h.state with ⟨_, hst⟩ | ⟨hx, _⟩
    · rcases hst with h1 | h1 | ⟨h1, _⟩
      · rw [he] at h1; cases h1
      · omega
      · omega
    · rw [hph] at hx; cases hx
  | saveErr hph hi he => rcases h.state with ⟨hx, _⟩ | ⟨hx, _⟩ <;> rw [hph] at hx <;> cases hx
  | saveOk hph hi he => rcases h.state with ⟨hx, _⟩ | ⟨hx, _⟩ <;> rw [hph] at hx <;> cases hx
  | removeOk hph hi => rcases h.state with ⟨hx, _⟩ | ⟨hx, _⟩ <;> rw [hph] at hx <;> cases hx

/-- C64: if a file lies inside two artifact paths, the walk may be fast enough to send it twice before anything is renamed, and then no way leads to a saved
project: making the backups fails, though no action fails for an outside reason. -/
theorem C64_overlap_doomed (w : FS.WF fs) (hroots : ∀ r ∈ s.artifactPaths, IMap.get? fs r = some .dir) {p : FilePath} (h : FoundTwice fs s p) :
    ∃ c, LiveReaches L s files (LiveCfg.init fs s) c ∧ c.fs = fs ∧ c.lints = [] ∧
      ∀ d, LiveReaches L s files c d → d.phase = .backup ∨ d.phase = .failed .createBackups := by
  have hsup : ∀ q ∈ walkArtifacts fs s, Supported q := by
    intro q hq
    obtain ⟨r, hr, hf, rfl | ⟨_, h, _⟩⟩ := (C29_mem w s q).1 hq
    · obtain ⟨x, hx⟩ := w.isFile_iff.1 hf
      rw [hroots _ hr] at hx
      cases hx
    · exact h
  have hcount : 2 ≤ (walkArtifacts fs s).count p := by
    classical
    obtain ⟨a, r, b, q, e, h1, h2, h3⟩ := h
    rw [C29_artifacts w, h1]
    simp only [List.countP_append, List.countP_cons, h2, h3, decide_true, if_true]
    omega
  have hp : Supported p := hsup p (List.count_pos_iff.1 (by omega))
  have hjobs : (backupJobs fs s).count [backupAct p] = (walkArtifacts fs s).count p := by
    unfold backupJobs
    have hinj : Function.Injective (fun p : FilePath => [Act.rename p (backupPath p)]) := by
      intro x y e
      simp only [List.cons.injEq, Act.rename.injEq, and_true] at e
      exact e.1
    exact List.count_map_of_injective _ _ hinj p
  refine ⟨(Cfg.init L fs s).live, live_init w, rfl, walkLints_dirs hroots, ?_⟩
  have hinit : Doomed p (Cfg.init L fs s).live := by
    refine ⟨rfl, rfl, ?_, Or.inl ⟨rfl, Or.inr (Or.inl ?_)⟩⟩
    · intro j hj
      obtain ⟨q, hq, rfl⟩ := List.mem_map.1 hj
      exact Or.inr ⟨q, rfl, hsup q hq⟩
    · change 2 ≤ (backupJobs fs s).count [backupAct p]
      rw [hjobs]
      exact hcount
  intro d hd
  have : Doomed p d := by
    induction hd with
    | refl => exact hinit
    | tail _ hst ih => exact doomed_step hp ih hst
  rcases this.state with ⟨h, _⟩ | ⟨h, _⟩
  · exact Or.inl h
  · exact Or.inr h

end
end Art
