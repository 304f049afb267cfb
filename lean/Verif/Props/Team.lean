import Verif.Lemmas.TeamSave
import Verif.Props.Live
import Verif.Props.Lint
import Verif.Props.ChanSave

/-!
# C82: the threads that write a project
-/

namespace Art.Team
open Spec

section
variable {L : Libs} {readToml : Str → Option SettingsRaw} {hash : ArtifactIm → HashIm} {dbg : ArtifactIm → Str} {n ncpu : Nat} {fs fs' : FS} {base : FilePath}
  {ops : List ArtifactOp} {s : Settings} {files : List (FilePath × Str)}

/-- C82: whatever the threads do, however fast each of them is, is something that the phases do, with the same disk. When they are over, the main thread has received exactly the
lints that there are. -/
theorem C82_sound (hn : 0 < n) (w : FS.WF fs) (hr : SeparateDirs fs s.artifactPaths) (hf : ∀ x ∈ files, FilePathOk x.1) {t : Moment}
    (h : Reaches L s files (start n fs s) t) :
    ∃ c, Art.Reaches L s files (Cfg.init L fs s) c ∧ c.fs = t.fs ∧ c.phase = t.phase ∧
      (t.phase = .done ∨ (∃ k, t.phase = .failed k) → t.got.Perm c.lints) := by
  obtain ⟨hi, c, h1, h2⟩ := sim_reaches hn h
  obtain ⟨c', g1, g2, g3, g4⟩ := C64_sound w hr hf h1
  refine ⟨c', g1, g2.trans h2.fs, g3.trans h2.phase, fun hp => ?_⟩
  have := h2.lints.trans (over_clear hn hi (final_over h hp)).2.1
  rw [g4]
  exact (Multiset.coe_eq_coe.1 this).symm

theorem categorize_perm (c : Categorized) {l l' : List Lint} (h : l.Perm l') :
    (c.categorize l).error.Perm (c.categorize l').error ∧ (c.categorize l).other.Perm (c.categorize l').other := by
  rw [categorize_eq, categorize_eq]
  exact ⟨(h.filter _).append_left _, (h.filter _).append_left _⟩

theorem sorted_same {c c' : Categorized} (h1 : c.error.Perm c'.error) (h2 : c.other.Perm c'.other) : c.sort = c'.sort := by
  unfold Categorized.sort
  rw [sortOn_eq_of_perm _ h1 fun _ _ _ _ => Lint.ord_inj, sortOn_eq_of_perm _ h2 fun _ _ _ _ => Lint.ord_inj]

/-- C82: a modification by threads has the results and leaves the disks that it has in phases. -/
theorem C82_modify (hn : 0 < ncpu) (w : FS.WF fs) (hs : SettingsOf readToml fs base s) (hl : LinkSets ops) (hr : SeparateDirs fs s.artifactPaths)
    {out : Option (Res ModifyError (Categorized × Project))} (h : Modifies L readToml hash dbg ncpu fs base ops out fs') :
    ∃ out', Art.Modifies L readToml hash dbg ncpu fs base ops out' fs' ∧ SameResult out out' := by
  cases h with
  | early => exact ⟨_, .early, rfl⟩
  | @refused read out h1 h2 h3 =>
    refine ⟨_, .refused h1 h2 h3, ?_⟩
    cases out with
    | ok x => exact absurd rfl (h3 x)
    | err e => rfl
    | panic => rfl
  | crash h1 h2 h3 h4 =>
    obtain ⟨e, hf⟩ := accepted_paths w hs hl ⟨_, _, h1, h2⟩ h3
    obtain ⟨c', g1, g2, g3, g4⟩ := C82_sound hn w (e ▸ hr) hf h4
    rw [← g2]
    exact ⟨_, .crash h1 h2 h3 g1, rfl⟩
  | failed h1 h2 h3 h4 h5 =>
    obtain ⟨e, hf⟩ := accepted_paths w hs hl ⟨_, _, h1, h2⟩ h3
    obtain ⟨c', g1, g2, g3, g4⟩ := C82_sound hn w (e ▸ hr) hf h4
    rw [← g2]
    refine ⟨_, .failed h1 h2 h3 g1 (g3.trans h5), ?_⟩
    obtain ⟨p1, p2⟩ := categorize_perm _ (g4 (.inr ⟨_, h5⟩))
    rw [sorted_same p1 p2]
    rfl
  | done h1 h2 h3 h4 h5 =>
    obtain ⟨e, hf⟩ := accepted_paths w hs hl ⟨_, _, h1, h2⟩ h3
    obtain ⟨c', g1, g2, g3, g4⟩ := C82_sound hn w (e ▸ hr) hf h4
    rw [← g2]
    exact ⟨_, .done h1 h2 h3 g1 (g3.trans h5), rfl, categorize_perm _ (g4 (.inl h5))⟩

/-- C82 with C27 and C49: the guarantees for the threads. If an error is returned, the content of every artifact file is still there; if none is
returned, all files of the new project are completely written; if the process dies, one of the two holds; and nothing but what may be touched is touched. -/
theorem C82_safe (hn : 0 < ncpu) (w : FS.WF fs) (hs : SettingsOf readToml fs base s) (hl : LinkSets ops) (hr : SeparateDirs fs s.artifactPaths) (hsafe : Safe fs s)
    {out : Option (Res ModifyError (Categorized × Project))} (h : Modifies L readToml hash dbg ncpu fs base ops out fs') :
    (((∀ r, out ≠ some (.ok r)) ∧ ∀ q, ArtifactFile fs s q → StillThere fs fs' q) ∨
      ((∀ e, out ≠ some (.err e)) ∧ ∃ p' files, Accepted L readToml hash dbg ncpu fs base ops p' ∧ projectFiles L p' = .ok files ∧
        ∀ x ∈ files, contentAt fs' x.1 = some (.text x.2))) ∧
    (∀ q, IMap.get? fs' q ≠ IMap.get? fs q → MayTouch L readToml hash dbg ncpu fs base ops s q) ∧
    (∀ q, IMap.get? fs' q = some .dir ↔ IMap.get? fs q = some .dir) := by
  obtain ⟨out', h', he⟩ := C82_modify hn w hs hl hr h
  refine ⟨?_, C49_frame w hs hl h'⟩
  rcases C27_modify w hs hsafe hl h' with ⟨h1, h2⟩ | ⟨h1, h2⟩
  · refine .inl ⟨fun r e => ?_, h2⟩
    subst e
    match out', he with
    | some (.ok r'), _ => exact h1 r' rfl
  · refine .inr ⟨fun r e => ?_, h2⟩
    subst e
    cases (show some (.err r) = out' from he)
    exact h1 r rfl

/-- C82: a crash while the files are written. At that time all artifact files had been renamed. The files of the project are written in their order: behind a
certain one none was touched, and of the others at most one for each processor is neither complete nor reported. -/
theorem C82_crash (hn : 0 < n) (o : Orderly fs s files) (hr : SeparateDirs fs s.artifactPaths) {t : Moment} (h : Reaches L s files (start n fs s) t) (hp : t.phase = .save) :
    ∃ fs0, (∀ q, ArtifactFile fs s q → contentAt fs0 q = none ∧ ∃ b, BackupOf q b ∧ contentAt fs0 b = contentAt fs q) ∧
      Interrupted n fs0 t.fs files (t.got ++ t.mail) := by
  obtain ⟨t0, h1, h2, h3, h4, _, _, _, _, _, _, _, h5⟩ := writes_reaches o.nodup h hp
  refine ⟨t0.fs, ?_, writes_interrupted h5 (inv_reaches h (inv_start n fs s)).count⟩
  intro q hq
  obtain ⟨hi, c, g1, g2⟩ := sim_reaches hn h1
  obtain ⟨e1, e2⟩ := sim_idle hn hi g2 h3
  obtain ⟨c1, g3, g4⟩ := Art.sim_reaches o.wf hr (fun x hx => (supported_ext (o.files x hx)).2) g1
  have hinv := Art.inv_reaches o g3
  have hph : c1.phase = .backup := g4.phase.trans (g2.phase.trans h2)
  unfold Art.Inv at hinv
  rw [hph] at hinv
  obtain ⟨fs0, D, C, _, _, g5, g6⟩ := g4.backup (g2.phase.trans h2)
  have hjobs := g5.idle e1
  rw [← g6] at hjobs
  have hw := (mem_artifactFile o.wf s q).2 hq
  have hfs : c1.fs = t0.fs := g4.fs.trans g2.fs
  rcases hinv.todo q hw with hj | hj | hj
  · cases hjobs _ hj
  · rw [hfs] at hj
    refine ⟨?_, backupPath q, (supported_backup (o.supported hw)).1, ?_⟩
    · unfold contentAt
      rw [hj.1]
    · unfold contentAt
      rw [hj.2]
  · rw [g4.lints, e2, h4] at hj
    cases hj

/-- C82: when nobody can do anything any more although the phases are not over, this is while files are written, and so many of them failed that both channels are full and all
workers wait. -/
theorem C82_stuck (hn : 0 < n) (hnd : (files.map (·.1)).Nodup) {t : Moment} (h : Reaches L s files (start n fs s) t)
    (hp : t.phase = .backup ∨ t.phase = .save ∨ t.phase = .remove) (hs : ∀ t', ¬ Step L s files t t') :
    t.phase = .save ∧ ∃ bad : List (FilePath × Str), (∀ x ∈ bad, FailReported (t.mail ++ t.work.filterMap Worker.lint) x.1) ∧
      Blocks 128 n (fun x => decide (x ∈ bad)) files := by
  have hi := inv_reaches h (inv_start n fs s)
  have hsv : t.phase = .save → (t.roots = [] ∧ t.stack = []) ∧ ∀ l, .inr l ∉ t.hand := by
    intro hp
    obtain ⟨_, _, _, _, _, _, _, _, _, _, _, _, h5⟩ := writes_reaches hnd h hp
    refine ⟨h5.roots, fun l hl => ?_⟩
    rw [h5.hand] at hl
    simp at hl
  obtain ⟨h1, h2, h3, h4, h5, h6⟩ := stuck_full hi (listed_reaches h) hn hsv hp hs
  refine ⟨h1, ?_⟩
  obtain ⟨t0, _, _, _, _, good, bad, begun, qs, hs', own, ls, h7⟩ := writes_reaches hnd h h1
  have hls : ls = t.mail := by
    have := h7.lints
    rw [h7.heard h2, List.append_cancel_left_eq] at this
    exact this.symm
  have held : ∀ {ws : List Worker} {os : List (Option (FilePath × Str))}, List.Forall₂ (On t.fs) ws os → (∀ w ∈ ws, ∃ l, w = .telling l) →
      os.reduceOption.length = os.length ∧ ∀ x ∈ os.reduceOption, ∃ l ∈ ws.filterMap Worker.lint, Says x l := by
    intro ws os hf
    induction hf with
    | nil => intro _; exact ⟨rfl, by simp [List.reduceOption]⟩
    | @cons w o ws os hwo _ ih =>
      intro hall
      obtain ⟨l, rfl⟩ := hall w List.mem_cons_self
      obtain ⟨i1, i2⟩ := ih fun w hw => hall w (List.mem_cons_of_mem _ hw)
      cases o with
      | none => cases hwo
      | some x =>
        refine ⟨by simpa [List.reduceOption] using i1, fun y hy => ?_⟩
        rcases List.mem_cons.1 (show y ∈ x :: os.reduceOption from hy) with rfl | hy
        · exact ⟨l, List.mem_cons_self, hwo⟩
        · obtain ⟨m, hm, hsay⟩ := i2 y hy
          exact ⟨m, List.mem_cons_of_mem _ hm, hsay⟩
  obtain ⟨k1, k2⟩ := held h7.own h6
  refine ⟨bad ++ own.reduceOption, ?_, begun, qs ++ hs', h7.files, ?_, ?_⟩
  · intro x hx
    rcases List.mem_append.1 hx with hx | hx
    · obtain ⟨l, hl, hsay⟩ := forall₂_mem h7.bad hx
      exact ⟨l, List.mem_append_left _ (hls ▸ hl), hsay⟩
    · obtain ⟨l, hl, hsay⟩ := k2 x hx
      exact ⟨l, List.mem_append_right _ hl, hsay⟩
  · have e1 : bad.length = t.mail.length := by
      rw [h7.bad.length_eq, hls]
    have e2 : own.reduceOption.length = n := by
      rw [k1, ← h7.own.length_eq, hi.count]
    rw [← h7.parts.countP_eq, List.append_assoc, List.countP_append]
    have : List.countP (fun x => decide (x ∈ bad ++ own.reduceOption)) (bad ++ own.reduceOption) = (bad ++ own.reduceOption).length := by
      rw [List.countP_eq_length]
      intro x hx
      exact decide_eq_true hx
    rw [this, List.length_append]
    change 128 ≤ _ at h3
    omega
  · have e1 := congrArg List.length h7.queue
    have e2 := congrArg List.length h7.hand
    have e3 := List.length_pos_iff.2 h5
    rw [List.length_map] at e1 e2
    change 128 ≤ _ at h4
    rw [List.length_append]
    omega

/-- C82: with at most two times 128 files and one for each processor, the threads always can go on. -/
theorem C82_never_stuck (hn : 0 < n) (hnd : (files.map (·.1)).Nodup) (hlen : files.length ≤ 2 * 128 + n) {t : Moment} (h : Reaches L s files (start n fs s) t)
    (hp : t.phase = .backup ∨ t.phase = .save ∨ t.phase = .remove) : ∃ t', Step L s files t t' := by
  by_contra hno
  push Not at hno
  obtain ⟨_, bad, _, hb⟩ := C82_stuck hn hnd h hp hno
  exact Art.Chan.C66_save_safe (.inl hlen) hb

end

end Art.Team
