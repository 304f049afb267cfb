import Verif.Lemmas.Session

/-!
# C72: one command after the other
-/

namespace Art
namespace Cli
open Spec

variable {S : Setup} {fs fs' : FS} {cwd base : FilePath} {s : Settings} {L : Libs} {readToml : Str → Option SettingsRaw} {hash : ArtifactIm → HashIm} {ncpu : Nat}

/-- Reading a project depends on nothing but its settings and what is in its artifact and code paths. -/
theorem C72_local (w : FS.WF fs) (w' : FS.WF fs') (hs : SettingsOf readToml fs base s) (h : ∀ q, InProject s q → IMap.get? fs' q = IMap.get? fs q)
    (out : Res Categorized (Categorized × Project)) : ReadsProject L readToml hash ncpu fs base out ↔ ReadsProject L readToml hash ncpu fs' base out :=
  ⟨reads_local w w' hs h, reads_local w' w (settingsOf_same w' hs h) fun q hq => (h q hq).symm⟩

/-- Every command but `serve` leaves the disk a tree, whether it succeeds or not. -/
theorem C72_tree (w : FS.WF fs) (hi : GoodSite S.site) {c : Cmd} {st : Nat} (h : Ends S fs cwd c st fs') (hc : ∀ v w port, c ≠ .serve v w port) : FS.WF fs' := by
  cases c with
  | init v wd =>
    simp only [Ends] at h
    split at h
    · rw [h.2]; exact w
    · rename_i d _
      obtain ⟨k, hk⟩ := initRun_killed (fs := fs) (work := d)
      have e : fs' = initKilled fs d k := by rw [← hk, ← h]
      rw [e]
      exact C56_tree w k
  | check v wd =>
    simp only [Ends] at h
    split at h <;> (rw [h.2]; exact w)
  | fmt v wd ty =>
    simp only [Ends] at h
    split at h
    · rw [h.2]; exact w
    · obtain ⟨out, hm, _⟩ := h
      exact modifies_wf w (fun op ho => by cases ho) hm
  | ls v wd x b =>
    simp only [Ends] at h
    split at h
    · rw [h.2]; exact w
    · obtain ⟨_, _, _, e⟩ := h
      rw [e]; exact w
  | serve v wd port => exact absurd rfl (hc v wd port)
  | «export» v wd ty path =>
    by_cases ht : lower ty = c!"html"
    · rcases ends_html_cases ht h with ⟨_, e⟩ | ⟨d, repo, c, p, dest, _, _, _, h4, h5⟩
      · rw [e]; exact w
      · have e : fs' = (exportHtml S.site fs dest (initialJson S.num S.wx (some p) .static).show).2 := congrArg Prod.snd h5
        rw [e]
        exact site_wf hi w (absPath_ok h4) _
    · simp only [Ends] at h
      split at h
      · rw [h.2]; exact w
      · split at h
        · rw [h.1]; exact w
        · rename_i dest hd
          unfold Exports at h
          split at h
          · rw [h.2]; exact w
          · obtain ⟨out, _, h⟩ := h
            rcases out with ⟨_, p⟩ | _ | _
            rotate_left
            · rw [h.2]; exact w
            · rw [h.2]; exact w
            · simp only [if_neg ht] at h
              split at h
              · have e : fs' = (exportMarkdown S.F S.ex fs dest p).2 := congrArg Prod.snd h
                rw [e]
                exact markdown_wf w (absPath_ok hd)
              · rw [h.2]; exact w
  | missing => rw [h.2]; exact w
  | unknown x => rw [h.2]; exact w

/-- A command that may not touch a project does not change how it is read. -/
theorem C72_apart (w : FS.WF fs) (hi : GoodSite S.site) (hs : SettingsOf readToml fs base s) {c : Cmd} {st : Nat} (h : Ends S fs cwd c st fs')
    (hc : ∀ v w port, c ≠ .serve v w port) (ht : ∀ q, Touches S fs cwd c q → ¬ InProject s q) (out : Res Categorized (Categorized × Project)) :
    ReadsProject L readToml hash ncpu fs base out ↔ ReadsProject L readToml hash ncpu fs' base out := by
  refine C72_local w (C72_tree w hi h hc) hs (fun q hq => ?_) out
  by_contra hne
  exact ht q (C71_changes w hi.initial h hc hne) hq

/-- What a command that may not touch the project leaves. -/
theorem command_same (w : FS.WF fs) (hi : GoodSite S.site) {c : Cmd} {st : Nat} (h : Ends S fs cwd c st fs')
    (hc : ∀ v w port, c ≠ .serve v w port) (ht : ∀ q, Touches S fs cwd c q → ¬ InProject s q) : ∀ q, InProject s q → IMap.get? fs' q = IMap.get? fs q := by
  intro q hq
  by_contra hne
  exact ht q (C71_changes w hi.initial h hc hne) hq

theorem fmt_modifies {v : Nat} {wd ty : Option Str} {d : FilePath} (hw : workDir fs cwd wd = some d) (hf : findRepo fs d = some base) (h : Ends S fs cwd (.fmt v wd ty) 0 fs') :
    ∃ res, Modifies S.E.L S.E.readToml S.E.hash S.E.dbg S.E.ncpu fs base [] (some (.ok res)) fs' := by
  simp only [Ends, hw, Option.bind_some, hf] at h
  obtain ⟨out, hm, hst⟩ := h
  cases out with
  | ok r => exact ⟨r, hm⟩
  | err e => cases hst
  | panic => cases hst

/-- Whatever is done in a session, the project stays as it is: the disk is a tree, the settings are the same, `art fmt` is safe, and whoever reads the project gets the
project of the beginning, up to the spelling of names in `parts` and in code references (C20). The conditions are those of C46. -/
theorem C72_session (w : FS.WF fs) (hi : GoodSite S.site) (hs : SettingsOf S.E.readToml fs base s) (hsafe : Safe fs s) (ap : Apart s) {n : Nat} {c : Categorized} {p : Project}
    (hr : ReadsProject S.E.L S.E.readToml S.E.hash n fs base (.ok (c, p))) (hcol : NoCollision S.E.hash p [])
    (kept : ∀ a ∈ editable p, Survives S.E.L s a.file ((editable p).filter (fun b => decide (b.file = a.file)))) (h : Session S base s fs fs') :
    FS.WF fs' ∧ SettingsOf S.E.readToml fs' base s ∧ Safe fs' s ∧
      ∀ m out, ReadsProject S.E.L S.E.readToml S.E.hash m fs' base out → ∃ c2 q2, out = .ok (c2, q2) ∧ foldCase q2 = foldCase p := by
  have same : ∀ {fs1 fs2 : FS}, (FS.WF fs1 ∧ SettingsOf S.E.readToml fs1 base s ∧ Safe fs1 s ∧
      ∀ m out, ReadsProject S.E.L S.E.readToml S.E.hash m fs1 base out → ∃ c2 q2, out = .ok (c2, q2) ∧ foldCase q2 = foldCase p) → FS.WF fs2 →
      (∀ q, InProject s q → IMap.get? fs2 q = IMap.get? fs1 q) → (FS.WF fs2 ∧ SettingsOf S.E.readToml fs2 base s ∧ Safe fs2 s ∧
      ∀ m out, ReadsProject S.E.L S.E.readToml S.E.hash m fs2 base out → ∃ c2 q2, out = .ok (c2, q2) ∧ foldCase q2 = foldCase p) := by
    rintro fs1 fs2 ⟨h1, h2, h3, h4⟩ w2 h
    exact ⟨w2, settingsOf_same w2 h2 h, safe_same h1 w2 h h3, fun m out ho => h4 m out ((C72_local h1 w2 h2 h out).2 ho)⟩
  induction h with
  | start =>
    refine ⟨w, hs, hsafe, fun m out ho => ?_⟩
    rcases C20_same_but_spelling S.E.readToml (List.Perm.refl fs) w base hr ho with ⟨_, _, h, _⟩ | ⟨h, _⟩ | ⟨_, _, c2, q2, h, h', hf⟩
    · cases h
    · cases h
    · cases h
      exact ⟨c2, q2, h', hf.symm⟩
  | command _ he hc ht ih => exact same ih (C72_tree ih.1 hi he hc) (command_same ih.1 hi he hc ht)
  | others _ w2 h ih => exact same ih w2 h
  | format _ hw hf he ih =>
    obtain ⟨h1, h2, h3, h4⟩ := ih
    obtain ⟨res, hm⟩ := fmt_modifies hw hf he
    obtain ⟨c1, p1, _, _, _, _, a1, _⟩ := modifies_done hm
    obtain ⟨_, _, e, hfold⟩ := h4 _ _ a1
    cases e
    have hed := editable_foldCase hfold
    have hcol1 : NoCollision S.E.hash p1 [] := by unfold NoCollision at hcol ⊢; rw [hed]; exact hcol
    have kept1 : ∀ a ∈ editable p1, Survives S.E.L s a.file ((editable p1).filter (fun b => decide (b.file = a.file))) := by rw [hed]; exact kept
    obtain ⟨k1, k2, k3, -, -⟩ := C57_in_order h1 h2 h3 ap a1 hcol1 hm
    refine ⟨k1, k2, k3, fun m out ho => ?_⟩
    obtain ⟨c2, q2, e, hf2⟩ := C46_fmt h1 h2 h3 ap a1 hcol1 kept1 hm ho
    exact ⟨c2, q2, e, hf2.trans hfold⟩

/-- `art check` on what was read. -/
theorem checks_of {m : Nat} {out : Res Categorized (Categorized × Project)} {d : FilePath} (hf : findRepo fs d = some base) (h : ReadsProject L readToml hash m fs base out) :
    Checks L readToml hash m fs d (exitStatus (checkResult out)) := by
  unfold Checks
  rw [hf]
  exact ⟨out, h, rfl⟩

/-- A session does not change the verdict of `art check`: in directories that belong to the project before and after it the status is the same. -/
theorem C72_check (w : FS.WF fs) (hi : GoodSite S.site) (hs : SettingsOf S.E.readToml fs base s) (hsafe : Safe fs s) (ap : Apart s) {n : Nat} {c : Categorized} {p : Project}
    (hr : ReadsProject S.E.L S.E.readToml S.E.hash n fs base (.ok (c, p))) (hcol : NoCollision S.E.hash p [])
    (kept : ∀ a ∈ editable p, Survives S.E.L s a.file ((editable p).filter (fun b => decide (b.file = a.file)))) (h : Session S base s fs fs')
    {d d' : FilePath} (hd : findRepo fs d = some base) (hd' : findRepo fs' d' = some base) {m m' st st' : Nat}
    (k : Checks S.E.L S.E.readToml S.E.hash m fs d st) (k' : Checks S.E.L S.E.readToml S.E.hash m' fs' d' st') : st' = st := by
  have start : ∀ m out, ReadsProject S.E.L S.E.readToml S.E.hash m fs base out → exitStatus (checkResult out) = st := fun m out ho =>
    C33_one_status (List.Perm.refl fs) w (dir := d) (checks_of hd ho) k
  have key : ∀ m out, ReadsProject S.E.L S.E.readToml S.E.hash m fs' base out → exitStatus (checkResult out) = st := by
    clear hd' k'
    induction h with
    | start => exact start
    | command hb he hc ht ih =>
      obtain ⟨w1, hs1, -⟩ := C72_session w hi hs hsafe ap hr hcol kept hb
      exact fun m out ho => ih m out ((C72_apart w1 hi hs1 he hc ht out).2 ho)
    | others hb w2 hq ih =>
      obtain ⟨w1, hs1, -⟩ := C72_session w hi hs hsafe ap hr hcol kept hb
      exact fun m out ho => ih m out ((C72_local w1 w2 hs1 hq out).2 ho)
    | @format fs1 fs2 cwd d v wd ty hb hw hf he ih =>
      obtain ⟨h1, h2, h3, h4⟩ := C72_session w hi hs hsafe ap hr hcol kept hb
      obtain ⟨res, hm⟩ := fmt_modifies hw hf he
      obtain ⟨c1, p1, _, _, _, _, a1, _⟩ := modifies_done hm
      obtain ⟨_, _, e, hfold⟩ := h4 _ _ a1
      cases e
      have hed := editable_foldCase hfold
      have hcol1 : NoCollision S.E.hash p1 [] := by unfold NoCollision at hcol ⊢; rw [hed]; exact hcol
      have kept1 : ∀ a ∈ editable p1, Survives S.E.L s a.file ((editable p1).filter (fun b => decide (b.file = a.file))) := by rw [hed]; exact kept
      have hf' : findRepo fs2 d = some base := by
        rw [← hf]
        exact findRepo_same (fun x => by rw [art_same h1 h2 h3 (fun op ho => by cases ho) hm x]) _
      intro m out ho
      rw [(C57_check h1 h2 h3 ap a1 hcol1 kept1 hm hf (checks_of hf a1) (checks_of hf' ho)).1]
      exact ih _ _ a1
  unfold Checks at k'
  rw [hd'] at k'
  obtain ⟨out, ho, rfl⟩ := k'
  exact key m' out ho

/-! ## the files -/

theorem formatted_after (w : FS.WF fs) (hs : SettingsOf readToml fs base s) (hsafe : Safe fs s) (ap : Apart s) {dbg : ArtifactIm → Str} {n : Nat} {c : Categorized} {p : Project}
    (hr : ReadsProject L readToml hash n fs base (.ok (c, p))) (hcol : NoCollision hash p []) {res : Categorized × Project}
    (h : Modifies L readToml hash dbg ncpu fs base [] (some (.ok res)) fs') : Formatted L s p fs' := by
  obtain ⟨c1, p1, c1', p1', files, cfg, a1, a2, a3, a4, a5, rfl, e⟩ := modifies_done h
  have hl0 : LinkSets [] := fun op ho => by cases ho
  obtain ⟨w', hs', hroots, hall, hwalk⟩ := disk_after w hs hsafe ap hl0 a1 a2 a3 a4 a5 (fun op ho => by cases ho)
  obtain ⟨e1, e2, -⟩ := accepted_settings w hs hl0 ⟨_, _, a1, a2⟩
  have hfold : foldCase p = foldCase p1 := by
    rcases C20_same_but_spelling readToml (List.Perm.refl fs) w base hr a1 with ⟨_, _, h, _⟩ | ⟨h, _⟩ | ⟨_, _, _, _, h, h', hf⟩
    · cases h
    · cases h
    · cases h; cases h'; exact hf
  have he := editable_foldCase hfold
  have hcol1 : NoCollision hash p1 [] := by unfold NoCollision at hcol ⊢; rw [← he]; exact hcol
  exact ⟨p1', files, e1, he ▸ (same_unmodified hcol1 a1 a2).1, e2, a3, hall, hwalk⟩

/-- `art fmt` changes nothing but backups if the files hold what it would write. -/
theorem formatted_again (w : FS.WF fs) (hs : SettingsOf readToml fs base s) (hsafe : Safe fs s) (ap : Apart s) {dbg : ArtifactIm → Str} {n : Nat} {c : Categorized} {p : Project}
    (hr : ReadsProject L readToml hash n fs base (.ok (c, p))) (hcol : NoCollision hash p []) {res : Categorized × Project} (hF : Formatted L s p fs)
    (h : Modifies L readToml hash dbg ncpu fs base [] (some (.ok res)) fs') : ∀ x, ¬ IsBackup x → IMap.get? fs' x = IMap.get? fs x := by
  obtain ⟨p2', files', f1, f2, f3, f4, hallF, hwalkF⟩ := hF
  obtain ⟨c1, p1, c1', p1', files, cfg, a1, a2, a3, a4, a5, rfl, e⟩ := modifies_done h
  have hl0 : LinkSets [] := fun op ho => by cases ho
  obtain ⟨w', hs', hroots, hall, hwalk⟩ := disk_after w hs hsafe ap hl0 a1 a2 a3 a4 a5 (fun op ho => by cases ho)
  obtain ⟨e1, e2, -⟩ := accepted_settings w hs hl0 ⟨_, _, a1, a2⟩
  have hfold : foldCase p = foldCase p1 := by
    rcases C20_same_but_spelling readToml (List.Perm.refl fs) w base hr a1 with ⟨_, _, h, _⟩ | ⟨h, _⟩ | ⟨_, _, _, _, h, h', hf⟩
    · cases h
    · cases h
    · cases h; cases h'; exact hf
  have he := editable_foldCase hfold
  have hcol1 : NoCollision hash p1 [] := by unfold NoCollision at hcol ⊢; rw [← he]; exact hcol
  have hperm : (editable p1').Perm (editable p2') := ((same_unmodified hcol1 a1 a2).1.trans (he ▸ f2.symm))
  have hsub : ∀ x ∈ files, x ∈ files' := fun x hx => projectFiles_perm (e1.trans f1.symm) hperm e2 a3 f4 hx
  have hsub' : ∀ x ∈ files', x ∈ files := fun x hx => projectFiles_perm (f1.trans e1.symm) hperm.symm f3 f4 a3 hx
  have hwritten : ∀ x ∈ files, IMap.get? cfg.fs x.1 = IMap.get? fs x.1 := fun x hx => by rw [hall x hx, hallF x (hsub x hx)]
  intro x hx
  by_contra hne
  rw [e1] at a4
  have : Allowed fs s files x := by
    by_contra hna
    exact hne ((frame_reaches a4).same x hna)
  rcases this with hm | ⟨f, hf, rfl⟩ | ⟨y, hy, rfl⟩ | ⟨r, hr, hu, hext⟩
  · obtain ⟨y, hy, rfl⟩ := List.mem_map.1 (hwalkF.mem_iff.1 hm)
    exact hne (hwritten y (hsub' y hy))
  · exact hx ⟨_, rfl⟩
  · exact hne (hwritten y hy)
  · exact hx (isBackup_ext (changed_file w w' (frame_reaches a4).dirs hne) hext)

theorem formatted_same (w : FS.WF fs) (w' : FS.WF fs') (h : ∀ q, InProject s q → IMap.get? fs' q = IMap.get? fs q) {p : Project} (hF : Formatted L s p fs) : Formatted L s p fs' := by
  obtain ⟨p', files, f1, f2, f3, f4, hall, hwalk⟩ := hF
  have hp := walkArtifacts_same w w' (s := s) fun r hr q hq => h q (.inr ⟨r, .inl hr, hq⟩)
  refine ⟨p', files, f1, f2, f3, f4, fun x hx => ?_, hp.trans hwalk⟩
  obtain ⟨r, hr, hu⟩ := found_under w (hwalk.mem_iff.2 (List.mem_map_of_mem hx))
  rw [h x.1 (.inr ⟨r, .inl hr, hu⟩)]
  exact hall x hx

/-- After `art fmt` has succeeded, no session changes the settings, the artifacts or the code of the project, except for backups. -/
theorem C72_files (w : FS.WF fs) (hi : GoodSite S.site) (hs : SettingsOf S.E.readToml fs base s) (hsafe : Safe fs s) (ap : Apart s) {n : Nat} {c : Categorized} {p : Project}
    (hr : ReadsProject S.E.L S.E.readToml S.E.hash n fs base (.ok (c, p))) (hcol : NoCollision S.E.hash p [])
    (kept : ∀ a ∈ editable p, Survives S.E.L s a.file ((editable p).filter (fun b => decide (b.file = a.file)))) {d : FilePath} {v : Nat} {wd ty : Option Str} {fs0 : FS}
    (hw : workDir fs cwd wd = some d) (hf : findRepo fs d = some base) (he : Ends S fs cwd (.fmt v wd ty) 0 fs0) (h : Session S base s fs0 fs') :
    ∀ x, InProject s x → ¬ IsBackup x → IMap.get? fs' x = IMap.get? fs0 x := by
  obtain ⟨res, hm⟩ := fmt_modifies hw hf he
  have S0 : Session S base s fs fs0 := .format .start hw hf he
  have all : ∀ {g : FS}, Session S base s fs0 g → Session S base s fs g := fun h => by
    induction h with
    | start => exact S0
    | command _ a b c ih => exact .command ih a b c
    | format _ a b c ih => exact .format ih a b c
    | others _ a b ih => exact .others ih a b
  have key : Formatted S.E.L s p fs' ∧ ∀ x, InProject s x → ¬ IsBackup x → IMap.get? fs' x = IMap.get? fs0 x := by
    induction h with
    | start => exact ⟨formatted_after w hs hsafe ap hr hcol hm, fun _ _ _ => rfl⟩
    | command hb he hc ht ih =>
      obtain ⟨w1, -⟩ := C72_session w hi hs hsafe ap hr hcol kept (all hb)
      have e := command_same w1 hi he hc ht
      exact ⟨formatted_same w1 (C72_tree w1 hi he hc) e ih.1, fun x hx hb => (e x hx).trans (ih.2 x hx hb)⟩
    | others hb w2 hq ih =>
      obtain ⟨w1, -⟩ := C72_session w hi hs hsafe ap hr hcol kept (all hb)
      exact ⟨formatted_same w1 w2 hq ih.1, fun x hx hb => (hq x hx).trans (ih.2 x hx hb)⟩
    | format hb hw hf he ih =>
      obtain ⟨h1, h2, h3, h4⟩ := C72_session w hi hs hsafe ap hr hcol kept (all hb)
      obtain ⟨res, hm⟩ := fmt_modifies hw hf he
      obtain ⟨c1, p1, _, _, _, _, a1, _⟩ := modifies_done hm
      obtain ⟨_, _, e, hfold⟩ := h4 _ _ a1
      cases e
      have hed := editable_foldCase hfold
      have hcol1 : NoCollision S.E.hash p1 [] := by unfold NoCollision at hcol ⊢; rw [hed]; exact hcol
      have hF1 : ∀ {g : FS}, Formatted S.E.L s p g ↔ Formatted S.E.L s p1 g := fun {g} => by unfold Formatted; rw [hed]
      refine ⟨hF1.2 (formatted_after h1 h2 h3 ap a1 hcol1 hm), fun x hx hb => ?_⟩
      exact (formatted_again h1 h2 h3 ap a1 hcol1 (hF1.1 ih.1) hm x hb).trans (ih.2 x hx hb)
  exact key.2

end Cli
end Art
