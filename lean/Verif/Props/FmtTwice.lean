import Verif.Props.Fmt
import Verif.Props.Check
import Verif.Props.Export

/-!
# What is saved is formatted (C57)
-/

namespace Art.Spec

/-- A backup by its name. -/
def IsBackup (q : FilePath) : Prop := ∃ d, q = d ++ c!".artbk"

end Art.Spec

namespace Art
open Spec

section
variable {L : Libs} {readToml : Str → Option SettingsRaw} {hash : ArtifactIm → HashIm} {dbg : ArtifactIm → Str} {ncpu ncpu1 ncpu2 ncpu' : Nat} {fs fs' fs'' : FS}
  {base : FilePath} {ops : List ArtifactOp} {s : Settings} {files : List (FilePath × Str)} {cfg : Cfg} {p p' q : Project} {c c' : Categorized}

/-! ## the parts -/

theorem modifies_done {r : Categorized × Project} (h : Modifies L readToml hash dbg ncpu fs base ops (some (.ok r)) fs') :
    ∃ c p c' p' files cfg, ReadsProject L readToml hash ncpu fs base (.ok (c, p)) ∧ Plans L hash dbg c p ops (.ok (c', p')) ∧ projectFiles L p' = .ok files ∧
      Reaches L p'.settings files (Cfg.init L fs p'.settings) cfg ∧ cfg.phase = .done ∧ cfg.fs = fs' ∧ r.2 = p'.sort := by
  generalize hsome : some (Res.ok r) = o at h
  cases h with
  | early => cases hsome
  | refused _ _ h3 => exact absurd (Option.some.inj hsome).symm (h3 _)
  | crash => cases hsome
  | failed => cases hsome
  | done h1 h2 h3 h4 h5 =>
    cases hsome
    rename_i read c0 p' files cfg
    cases read with
    | ok r => obtain ⟨c1, p⟩ := r; exact ⟨c1, p, c0, p', files, cfg, h1, h2, h3, h4, h5, rfl, rfl⟩
    | err e =>
      exfalso
      unfold PlansRead at h2
      simp only [checkLints_eq] at h2
      split at h2 <;> cases h2
    | panic => cases h2

theorem fileText_perm {L : Libs} {s : Settings} {f : FilePath} {l l' : List ArtifactIm} (hn : l.Pairwise (fun x y => key x.name ≠ key y.name)) (hp : l.Perm l') :
    fileText L s f (l.map entry) = fileText L s f (l'.map entry) := by
  rw [fileText_entries, fileText_entries]
  have : inOrder l = inOrder l' := sortOn_eq_of_perm _ hp fun a ha b hb e => by
    have hd : (l.map (fun a : ArtifactIm => key a.name)).Nodup := by rw [List.Nodup, List.pairwise_map]; exact hn
    exact List.inj_on_of_nodup_map hd ha hb (Prod.ext (Name.ty_of_key e) e)
  rw [this]

/-- The same artifacts are written to the same files with the same texts. -/
theorem projectFiles_perm {p q : Project} {files files' : List (FilePath × Str)} (hs : p.settings = q.settings) (hp : (editable p).Perm (editable q))
    (hn : NamesDistinct p) (hf : projectFiles L p = .ok files) (hf' : projectFiles L q = .ok files') {x : FilePath × Str} (hx : x ∈ files) : x ∈ files' := by
  have hn' : NamesDistinct q := (hp.pairwise_iff (fun h h' => h h'.symm)).1 hn
  obtain ⟨_, _, f3⟩ := projectFiles_spec hn hf
  obtain ⟨_, g2, g3⟩ := projectFiles_spec hn' hf'
  obtain ⟨h1, h2, h3⟩ := f3 x hx
  obtain ⟨a, ha⟩ := List.exists_mem_of_ne_nil _ h1
  obtain ⟨ha, e⟩ := mem_inFile.1 ha
  obtain ⟨y, hy, ey⟩ := g2 a (hp.mem_iff.1 ha)
  obtain ⟨_, _, k3⟩ := g3 y hy
  have ey : y.1 = x.1 := ey.trans e
  rw [ey, ← hs, ← fileText_perm (l := inFile (editable p) x.1) (hn.filter _) (inFile_perm hp _), h3] at k3
  have : x.2 = y.2 := by injection k3
  have : y = x := Prod.ext ey this.symm
  exact this ▸ hy

theorem isBackup_ext {q : FilePath} (ha : FilePathOk q) (h : extension q = some c!"artbk") : IsBackup q := by
  obtain ⟨d, n, rfl, _, hn⟩ := ha
  obtain ⟨m, _, rfl, _⟩ := (extension_child d hn).1 h
  exact ⟨d ++ '/' :: m, by simp⟩

/-- A path that has changed is the path of a file, before or after. -/
theorem changed_file (w : FS.WF fs) (w' : FS.WF fs') (hd : ∀ q, IMap.get? fs' q = some .dir ↔ IMap.get? fs q = some .dir) {q : FilePath}
    (h : IMap.get? fs' q ≠ IMap.get? fs q) : FilePathOk q := by
  cases e : IMap.get? fs q with
  | some n =>
    cases n with
    | dir => rw [e, (hd q).2 e] at h; exact absurd rfl h
    | file c => exact (w.fileOk e).1
  | none =>
    cases e' : IMap.get? fs' q with
    | some n =>
      cases n with
      | dir => rw [(hd q).1 e'] at e; cases e
      | file c => exact (w'.fileOk e').1
    | none => rw [e, e'] at h; exact absurd rfl h

/-- What the disk is like after a successful modification. -/
theorem disk_after (w : FS.WF fs) (hs : SettingsOf readToml fs base s) (hsafe : Safe fs s) (ap : Apart s) (hl : LinkSets ops)
    (hr : ReadsProject L readToml hash ncpu fs base (.ok (c, p))) (hpl : Plans L hash dbg c p ops (.ok (c', p')))
    (hf : projectFiles L p' = .ok files) (hre : Reaches L p'.settings files (Cfg.init L fs p'.settings) cfg) (hd : cfg.phase = .done)
    (once : ∀ op ∈ ops, ∀ a, Brings op a → ReadOnce s a.file) :
    FS.WF cfg.fs ∧ SettingsOf readToml cfg.fs base s ∧ (∀ r ∈ s.artifactPaths, IMap.get? cfg.fs r = some .dir) ∧
    (∀ x ∈ files, IMap.get? cfg.fs x.1 = some (.file (.text x.2))) ∧ (walkArtifacts cfg.fs s).Perm (files.map (·.1)) := by
  have hacc : Accepted L readToml hash dbg ncpu fs base ops p' := ⟨_, _, hr, hpl⟩
  obtain ⟨e1, e2, e3⟩ := accepted_settings w hs hl hacc
  have o := accepted_orderly w hs hl hsafe hacc hf
  have hframe := frame_modify w hs hl hacc hf hre
  have hin : ∀ q, IMap.get? cfg.fs q ≠ IMap.get? fs q → ∃ r ∈ s.artifactPaths, Under r q := fun q hq =>
    C49_inside w hs hl hsafe.roots (hframe.1 q hq)
  rw [e1] at o hre
  obtain ⟨w', hroots, hall, hwalk⟩ := walk_after o hre hd (written_once w hs hsafe hl hr hpl hf once)
  obtain ⟨path, raw, g1, g2⟩ := hs
  exact ⟨w', ⟨path, raw, settings_after (settingsPath_of g2) ap hin hframe.2 g1, g2⟩, hroots, hall, hwalk⟩

/-! ## the disk -/

/-- C57. What `modify_project` has written is formatted already: if `artifact fmt` succeeds afterwards, it leaves every file and directory as it is, except for backups. The
conditions are those of C46, and that the formatted files can be told apart by their stems. -/
theorem C57_saved (w : FS.WF fs) (hs : SettingsOf readToml fs base s) (hsafe : Safe fs s) (ap : Apart s) (hl : LinkSets ops)
    (once : ∀ op ∈ ops, ∀ a, Brings op a → ReadOnce s a.file)
    (h : Modifies L readToml hash dbg ncpu fs base ops (some (.ok (c, q))) fs')
    (kept : ∀ a ∈ editable q, Survives L s a.file ((editable q).filter (fun b => decide (b.file = a.file))))
    (hcol : NoCollision hash q []) (hsafe' : Safe fs' s)
    {res : Categorized × Project} (h' : Modifies L readToml hash dbg ncpu' fs' base [] (some (.ok res)) fs'') :
    ∀ x, ¬ IsBackup x → IMap.get? fs'' x = IMap.get? fs' x := by
  obtain ⟨c1, p1, c1', p1', files, cfg, a1, a2, a3, a4, a5, rfl, rfl⟩ := modifies_done h
  obtain ⟨c2, p2, c2', p2', files', cfg', b1, b2, b3, b4, b5, rfl, -⟩ := modifies_done h'
  have hp := editable_sort (plans_nodup a2)
  obtain ⟨w', hs', hroots, hall, hwalk⟩ := disk_after w hs hsafe ap hl a1 a2 a3 a4 a5 once
  have hl0 : LinkSets [] := fun op ho => by cases ho
  obtain ⟨e1, e2, -⟩ := accepted_settings w hs hl ⟨_, _, a1, a2⟩
  obtain ⟨e1', e2', -⟩ := accepted_settings w' hs' hl0 ⟨_, _, b1, b2⟩
  -- the same artifacts
  have hsame : (editable p1').Perm (editable p2') := by
    rcases C46_reload w hs hsafe ap hl once h kept b1 with ⟨_, h⟩ | ⟨_, c3, q3, h, hfold⟩
    · cases h
    · cases h
      have he := editable_foldCase hfold
      have hcol' : NoCollision hash p2 [] := by unfold NoCollision at hcol ⊢; rw [he]; exact hcol
      have := (same_unmodified hcol' b1 b2).1
      rw [he] at this
      exact (this.trans hp).symm
  have hsub : ∀ x ∈ files, x ∈ files' := fun x hx => projectFiles_perm (e1.trans e1'.symm) hsame e2 a3 b3 hx
  have hsub' : ∀ x ∈ files', x ∈ files := fun x hx => projectFiles_perm (e1'.trans e1.symm) hsame.symm e2' b3 a3 hx
  obtain ⟨w'', -, -, hall', -⟩ := disk_after w' hs' hsafe' ap hl0 b1 b2 b3 b4 b5 (fun op ho => by cases ho)
  have hwritten : ∀ x ∈ files, IMap.get? cfg'.fs x.1 = IMap.get? cfg.fs x.1 := by
    intro x hx
    rw [hall x hx, hall' x (hsub x hx)]
  intro x hx
  by_contra hne
  rw [e1'] at b4
  have : Allowed cfg.fs s files' x := by
    by_contra hna
    exact hne ((frame_reaches b4).same x hna)
  rcases this with hm | ⟨f, hf, rfl⟩ | ⟨y, hy, rfl⟩ | ⟨r, hr, hu, hext⟩
  · obtain ⟨y, hy, rfl⟩ := List.mem_map.1 (hwalk.mem_iff.1 hm)
    exact hne (hwritten y hy)
  · exact hx ⟨_, rfl⟩
  · exact hne (hwritten y (hsub' y hy))
  · exact hx (isBackup_ext (changed_file w' w'' (frame_reaches b4).dirs hne) hext)

/-- After `artifact fmt` the project is in order again: the disk is a tree, the settings are the same, no artifact path is a file and no two artifact files differ only in
the extension. -/
theorem C57_in_order (w : FS.WF fs) (hs : SettingsOf readToml fs base s) (hsafe : Safe fs s) (ap : Apart s)
    (hr : ReadsProject L readToml hash ncpu fs base (.ok (c, p))) (hcol : NoCollision hash p [])
    {res : Categorized × Project} (h : Modifies L readToml hash dbg ncpu' fs base [] (some (.ok res)) fs') :
    FS.WF fs' ∧ SettingsOf readToml fs' base s ∧ Safe fs' s ∧ (∀ f, ArtifactFile fs' s f ↔ ∃ a ∈ editable p, a.file = f) ∧ (editable res.2).Perm (editable p) := by
  obtain ⟨c1, p1, c1', p1', files, cfg, a1, a2, a3, a4, a5, rfl, e⟩ := modifies_done h
  have hl0 : LinkSets [] := fun op ho => by cases ho
  have hfold : foldCase p = foldCase p1 := by
    rcases C20_same_but_spelling readToml (List.Perm.refl fs) w base hr a1 with ⟨e, e', h, _⟩ | ⟨h, _⟩ | ⟨ls, q, ls', q', h, h', hf⟩
    · cases h
    · cases h
    · cases h; cases h'; exact hf
  have he := editable_foldCase hfold
  have hcol1 : NoCollision hash p1 [] := by unfold NoCollision at hcol ⊢; rw [← he]; exact hcol
  have hperm := (same_unmodified hcol1 a1 a2).1
  obtain ⟨w', hs', hroots, hall, hwalk⟩ := disk_after w hs hsafe ap hl0 a1 a2 a3 a4 a5 (fun op ho => by cases ho)
  obtain ⟨e1, e2, -⟩ := accepted_settings w hs hl0 ⟨_, _, a1, a2⟩
  obtain ⟨-, f2, f3⟩ := projectFiles_spec e2 a3
  have hart : ∀ f, ArtifactFile cfg.fs s f ↔ ∃ a ∈ editable p, a.file = f := by
    intro f
    show (∃ r ∈ s.artifactPaths, Finds cfg.fs s.excludeArtifactPaths Supported r f) ↔ _
    rw [← C29_mem w', hwalk.mem_iff, List.mem_map]
    constructor
    · rintro ⟨x, hx, rfl⟩
      obtain ⟨a, ha⟩ := List.exists_mem_of_ne_nil _ (f3 x hx).1
      obtain ⟨ha, ea⟩ := mem_inFile.1 ha
      exact ⟨a, he ▸ hperm.mem_iff.1 ha, ea⟩
    · rintro ⟨a, ha, rfl⟩
      exact f2 a (hperm.mem_iff.2 (he ▸ ha))
  have hold : ∀ f, ArtifactFile cfg.fs s f → ArtifactFile fs s f := by
    intro f hf
    obtain ⟨a, ha, rfl⟩ := (hart f).1 hf
    have := (reads_files hr a ha).1
    rw [settings_of_read hs hr] at this
    exact (C29_mem w s _).1 this
  refine ⟨w', hs', ⟨?_, fun x y hx hy => hsafe.stems x y (hold x hx) (hold y hy)⟩, hart, ?_⟩
  · intro r hr' hf
    obtain ⟨c, hc⟩ := w'.isFile_iff.1 hf
    rw [hroots r hr'] at hc
    cases hc
  · rw [e, he]
    exact (editable_sort (plans_nodup a2)).trans hperm

/-- C57. Formatting twice is formatting once: if `artifact fmt` succeeds twice in a row, the second one leaves every file and directory as it is, except for backups. -/
theorem C57_twice (w : FS.WF fs) (hs : SettingsOf readToml fs base s) (hsafe : Safe fs s) (ap : Apart s)
    (hr : ReadsProject L readToml hash ncpu fs base (.ok (c, p))) (hcol : NoCollision hash p [])
    (kept : ∀ a ∈ editable p, Survives L s a.file ((editable p).filter (fun b => decide (b.file = a.file))))
    {res res' : Categorized × Project} (h : Modifies L readToml hash dbg ncpu1 fs base [] (some (.ok res)) fs')
    (h' : Modifies L readToml hash dbg ncpu2 fs' base [] (some (.ok res')) fs'') :
    ∀ x, ¬ IsBackup x → IMap.get? fs'' x = IMap.get? fs' x := by
  obtain ⟨-, -, hsafe', -, hperm⟩ := C57_in_order w hs hsafe ap hr hcol h
  refine C57_saved w hs hsafe ap (fun op ho => by cases ho) (fun op ho => by cases ho) h ?_ ?_ hsafe' h'
  · intro a ha
    exact survives_perm (inFile_perm hperm.symm _) (kept a (hperm.mem_iff.1 ha))
  · intro a b ha hb e
    refine hcol a b ?_ ?_ e
    · rcases ha with h | ⟨op, ho, _⟩
      · exact Or.inl (hperm.mem_iff.1 h)
      · cases ho
    · rcases hb with h | ⟨op, ho, _⟩
      · exact Or.inl (hperm.mem_iff.1 h)
      · cases ho

/-! ## the verdict -/

/-- Whether there is an `.art` does not change. -/
theorem art_same (w : FS.WF fs) (hs : SettingsOf readToml fs base s) (hsafe : Safe fs s) (hl : LinkSets ops)
    {out : Option (Res ModifyError (Categorized × Project))} (h : Modifies L readToml hash dbg ncpu fs base ops out fs') (d : FilePath) :
    IMap.get? fs' (d ++ c!"/.art") = IMap.get? fs (d ++ c!"/.art") := by
  by_contra hne
  have hsup : ∀ {q}, Supported q → q.getLast? ≠ some 't' := by
    rintro q ⟨d, n, x, rfl, _, _, hx⟩
    rcases hx with rfl | rfl | rfl <;> simp [List.getLast?_cons]
  have hlast : (d ++ c!"/.art").getLast? = some 't' := by simp
  rcases (C49_frame w hs hl h).1 _ hne with ⟨r, hr, hf, hu⟩ | ⟨f, _, hb⟩ | ⟨p', ha, a, ha', e⟩ | ⟨r, _, _, hx⟩
  · rcases hu with rfl | hu
    · exact hsafe.roots _ hr hf
    · exact hsup hu.2.1 hlast
  · rcases hb with ⟨_, _, _, _, _, _, _, _, e⟩ | ⟨_, e⟩ <;> rw [e] at hlast <;> simp [List.getLast?_cons] at hlast
  · exact hsup (e ▸ ((accepted_settings w hs hl ha).2.2 a ha').1) hlast
  · obtain ⟨n, _, e, _⟩ := (extension_child d (f := c!".art") (by decide)).1 hx
    have := congrArg List.getLast? e
    simp at this

theorem findRepo_same (h : ∀ d, (IMap.get? fs' (d ++ c!"/.art")).isSome = (IMap.get? fs (d ++ c!"/.art")).isSome) (l : List Str) :
    findRepoLoop fs' l = findRepoLoop fs l := by
  induction l using List.reverseRecOn with
  | nil =>
    have := h []
    rw [List.nil_append] at this
    rw [findRepoLoop_nil, findRepoLoop_nil, this]
  | append_singleton l c ih => rw [findRepoLoop_snoc, findRepoLoop_snoc, h, ih]

theorem check_same {r r' : Run} {p q : Project} (S : Same p q) (S' : Same q p) (h : r.lints = []) (h' : r'.lints = []) :
    exitStatus (checkResult (finishRead L r.categorized p)) = exitStatus (checkResult (finishRead L r'.categorized q)) := by
  unfold finishRead
  cases e : p.lint L with
  | panic => rw [panic_of_reads S e]
  | err x => rcases lint_ne_err L p with ⟨_, h⟩ | h <;> rw [h] at e <;> cases e
  | ok ls =>
    cases e' : q.lint L with
    | panic => rw [panic_of_reads S' e'] at e; cases e
    | err x => rcases lint_ne_err L q with ⟨_, h⟩ | h <;> rw [h] at e' <;> cases e'
    | ok ls' =>
      obtain ⟨k1, k2⟩ := lints_levels S S' e e'
      obtain ⟨k1', k2'⟩ := lints_levels S' S e' e
      have E : ∀ l : List Lint, ((Categorized.categorize ⟨[], []⟩ l).sort).error.isEmpty = true ↔ ¬ ∃ d ∈ l, d.level = .error := by
        intro l
        obtain ⟨e, _⟩ := C32_exact l
        rw [List.isEmpty_iff, List.eq_nil_iff_forall_not_mem]
        constructor
        · rintro h ⟨d, hd, hl⟩; exact h d ((e d).2 ⟨hd, hl⟩)
        · intro h d hd; exact h ⟨d, (e d).1 hd⟩
      have hz : ∀ {r : Run}, r.lints = [] → r.categorized = ⟨[], []⟩ := by
        intro r h; unfold Run.categorized; rw [h]; rfl
      simp only [checkResult, hz h, hz h']
      have y1 : ((Categorized.categorize ⟨[], []⟩ ls).sort).error.isEmpty = ((Categorized.categorize ⟨[], []⟩ ls').sort).error.isEmpty := by
        rw [Bool.eq_iff_iff, E, E]
        exact not_congr ⟨k1, k1'⟩
      have y2 : ((Categorized.categorize ⟨[], []⟩ ls).sort).isEmpty = ((Categorized.categorize ⟨[], []⟩ ls').sort).isEmpty := by
        rw [Bool.eq_iff_iff, C32_isEmpty, C32_isEmpty]
        exact ⟨k2, k2'⟩
      rw [y1, y2]
      split
      · rfl
      · split <;> rfl

/-- C57. `artifact fmt` does not change the verdict of `artifact check`: if it succeeds, the status of `art check` in any directory of the project is the same before and after,
and it is 0 or 2. -/
theorem C57_check (w : FS.WF fs) (hs : SettingsOf readToml fs base s) (hsafe : Safe fs s) (ap : Apart s)
    (hr : ReadsProject L readToml hash ncpu fs base (.ok (c, p))) (hcol : NoCollision hash p [])
    (kept : ∀ a ∈ editable p, Survives L s a.file ((editable p).filter (fun b => decide (b.file = a.file))))
    {res : Categorized × Project} (h : Modifies L readToml hash dbg ncpu1 fs base [] (some (.ok res)) fs')
    {dir : FilePath} (hf : findRepo fs dir = some base) {st st' : Nat}
    (k : Checks L readToml hash ncpu' fs dir st) (k' : Checks L readToml hash ncpu2 fs' dir st') : st' = st ∧ (st = 0 ∨ st = 2) := by
  have hl0 : LinkSets [] := fun op ho => by cases ho
  have hf' : findRepo fs' dir = some base := by
    rw [← hf]
    exact findRepo_same (fun d => by rw [art_same w hs hsafe hl0 h d]) _
  unfold Checks at k'
  rw [hf'] at k'
  obtain ⟨out, ho, rfl⟩ := k'
  obtain ⟨c1, p1, c1', p1', files, cfg, a1, a2, a3, a4, a5, rfl, e⟩ := modifies_done h
  have hst : st = exitStatus (checkResult (.ok (c1, p1))) := by
    refine C33_one_status (ncpu' := ncpu1) (List.Perm.refl fs) w (dir := dir) k ?_
    unfold Checks
    rw [hf]
    exact ⟨_, a1, rfl⟩
  have hfold : foldCase p = foldCase p1 := by
    rcases C20_same_but_spelling readToml (List.Perm.refl fs) w base hr a1 with ⟨e, e', h, _⟩ | ⟨h, _⟩ | ⟨ls, q, ls', q', h, h', hf⟩
    · cases h
    · cases h
    · cases h; cases h'; exact hf
  have he := editable_foldCase hfold
  have hcol1 : NoCollision hash p1 [] := by unfold NoCollision at hcol ⊢; rw [← he]; exact hcol
  obtain ⟨hperm, P, -, S0, S0', -, r, ha, her, hfin⟩ := same_unmodified hcol1 a1 a2
  obtain ⟨r', q2, ha', he', S, S', rfl⟩ := reload w hs hsafe ap hl0 a1 a2 a3 a4 a5 (fun op ho => by cases ho)
    (fun a ha => survives_perm (inFile_perm hperm.symm _) (by
      have := kept a (he ▸ hperm.mem_iff.1 ha)
      rw [he] at this
      exact this)) ho
  have h0 := read_no_lints ha her
  rw [hst, ← hfin, ← check_same (r := r) S S' h0 (read_no_lints ha' he'), check_same (r' := r) S0 S0' h0 h0]
  refine ⟨rfl, ?_⟩
  have hce := (plans_ok a2).1
  rw [hfin]
  unfold checkResult
  simp only [hce, List.isEmpty_nil, Bool.not_true, Bool.false_eq_true, if_false]
  split
  · exact Or.inr rfl
  · exact Or.inl rfl

end

/-! ## an example -/

/-- Both runs of `artifact fmt` on the project of the examples: the disk before, after the first and after the second. -/
theorem exTwice_now : (match modifiedNow keptLibs exId exGood exS [] 1000 with
    | some (_, .done, fs') =>
      if (walkCode fs' exS).countP (fun f => (codeSent keptLibs fs' f).dead) < 4 ∧ (walkArtifacts fs' exS).countP (fun f => (artSent keptLibs exS.pre fs' f).dead) < 4 then
        (match modifiedNow keptLibs exId fs' exS [] 1000 with
        | some (_, .done, fs'') => some (shown exGood, shown fs', shown fs'')
        | _ => none)
      else none
    | _ => none) =
    some ([("/p/design/a.md", "# REQ-a\nwhat\n# SPC-a\nhow [[.x]]\n"), ("/p/design/b.md", "# SPC-b\nmore\n")],
      [("/p/design/a.md", "# REQ-a\nwhat\n\n\n# SPC-a\nhow [[.x]]"), ("/p/design/b.md", "# SPC-b\nmore")],
      [("/p/design/a.md", "# REQ-a\nwhat\n\n\n# SPC-a\nhow [[.x]]"), ("/p/design/b.md", "# SPC-b\nmore")]) := by
  decide +kernel

/-- A case that meets the hypotheses of `C57_twice` and `C57_check`: the first run changes both files. -/
theorem exTwice : ∃ c p res res' fs' fs'', FS.WF exGood ∧ SettingsOf (fun _ => some exRaw) exGood c!"/p" exS ∧ Safe exGood exS ∧ Apart exS ∧
    ReadsProject keptLibs (fun _ => some exRaw) exId 4 exGood c!"/p" (.ok (c, p)) ∧ NoCollision exId p [] ∧
    (∀ a ∈ editable p, Survives keptLibs exS a.file ((editable p).filter (fun b => decide (b.file = a.file)))) ∧
    Modifies keptLibs (fun _ => some exRaw) exId (fun _ => []) 4 exGood c!"/p" [] (some (.ok res)) fs' ∧
    Modifies keptLibs (fun _ => some exRaw) exId (fun _ => []) 4 fs' c!"/p" [] (some (.ok res')) fs'' ∧ shown fs' ≠ shown exGood := by
  obtain ⟨c, p, _, _, hr, hcol, kept, _⟩ := exFmt
  obtain ⟨_, _, _, _, _, ap, _⟩ := exKept
  have h := exTwice_now
  split at h
  · rename_i q fs' e
    obtain ⟨c', hm⟩ := modifiedNow_sound (ncpu := 4) exGood_settings (by decide +kernel) (by decide +kernel) e
    obtain ⟨_, hs', _⟩ := C57_in_order exGood_wf exGood_settings exGood_safe ap hr hcol hm
    split at h
    · rename_i hd
      split at h
      · rename_i q' fs'' e'
        obtain ⟨c'', hm'⟩ := modifiedNow_sound (ncpu := 4) hs' hd.1 hd.2 e'
        refine ⟨c, p, _, _, fs', fs'', exGood_wf, exGood_settings, exGood_safe, ap, hr, hcol, kept, hm, hm', ?_⟩
        simp only [Option.some.injEq, Prod.mk.injEq] at h
        rw [h.1, h.2.1]
        decide
      · cases h
    · cases h
  · cases h

end Art
