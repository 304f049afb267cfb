import Verif.Spec.Pair
import Verif.Props.Bytes

/-!
# Several programs that change the same project (C86)
-/

namespace Art.Pair
open Spec Cli Bytes

section
variable {E : Env} {base : FilePath} {s : Settings} {fs fs0 fs1 fs2 fs' : FS} {ops : List ArtifactOp} {a b : Proc}

/-! ## one program alone -/

theorem solo_ticks (before after : List Proc) {x y : FS × Proc} (h : Solo E base x y) : Ticks E base ⟨x.1, before ++ x.2 :: after⟩ ⟨y.1, before ++ y.2 :: after⟩ := by
  induction h with
  | refl => exact .refl
  | tail _ h ih => exact ih.tail (.tick before after h)

theorem single_mid {α : Type} {l l' : List α} {a b : α} (h : l ++ a :: l' = [b]) : l ++ l' = [] := by
  have := congrArg List.length h
  simp only [List.length_append, List.length_cons, List.length_nil] at this
  exact List.eq_nil_of_length_eq_zero (by rw [List.length_append]; omega)

theorem ticks_alone {x y : System} (h : Ticks E base x y) : ∀ {a}, x.procs = [a] → ∃ b, y.procs = [b] ∧ Solo E base (x.fs, a) (y.fs, b) := by
  induction h with
  | refl => intro a e; exact ⟨a, e, .refl⟩
  | tail _ h ih =>
    intro a e
    obtain ⟨b, e1, h1⟩ := ih e
    cases h with
    | tick before after hg =>
      simp only at e1 h1
      have hb : before = [] := by
        cases before with
        | nil => rfl
        | cons x l => simp at e1
      subst hb
      simp only [List.nil_append, List.cons.injEq] at e1
      obtain ⟨rfl, rfl⟩ := e1
      exact ⟨_, rfl, h1.tail hg⟩
    | stray before after old hne => exact absurd (single_mid e1) hne
    | reopen before after hne => exact absurd (single_mid e1) hne
    | vain before after hne => exact absurd (single_mid e1) hne

theorem reaches_solo {c : Categorized} {p : Project} {files : List (FilePath × Str)} {x y : Cfg} (h : Reaches E.L p.settings files x y) :
    Solo E base (x.fs, .writing c p files x.phase x.jobs x.lints) (y.fs, .writing c p files y.phase y.jobs y.lints) := by
  induction h with
  | refl => exact .refl
  | tail _ h ih => exact ih.tail (.write h)

/-- What a program that began with `ops` on the disk `fs` has come to, while all others wait. -/
def Stage (E : Env) (base : FilePath) (fs : FS) (ops : List ArtifactOp) : FS × Proc → Prop
  | (fs', .fresh ops') => fs' = fs ∧ ops' = ops
  | (fs', .planned c p files) => fs' = fs ∧ ∃ n read, ReadsProject E.L E.readToml E.hash n fs base read ∧ PlansRead E.L E.hash E.dbg ops read (.ok (c, p)) ∧ projectFiles E.L p = .ok files
  | (fs', .writing c p files ph jobs lints) => (∃ n read, ReadsProject E.L E.readToml E.hash n fs base read ∧ PlansRead E.L E.hash E.dbg ops read (.ok (c, p)) ∧ projectFiles E.L p = .ok files) ∧
      Reaches E.L p.settings files (Cfg.init E.L fs p.settings) ⟨fs', ph, jobs, lints⟩
  | (fs', .over out) => ∃ n, Modifies E.L E.readToml E.hash E.dbg n fs base ops out fs'

theorem stage_solo {y : FS × Proc} (h : Solo E base (fs, .fresh ops) y) : Stage E base fs ops y := by
  induction h with
  | refl => exact ⟨rfl, rfl⟩
  | @tail y z _ h ih =>
    obtain ⟨f1, y⟩ := y
    obtain ⟨f2, z⟩ := z
    simp only at h
    cases h with
    | read h1 h2 h3 => obtain ⟨rfl, rfl⟩ := ih; exact ⟨rfl, _, _, h1, h2, h3⟩
    | refuse h1 h2 h3 => obtain ⟨rfl, rfl⟩ := ih; exact ⟨_, .refused h1 h2 h3⟩
    | start => obtain ⟨rfl, h⟩ := ih; exact ⟨h, .refl⟩
    | write h => obtain ⟨h1, h2⟩ := ih; exact ⟨h1, h2.tail h⟩
    | fail => obtain ⟨⟨n, r, h1, h2, h3⟩, h4⟩ := ih; exact ⟨n, .failed h1 h2 h3 h4 rfl⟩
    | finish => obtain ⟨⟨n, r, h1, h2, h3⟩, h4⟩ := ih; exact ⟨n, .done h1 h2 h3 h4 rfl⟩
    | die h0 =>
      cases y with
      | fresh => obtain ⟨rfl, rfl⟩ := ih; exact ⟨0, .early⟩
      | planned => obtain ⟨rfl, h⟩ := ih; exact ⟨0, .early⟩
      | writing => obtain ⟨⟨n, r, h1, h2, h3⟩, h4⟩ := ih; exact ⟨n, .crash h1 h2 h3 h4⟩
      | over out => exact absurd rfl (h0 out)

theorem solo_of_modifies {n : Nat} {out : Option (Res ModifyError (Categorized × Project))} (h : Modifies E.L E.readToml E.hash E.dbg n fs base ops out fs') :
    Solo E base (fs, .fresh ops) (fs', .over out) := by
  have key : ∀ {read c p files cfg}, ReadsProject E.L E.readToml E.hash n fs base read → PlansRead E.L E.hash E.dbg ops read (.ok (c, p)) → projectFiles E.L p = .ok files →
      Reaches E.L p.settings files (Cfg.init E.L fs p.settings) cfg → Solo E base (fs, .fresh ops) (cfg.fs, .writing c p files cfg.phase cfg.jobs cfg.lints) := by
    intro read c p files cfg h1 h2 h3 h4
    have g1 : Solo E base (fs, .fresh ops) (fs, .planned c p files) := .single (Go.read h1 h2 h3)
    have g2 : Solo E base (fs, .planned c p files) (fs, .writing c p files (Cfg.init E.L fs p.settings).phase (Cfg.init E.L fs p.settings).jobs (Cfg.init E.L fs p.settings).lints) :=
      .single Go.start
    exact (g1.trans g2).trans (reaches_solo h4)
  cases h with
  | early => exact .single (.die nofun)
  | refused h1 h2 h3 => exact .single (.refuse h1 h2 h3)
  | crash h1 h2 h3 h4 => exact (key h1 h2 h3 h4).tail (.die nofun)
  | failed h1 h2 h3 h4 h5 =>
    have := key h1 h2 h3 h4
    rw [h5] at this
    exact this.tail .fail
  | done h1 h2 h3 h4 h5 =>
    have := key h1 h2 h3 h4
    rw [h5] at this
    exact this.tail .finish

/-- C86: a program that is alone does what `modify_project` does, and nothing else. -/
theorem C86_alone {out : Option (Res ModifyError (Categorized × Project))} :
    Ticks E base ⟨fs, [.fresh ops]⟩ ⟨fs', [.over out]⟩ ↔ ∃ n, Modifies E.L E.readToml E.hash E.dbg n fs base ops out fs' := by
  constructor
  · intro h
    obtain ⟨b, e, h⟩ := ticks_alone h rfl
    cases e
    exact stage_solo h
  · rintro ⟨n, h⟩
    exact solo_ticks [] [] (solo_of_modifies h)

/-! ## what all of them leave as it is -/

/-- As `Ours`, by the extension. -/
def Touch (s : Settings) (x : FilePath) : Prop := MayHold s x ∨ extension x = some c!"artbk" ∧ ∃ r ∈ s.artifactPaths, Under r x

/-- What is known about the disk at every moment. -/
structure DiskOk (s : Settings) (fs0 fs : FS) : Prop where
  wf : FS.WF fs
  dirs : ∀ q, IMap.get? fs q = some .dir ↔ IMap.get? fs0 q = some .dir
  same : ∀ q, ¬ Touch s q → IMap.get? fs q = IMap.get? fs0 q

/-- An action on files of the artifacts. -/
def ActOk (s : Settings) (a : Act) : Prop :=
  Touch s a.path ∧ ((∃ p, a = .remove p) ∨ FilePathOk a.path) ∧ (∀ q, a.target = some q → Touch s q ∧ FilePathOk q) ∧
    ∀ p c, a = .append p c → MayHold s p

/-- What is known about the files to write. -/
def PlanOk (s : Settings) (p : Project) (files : List (FilePath × Str)) : Prop :=
  p.settings = s ∧ NamesDistinct p ∧ (∀ x ∈ files, Supported x.1 ∧ ways s x.1 = 1) ∧ (files.map (·.1)).Nodup

/-- What is known about a program at every moment. -/
def ProcOk (s : Settings) : Proc → Prop
  | .fresh ops => Batch s ops
  | .planned _ p files => PlanOk s p files
  | .writing _ p files _ jobs _ => PlanOk s p files ∧ ∀ j ∈ jobs, ∀ a ∈ j, ActOk s a
  | .over _ => True

theorem hold_of_ways {x : FilePath} (h : Supported x) (hw : ways s x = 1) : MayHold s x := by
  have : 0 < ways s x := by omega
  unfold ways at this
  rw [List.countP_pos_iff] at this
  obtain ⟨r, hr, h1⟩ := this
  exact ⟨h, r, hr, by simpa using h1⟩

theorem touch_under {x : FilePath} (h : Touch s x) : ∃ r ∈ s.artifactPaths, Under r x := by
  rcases h with ⟨_, r, hr, h⟩ | ⟨_, h⟩
  · exact ⟨r, hr, h.1⟩
  · exact h

theorem touch_backup {x r : FilePath} (hr : r ∈ s.artifactPaths) (hne : r ≠ x) (h : Supported x) (hu : Under r x) : Touch s (backupPath x) := by
  refine .inr ⟨(supported_backup h).2.1, r, hr, ?_⟩
  obtain ⟨d, n, x, rfl, h1, h2, h3, h4, _⟩ := supported_shape h
  rw [backupPath_of_ext h1 h2 h3 h4]
  have hs : '/' ∉ n ++ '.' :: x := by
    simp only [List.mem_append, List.mem_cons, not_or]
    exact ⟨h2, by decide, h3⟩
  rcases hu.child hs with h | h
  · exact absurd h hne
  · exact h.trans (Or.inr ⟨_, rfl⟩)

theorem DiskOk.refl (w : FS.WF fs) : DiskOk s fs fs := ⟨w, fun _ => Iff.rfl, fun _ _ => rfl⟩

theorem DiskOk.roots (h : DiskOk s fs0 fs) (hdir : ∀ r ∈ s.artifactPaths, IMap.get? fs0 r = some .dir) : ∀ r ∈ s.artifactPaths, ¬ IsFile fs r := by
  intro r hr hf
  obtain ⟨c, hc⟩ := h.wf.isFile_iff.1 hf
  rw [(h.dirs r).2 (hdir r hr)] at hc
  cases hc

theorem DiskOk.settings (h : DiskOk s fs0 fs) (ap : Apart s) (hs : SettingsOf E.readToml fs0 base s) : SettingsOf E.readToml fs base s := by
  obtain ⟨path, raw, g1, g2⟩ := hs
  refine ⟨path, raw, settings_after (settingsPath_of g2) ap ?_ h.dirs g1, g2⟩
  intro q hq
  refine touch_under ?_
  by_contra hn
  exact hq (h.same q hn)

theorem init_ok (h : DiskOk s fs0 fs) (hdir : ∀ r ∈ s.artifactPaths, IMap.get? fs0 r = some .dir) : ∀ j ∈ (Cfg.init E.L fs s).jobs, ∀ a ∈ j, ActOk s a := by
  intro j hj a ha
  obtain ⟨p, hp, rfl⟩ := List.mem_map.1 hj
  rw [List.mem_singleton] at ha
  subst ha
  have hr := h.roots hdir
  obtain ⟨hf, hm⟩ := (walk_hold h.wf hr).1 hp
  obtain ⟨hsup, r, hr1, hr2⟩ := hm
  refine ⟨.inl ⟨hsup, r, hr1, hr2⟩, .inr (supported_ext hsup).2, ?_, nofun⟩
  intro q hq
  cases hq
  exact ⟨touch_backup hr1 (fun e => hr r hr1 (e ▸ hf)) hsup hr2.1, (supported_backup hsup).2.2⟩

theorem write_ok {p : Project} {files : List (FilePath × Str)} {x y : Cfg} (hdir : ∀ r ∈ s.artifactPaths, IMap.get? fs0 r = some .dir) (hp : PlanOk s p files) (h : DiskOk s fs0 x.fs)
    (hj : ∀ j ∈ x.jobs, ∀ a ∈ j, ActOk s a) (hs : SaveStep E.L p.settings files x y) : DiskOk s fs0 y.fs ∧ ∀ j ∈ y.jobs, ∀ a ∈ j, ActOk s a := by
  obtain ⟨e1, -, hf, -⟩ := hp
  cases hs with
  | act before after a rest fs' e ha =>
    have hm : (a :: rest) ∈ x.jobs := by rw [e]; exact mem_mid
    obtain ⟨h1, h2, h3, _⟩ := hj _ hm a List.mem_cons_self
    refine ⟨⟨apply_wf h.wf ha h2 (fun q hq => (h3 q hq).2), fun q => (apply_dir ha q).trans (h.dirs q), ?_⟩, ?_⟩
    · intro q hq
      refine (apply_frame ha ?_ ?_).trans (h.same q hq)
      · rintro rfl; exact hq h1
      · intro ht; exact hq (h3 q ht).1
    · intro j hjm b hb
      rcases mem_split_job (j := a :: rest) hjm with rfl | hjm
      · exact hj _ hm b (List.mem_cons_of_mem _ hb)
      · exact hj j (by rw [e]; exact hjm) b hb
  | fail before after a rest msg e =>
    refine ⟨h, ?_⟩
    intro j hjm b hb
    rcases mem_split_job (j := a :: rest) hjm with rfl | hjm
    · cases hb
    · exact hj j (by rw [e]; exact hjm) b hb
  | backupErr => exact ⟨h, hj⟩
  | backupOk =>
    refine ⟨h, ?_⟩
    intro j hjm a ha
    obtain ⟨z, hz, rfl⟩ := List.mem_map.1 hjm
    obtain ⟨h1, h2⟩ := saveJob_mem ha
    obtain ⟨h3, h4⟩ := hf z hz
    refine ⟨?_, ?_, ?_, fun p c e => ?_⟩
    · rw [h1]; exact .inl (hold_of_ways h3 h4)
    · rw [h1]; exact .inr (supported_ext h3).2
    · rw [h2]; exact nofun
    · rw [e] at h1
      have h1 : p = z.1 := h1
      rw [h1]; exact hold_of_ways h3 h4
  | saveErr => exact ⟨h, hj⟩
  | saveOk =>
    refine ⟨h, ?_⟩
    intro j hjm a ha
    obtain ⟨q, hq, rfl⟩ := List.mem_map.1 hjm
    rw [List.mem_singleton] at ha
    subst ha
    refine ⟨.inr ?_, .inl ⟨q, rfl⟩, nofun, nofun⟩
    rw [e1] at hq
    obtain ⟨r, hr, ⟨rfl, c, hc⟩ | ⟨h1, h2⟩⟩ := walkPaths_sound hq
    · exact absurd (h.wf.isFile_iff.2 ⟨c, hc⟩) (h.roots hdir _ hr)
    · exact ⟨((backupFilter_file _ _).1 h2).1, r, hr, h1⟩
  | removeOk => exact ⟨h, hj⟩

theorem plan_ok {n : Nat} {read : Res Categorized (Categorized × Project)} {c : Categorized} {p : Project} {files : List (FilePath × Str)} (w : FS.WF fs) (hs : SettingsOf E.readToml fs base s)
    (roots : ∀ r ∈ s.artifactPaths, ¬ IsFile fs r) (hb : Batch s ops) (h1 : ReadsProject E.L E.readToml E.hash n fs base read) (h2 : PlansRead E.L E.hash E.dbg ops read (.ok (c, p)))
    (h3 : projectFiles E.L p = .ok files) : PlanOk s p files := by
  obtain ⟨e1, e2, e3⟩ := accepted_settings w hs hb.1 ⟨_, _, h1, h2⟩
  obtain ⟨h4, h5, h6⟩ := projectFiles_spec e2 h3
  obtain ⟨c0, p0, c0', h7, h8⟩ := planned ⟨_, _, h1, h2⟩
  have hw := written_once_roots w hs roots hb.1 h7 h8 h3 hb.2
  refine ⟨e1, e2, fun x hx => ⟨?_, hw x hx⟩, h4⟩
  obtain ⟨a, ha⟩ := List.exists_mem_of_ne_nil _ (h6 x hx).1
  obtain ⟨h9, h10⟩ := mem_inFile.1 ha
  exact h10 ▸ (e3 a h9).1

theorem go_ok (ap : Apart s) (hs : SettingsOf E.readToml fs0 base s) (hdir : ∀ r ∈ s.artifactPaths, IMap.get? fs0 r = some .dir) (h : DiskOk s fs0 fs) (ha : ProcOk s a) (hg : Go E base fs a fs' b) :
    DiskOk s fs0 fs' ∧ ProcOk s b := by
  cases hg with
  | read h1 h2 h3 => exact ⟨h, plan_ok h.wf (h.settings ap hs) (h.roots hdir) ha h1 h2 h3⟩
  | refuse => exact ⟨h, trivial⟩
  | start =>
    refine ⟨h, ha, ?_⟩
    rw [ha.1]
    exact init_ok h hdir
  | write hw =>
    obtain ⟨h1, h2⟩ := write_ok hdir ha.1 (x := ⟨_, _, _, _⟩) h ha.2 hw
    exact ⟨h1, ha.1, h2⟩
  | fail => exact ⟨h, trivial⟩
  | finish => exact ⟨h, trivial⟩
  | die => exact ⟨h, trivial⟩

theorem put_ok {q : FilePath} {new : Content} (h : DiskOk s fs0 fs) (hq : Touch s q) (h1 : FilePathOk q) (h2 : IMap.get? fs (parentDir q) = some .dir) (hf : IMap.get? fs q ≠ some .dir) :
    DiskOk s fs0 (IMap.insert fs q (.file new)) := by
  refine ⟨wf_put_file h.wf h1 h2 hf _, fun x => ?_, fun x hx => ?_⟩
  · rw [← h.dirs x, IMap.get?_insert]
    split
    · rename_i e
      have e : q = x := e
      subst e
      exact ⟨fun e => (by cases e), fun e => absurd e hf⟩
    · exact Iff.rfl
  · rw [← h.same x hx, IMap.get?_insert, if_neg]
    rintro e
    have e : q = x := e
    exact hx (e ▸ hq)

theorem mid_ok {before after : List Proc} (h : ∀ c ∈ before ++ a :: after, ProcOk s c) (hb : ProcOk s b) : ∀ c ∈ before ++ b :: after, ProcOk s c := by
  intro c hc
  simp only [List.mem_append, List.mem_cons] at hc h
  rcases hc with hc | rfl | hc
  · exact h c (.inl hc)
  · exact hb
  · exact h c (.inr (.inr hc))

theorem jobs_ok {jobs before after : List (List Act)} {x : Act} {rest : List Act} (hj : ∀ j ∈ jobs, ∀ a ∈ j, ActOk s a) (e : jobs = before ++ (x :: rest) :: after) :
    ActOk s x ∧ ∀ j ∈ before ++ rest :: after, ∀ a ∈ j, ActOk s a := by
  have hm : (x :: rest) ∈ jobs := by rw [e]; exact mem_mid
  refine ⟨hj _ hm x List.mem_cons_self, ?_⟩
  intro j hjm b hb
  rcases mem_split_job (j := x :: rest) hjm with rfl | hjm
  · exact hj _ hm b (List.mem_cons_of_mem _ hb)
  · exact hj j (by rw [e]; exact hjm) b hb

theorem ticks_ok (ap : Apart s) (hs : SettingsOf E.readToml fs0 base s) (hdir : ∀ r ∈ s.artifactPaths, IMap.get? fs0 r = some .dir) {x y : System} (h : Ticks E base x y)
    (hx : DiskOk s fs0 x.fs) (hp : ∀ a ∈ x.procs, ProcOk s a) : DiskOk s fs0 y.fs ∧ ∀ a ∈ y.procs, ProcOk s a := by
  induction h with
  | refl => exact ⟨hx, hp⟩
  | tail _ h ih =>
    obtain ⟨h1, h2⟩ := ih
    cases h with
    | @tick f f' a b before after hg =>
      obtain ⟨h3, h4⟩ := go_ok ap hs hdir h1 (h2 a (by simp)) hg
      exact ⟨h3, mid_ok h2 h4⟩
    | stray before after old hne hj hd hq hf =>
      obtain ⟨h3, h4⟩ := h2 _ (List.mem_append_right _ List.mem_cons_self)
      obtain ⟨⟨-, -, -, h5⟩, h6⟩ := jobs_ok h4 hj
      obtain ⟨h7, r, h8, h9⟩ := h5 _ _ rfl
      obtain ⟨g1, g2⟩ := h1.wf.fileOk hf
      refine ⟨put_ok h1 ?_ g1 g2 (by rw [hf]; simp), mid_ok h2 ⟨h3, h6⟩⟩
      rcases hq with rfl | rfl
      · exact .inl ⟨h7, r, h8, h9⟩
      · refine touch_backup h8 ?_ h7 h9.1
        rintro rfl
        exact hd ((h1.dirs _).2 (hdir _ h8))
    | reopen before after hne hj hn hd =>
      obtain ⟨h3, h4⟩ := h2 _ (List.mem_append_right _ List.mem_cons_self)
      obtain ⟨⟨h5, h6, -, -⟩, h7⟩ := jobs_ok h4 hj
      exact ⟨put_ok h1 h5 (h6.resolve_left (by rintro ⟨_, e⟩; cases e)) hd (by rw [hn]; simp), mid_ok h2 ⟨h3, h7⟩⟩
    | vain before after hne hj =>
      obtain ⟨h3, h4⟩ := h2 _ (List.mem_append_right _ List.mem_cons_self)
      exact ⟨h1, mid_ok h2 ⟨h3, (jobs_ok h4 hj).2⟩⟩

theorem begun_ok {l : List (List ArtifactOp)} (hb : ∀ ops ∈ l, Batch s ops) : ∀ a ∈ begun l, ProcOk s a := by
  intro a ha
  obtain ⟨ops, ho, rfl⟩ := List.mem_map.1 ha
  exact hb ops ho

/-- C86: whatever any number of programs do at the same time, in whatever order they take their steps and whenever they are killed, the disk stays a tree, its directories
stay as they are, the settings stay the same, and nothing changes but artifact files and backups. -/
theorem C86_frame (w : FS.WF fs) (hs : SettingsOf E.readToml fs base s) (ap : Apart s) (hdir : ∀ r ∈ s.artifactPaths, IMap.get? fs r = some .dir) {l : List (List ArtifactOp)}
    (hb : ∀ ops ∈ l, Batch s ops) {y : System} (h : Ticks E base ⟨fs, begun l⟩ y) :
    FS.WF y.fs ∧ SettingsOf E.readToml y.fs base s ∧ (∀ x, IMap.get? y.fs x = some .dir ↔ IMap.get? fs x = some .dir) ∧
    ∀ x, ¬ Ours s x → IMap.get? y.fs x = IMap.get? fs x := by
  obtain ⟨h1, -⟩ := ticks_ok ap hs hdir h (DiskOk.refl w) (begun_ok hb)
  refine ⟨h1.wf, h1.settings ap hs, h1.dirs, ?_⟩
  intro x hx
  by_contra hne
  refine hne (h1.same x ?_)
  rintro (h | ⟨h2, h3⟩)
  · exact hx (.inl h)
  · exact hx (.inr ⟨isBackup_ext (changed_file w h1.wf h1.dirs hne) h2, h3⟩)

/-! ## the last one wins -/

theorem solo_late {c : Categorized} {p : Project} {files : List (FilePath × Str)} {y : FS × Proc} (h : Solo E base (fs, .planned c p files) y) :
    (y = (fs, .planned c p files)) ∨ (∃ cfg, Reaches E.L p.settings files (Cfg.init E.L fs p.settings) cfg ∧ y = (cfg.fs, .writing c p files cfg.phase cfg.jobs cfg.lints)) ∨
    (∃ cfg, Reaches E.L p.settings files (Cfg.init E.L fs p.settings) cfg ∧ cfg.phase = .done ∧ y = (cfg.fs, .over (some (.ok (c.categorize cfg.lints, p.sort))))) ∨
    ∃ f out, y = (f, .over out) ∧ ∀ x, out ≠ some (.ok x) := by
  induction h with
  | refl => exact .inl rfl
  | @tail y z _ h ih =>
    obtain ⟨f2, z⟩ := z
    rcases ih with rfl | ⟨cfg, h1, rfl⟩ | ⟨cfg, h1, h2, rfl⟩ | ⟨f, out, rfl, h1⟩
    · simp only at h
      cases h with
      | start => exact .inr (.inl ⟨_, .refl, rfl⟩)
      | die => exact .inr (.inr (.inr ⟨_, _, rfl, nofun⟩))
    · obtain ⟨f, ph, jobs, lints⟩ := cfg
      simp only at h
      cases h with
      | write hw => exact .inr (.inl ⟨_, h1.tail hw, rfl⟩)
      | fail => exact .inr (.inr (.inr ⟨_, _, rfl, by intro x e; cases e⟩))
      | finish => exact .inr (.inr (.inl ⟨_, h1, rfl, rfl⟩))
      | die => exact .inr (.inr (.inr ⟨_, _, rfl, nofun⟩))
    · simp only at h
      cases h with
      | die h0 => exact absurd rfl (h0 _)
    · simp only at h
      cases h with
      | die h0 => exact absurd rfl (h0 _)

/-- What writing the files leaves on the disk, for any disk that they are written to. -/
theorem late_left {p : Project} {files : List (FilePath × Str)} {cfg : Cfg} {L : Libs} (w : FS.WF fs) (hsafe : Safe fs s) (hp : PlanOk s p files)
    (h : Reaches L p.settings files (Cfg.init L fs p.settings) cfg) (hd : cfg.phase = .done) :
    (∀ x, IMap.get? cfg.fs x = some .dir ↔ IMap.get? fs x = some .dir) ∧ (∀ x, ¬ MayHold s x → ¬ IsBackup x → IMap.get? cfg.fs x = IMap.get? fs x) ∧
    ∀ x, MayHold s x → ∀ n, IMap.get? cfg.fs x = some (.file n) ↔ ∃ t, n = .text t ∧ (x, t) ∈ files := by
  obtain ⟨e1, -, e3, e4⟩ := hp
  rw [e1] at h
  have o : Orderly fs s files := ⟨w, hsafe.roots, hsafe.stems, fun x hx => (e3 x hx).1, e4⟩
  obtain ⟨w', hroots, hall, hwalk⟩ := walk_after o h hd (fun x hx => (e3 x hx).2)
  have fr := frame_reaches h
  have hnf : ∀ r ∈ s.artifactPaths, ¬ IsFile cfg.fs r := by
    intro r hr hf
    obtain ⟨c, hc⟩ := w'.isFile_iff.1 hf
    rw [hroots r hr] at hc
    cases hc
  refine ⟨fr.dirs, fun x hx hb => ?_, fun x hx n => ⟨fun h => ?_, ?_⟩⟩
  · by_contra hne
    have : Allowed fs s files x := by
      by_contra hna
      exact hne (fr.same x hna)
    rcases this with hm | ⟨f, hf, rfl⟩ | ⟨y, hy, rfl⟩ | ⟨r, hr, hu, hext⟩
    · exact hx ((walk_hold w hsafe.roots).1 hm).2
    · exact hb ⟨_, rfl⟩
    · exact hx ((walk_hold w' hnf).1 (hwalk.mem_iff.2 (List.mem_map.2 ⟨y, hy, rfl⟩))).2
    · exact hb (isBackup_ext (changed_file w w' fr.dirs hne) hext)
  · have := hwalk.mem_iff.1 ((walk_hold w' hnf).2 ⟨w'.isFile_iff.2 ⟨_, h⟩, hx⟩)
    obtain ⟨y, hy, rfl⟩ := List.mem_map.1 this
    rw [hall y hy] at h
    cases h
    exact ⟨_, rfl, hy⟩
  · rintro ⟨t, rfl, ht⟩
    exact hall _ ht

/-- C86: whoever writes last wins, and never learns of it. A program reads the project (at `fs`) and decides what to write; then others do whatever they do, any number of batches of any number of
programs, and leave the disk `fs1`; then the program writes and succeeds. The disk is, byte for byte, what it would be if the others had done nothing: all that they have saved is gone. -/
theorem C86_last (w : FS.WF fs) (hs : SettingsOf E.readToml fs base s) (hsafe : Safe fs s) (ap : Apart s) (hdir : ∀ r ∈ s.artifactPaths, IMap.get? fs r = some .dir)
    (hb : Batch s ops) {c : Categorized} {p : Project} {files : List (FilePath × Str)} (hread : Go E base fs (.fresh ops) fs (.planned c p files))
    {l : List (List ArtifactOp)} (hbl : ∀ o ∈ l, Batch s o) {procs : List Proc} (others : Ticks E base ⟨fs, begun l⟩ ⟨fs1, procs⟩) (hsafe1 : Safe fs1 s)
    {r r2 : Categorized × Project} (late : Solo E base (fs1, .planned c p files) (fs', .over (some (.ok r))))
    (alone : Solo E base (fs, .planned c p files) (fs2, .over (some (.ok r2)))) : SameDisk fs' fs2 ∧ r.2 = r2.2 := by
  obtain ⟨h1, -⟩ := ticks_ok ap hs hdir others (DiskOk.refl w) (begun_ok hbl)
  have hp : PlanOk s p files := by
    cases hread with
    | read h1 h2 h3 => exact plan_ok w hs hsafe.roots hb h1 h2 h3
  have key : ∀ {f f' : FS} {r : Categorized × Project}, Solo E base (f, .planned c p files) (f', .over (some (.ok r))) →
      r.2 = p.sort ∧ ∃ cfg, Reaches E.L p.settings files (Cfg.init E.L f p.settings) cfg ∧ cfg.phase = .done ∧ f' = cfg.fs := by
    intro f f' r h
    rcases solo_late h with e | ⟨cfg, _, e⟩ | ⟨cfg, h1, h2, e⟩ | ⟨_, _, e, h⟩
    · cases e
    · cases e
    · cases e; exact ⟨rfl, cfg, h1, h2, rfl⟩
    · cases e; exact absurd rfl (h _)
  obtain ⟨q1, cfg1, a1, a2, rfl⟩ := key late
  obtain ⟨q2, cfg2, b1, b2, rfl⟩ := key alone
  obtain ⟨c1, c2, c3⟩ := late_left h1.wf hsafe1 hp a1 a2
  obtain ⟨d1, d2, d3⟩ := late_left w hsafe hp b1 b2
  refine ⟨?_, q1.trans q2.symm⟩
  intro x hx
  by_cases hm : MayHold s x
  · have hf : ∀ n, IMap.get? cfg1.fs x = some (.file n) ↔ IMap.get? cfg2.fs x = some (.file n) := fun n => (c3 x hm n).trans (d3 x hm n).symm
    have hd := ((c1 x).trans (h1.dirs x)).trans (d1 x).symm
    cases e1 : IMap.get? cfg1.fs x with
    | some n =>
      cases n with
      | dir => exact (hd.1 e1).symm
      | file c => exact ((hf c).1 e1).symm
    | none =>
      cases e2 : IMap.get? cfg2.fs x with
      | none => rfl
      | some n =>
        cases n with
        | dir => rw [hd.2 e2] at e1; cases e1
        | file c => rw [(hf c).2 e2] at e1; cases e1
  · rw [c2 x hm hx, d2 x hm hx]
    by_contra hne
    refine hne (h1.same x ?_)
    rintro (h | ⟨h2, -⟩)
    · exact hm h
    · exact hx (isBackup_ext (changed_file w h1.wf h1.dirs hne) h2)

end
end Art.Pair
