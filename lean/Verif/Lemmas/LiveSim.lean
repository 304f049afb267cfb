import Verif.Lemmas.Live
import Verif.Lemmas.SaveInv
import Verif.Spec.Live

/-!
# Walking while files are renamed and removed does what walking before does
-/

namespace Art
open Spec

variable {L : Libs} {s : Settings} {files : List (FilePath × Str)} {fs fs0 : FS} {f : FilePath → Bool → Bool} {mk : FilePath → Act} {W D C : List FilePath}

/-! ## the jobs -/

theorem jobs_split (hD : D.Nodup) {b af : List (List Act)} {a : Act} {r : List Act} (h : D.map (jobOf mk C) = b ++ (a :: r) :: af) :
    ∃ p ∈ D, p ∉ C ∧ a = mk p ∧ r = [] ∧ b ++ [] :: af = D.map (jobOf mk (p :: C)) := by
  obtain ⟨D1, D2, rfl, h1, h2⟩ := List.map_eq_append_iff.1 h
  obtain ⟨p, D3, rfl, h3, h4⟩ := List.map_eq_cons_iff.1 h2
  have hp : p ∉ C := by
    intro hp
    simp [jobOf, hp] at h3
  simp only [jobOf, hp, if_false, List.cons.injEq] at h3
  refine ⟨p, by simp, hp, h3.1.symm, h3.2.symm, ?_⟩
  obtain ⟨n1, n2, n3⟩ := List.nodup_append.1 hD
  obtain ⟨n4, n5⟩ := List.nodup_cons.1 n2
  rw [List.map_append, List.map_cons, ← h1, ← h4]
  have e : jobOf mk (p :: C) p = [] := by simp [jobOf]
  rw [e]
  congr 1
  · refine List.map_congr_left ?_
    intro x hx
    have : x ≠ p := n3 x hx p (by simp)
    simp [jobOf, this]
  · congr 1
    refine List.map_congr_left ?_
    intro x hx
    have : x ≠ p := by rintro rfl; exact n4 hx
    simp [jobOf, this]

theorem jobs_open (hW : W.Nodup) {p : FilePath} (hp : p ∈ W) (hC : p ∉ C) :
    ∃ b af, W.map (jobOf mk C) = b ++ [mk p] :: af ∧ W.map (jobOf mk (p :: C)) = b ++ [] :: af := by
  obtain ⟨W1, W2, rfl⟩ := List.append_of_mem hp
  obtain ⟨n1, n2, n3⟩ := List.nodup_append.1 hW
  obtain ⟨n4, n5⟩ := List.nodup_cons.1 n2
  refine ⟨W1.map (jobOf mk C), W2.map (jobOf mk C), by simp [jobOf, hC], ?_⟩
  have e : jobOf mk (p :: C) p = [] := by simp [jobOf]
  rw [List.map_append, List.map_cons, e]
  congr 1
  · refine List.map_congr_left ?_
    intro x hx
    have : x ≠ p := n3 x hx p (by simp)
    simp [jobOf, this]
  · congr 1
    refine List.map_congr_left ?_
    intro x hx
    have : x ≠ p := by rintro rfl; exact n4 hx
    simp [jobOf, this]

/-! ## the actions -/

/-- What an action does for the file it is made for does not disturb the walk. -/
structure Tame (fs0 : FS) (f : FilePath → Bool → Bool) (mk : FilePath → Act) : Prop where
  path : ∀ p, (mk p).path = p
  target : ∀ p x, IMap.get? fs0 p = some (.file x) → f p false = true → ∀ q, (mk p).target = some q → f q false = false

theorem apply_kept {fs fs' : FS} {a : Act} (h : a.apply fs = some fs') {e : FilePath} (he : e ≠ a.path) {n : Node} (hn : IMap.get? fs e = some n) :
    ∃ n', IMap.get? fs' e = some n' := by
  by_cases ht : a.target = some e
  · cases a with
    | rename p q =>
      obtain rfl : q = e := Option.some.inj ht
      obtain ⟨x, _, _, h3⟩ := apply_rename h (Ne.symm he)
      exact ⟨_, h3⟩
    | create p => cases ht
    | truncate p => cases ht
    | append p x => cases ht
    | remove p => cases ht
  · exact ⟨n, by rw [apply_frame h he ht]; exact hn⟩

namespace Walking
variable {c : LiveCfg}

theorem act (hW : Findable fs0 f W) (t : Tame fs0 f mk) (h : Walking fs0 f mk W c D C) {b af : List (List Act)} {a : Act} {r : List Act} {fs' : FS}
    (hj : c.jobs = b ++ (a :: r) :: af) (ha : a.apply c.fs = some fs') :
    ∃ p ∈ D, p ∉ C ∧ a = mk p ∧ r = [] ∧ Walking fs0 f mk W { c with fs := fs', jobs := b ++ r :: af } D (p :: C) := by
  obtain ⟨p, hp, hpC, rfl, rfl, hj'⟩ := jobs_split h.front.nodup (h.jobs.symm.trans hj)
  refine ⟨p, hp, hpC, rfl, rfl, ?_⟩
  obtain ⟨⟨x, hx⟩, hpf⟩ := hW p ((h.front.cover p).2 (Or.inl hp))
  refine ⟨h.front, hj', ?_, h.roots, ?_, ?_, h.has, ?_⟩
  · intro q hq
    rcases List.mem_cons.1 hq with rfl | hq
    · exact hp
    · exact h.sub q hq
  · intro e
    exact (apply_dir ha e).trans (h.dirs e)
  · intro e hf he
    simp only [List.mem_cons, not_or] at he
    rw [← h.files e hf he.2]
    have h1 : e ≠ (mk p).path := by rw [t.path]; exact he.1
    have h2 : (mk p).target ≠ some e := by
      intro h2
      have := t.target p x hx hpf e h2
      rw [hf] at this
      cases this
    simp only [apply_frame ha h1 h2]
  · intro hd hh e he
    obtain ⟨h1, h2⟩ := h.kept hd hh e he
    refine ⟨h1, ?_⟩
    intro hn
    simp only [List.mem_cons, not_or] at hn
    obtain ⟨n, h3⟩ := h2 hn.2
    exact apply_kept ha (by rw [t.path]; exact hn.1) h3

theorem fail (h : Walking fs0 f mk W c D C) {b af : List (List Act)} {a : Act} {r : List Act} (ls : List Lint) (hj : c.jobs = b ++ (a :: r) :: af) :
    ∃ p ∈ D, p ∉ C ∧ a = mk p ∧ r = [] ∧ Walking fs0 f mk W { c with jobs := b ++ [] :: af, lints := ls } D (p :: C) := by
  obtain ⟨p, hp, hpC, rfl, rfl, hj'⟩ := jobs_split h.front.nodup (h.jobs.symm.trans hj)
  refine ⟨p, hp, hpC, rfl, rfl, ?_⟩
  refine ⟨h.front, hj', ?_, h.roots, h.dirs, ?_, h.has, ?_⟩
  · intro q hq
    rcases List.mem_cons.1 hq with rfl | hq
    · exact hp
    · exact h.sub q hq
  · intro e hf he
    simp only [List.mem_cons, not_or] at he
    exact h.files e hf he.2
  · intro hd hh e he
    obtain ⟨h1, h2⟩ := h.kept hd hh e he
    exact ⟨h1, fun hn => h2 (fun hC => hn (List.mem_cons_of_mem _ hC))⟩

/-- At the end everything was found and every job has ended. -/
theorem idle (h : Walking fs0 f mk W c D C) (hi : c.idle) : ∀ j ∈ W.map (jobOf mk C), j = [] := by
  obtain ⟨h1, h2, h3⟩ := hi
  intro j hj
  obtain ⟨p, hp, rfl⟩ := List.mem_map.1 hj
  have hfr : frontier fs0 c = [] := by simp [frontier, h1, h2]
  have := (h.front.cover p).1 hp
  rw [hfr] at this
  rcases this with hD | ⟨e, he, _⟩
  · exact h3 _ (by rw [h.jobs]; exact List.mem_map_of_mem hD)
  · cases he

end Walking

/-! ## the files of a walk -/

theorem mem_walkPaths_dirs (w : FS.WF fs) {roots : ISet FilePath} (hr : ∀ r ∈ roots, IMap.get? fs r = some .dir) (p : FilePath) :
    p ∈ walkPaths fs f roots ↔ ∃ r ∈ roots, Found fs f r p := by
  unfold walkPaths
  rw [List.mem_flatMap]
  refine exists_congr fun r => and_congr_right fun h => ?_
  unfold walkPath
  rw [hr r h]
  simp only [Option.getD_some]
  exact mem_walk w f _ r _ (hr r h) (by omega) p

theorem walkPaths_nodup (w : FS.WF fs) {roots : ISet FilePath} (hr : SeparateDirs fs roots) : (walkPaths fs f roots).Nodup := by
  unfold walkPaths
  rw [List.nodup_flatMap]
  refine ⟨?_, hr.apart.imp_of_mem ?_⟩
  · intro r h
    unfold walkPath
    rw [hr.dirs r h]
    exact walk_nodup w f _ r _ (hr.dirs r h) (by omega)
  · intro a b ha hb hab
    simp only [Function.onFun]
    rw [List.disjoint_left]
    intro p hpa hpb
    simp only [walkPath, hr.dirs a ha, hr.dirs b hb, Option.getD_some] at hpa hpb
    have h1 := (mem_walk w f _ a _ (hr.dirs a ha) (by omega) p).1 hpa
    have h2 := (mem_walk w f _ b _ (hr.dirs b hb) (by omega) p).1 hpb
    rcases h1.2.1.total h2.2.1 with h | h
    · exact hab.1 h
    · exact hab.2 h

theorem walkPaths_findable (w : FS.WF fs) {roots : ISet FilePath} (hr : ∀ r ∈ roots, IMap.get? fs r = some .dir) :
    Findable fs f (walkPaths fs f roots) := by
  intro p hp
  obtain ⟨r, _, h1, h2, h3⟩ := (mem_walkPaths_dirs w hr p).1 hp
  obtain ⟨x, hx⟩ := w.isFile_iff.1 h1
  exact ⟨⟨x, hx⟩, h3 p _ hx h2 (Under.refl _)⟩

theorem walkLints_dirs {roots : ISet FilePath} (hr : ∀ r ∈ roots, IMap.get? fs r = some .dir) : walkLints L fs f roots = [] := by
  unfold walkLints
  rw [List.filterMap_eq_nil_iff]
  intro r h
  simp [walkPath, hr r h]

/-- A walk begins. -/
theorem walking_init (w : FS.WF fs) {roots : ISet FilePath} (hr : SeparateDirs fs roots) {c : LiveCfg} (h1 : c.fs = fs) (h2 : c.roots = roots)
    (h3 : c.stack = []) (h4 : c.jobs = []) : Walking fs f mk (walkPaths fs f roots) c [] [] := by
  have hfr : frontier fs c = roots := by simp [frontier, h2, h3]
  refine ⟨⟨List.nodup_nil, ?_, ?_, by simp⟩, by simp [h4], by simp, ?_, by simp [h1], by simp [h1], by simp [h3], by simp [h3]⟩
  · rw [hfr]; exact hr.apart
  · intro p
    rw [mem_walkPaths_dirs w hr.dirs, hfr]
    simp
  · rw [h2]; exact hr.dirs

theorem tame_backup (w : FS.WF fs0) (excl : ISet FilePath) : Tame fs0 (artFilter excl) backupAct := by
  refine ⟨fun _ => rfl, ?_⟩
  intro p x hx hf q hq
  simp only [backupAct, Act.target, Option.some.injEq] at hq
  subst hq
  have hs : Supported p := ((artFilter_file w excl p (w.isFile_iff.2 ⟨x, hx⟩)).1 hf).2
  have he := (supported_backup hs).2.1
  have : ArtFileType.fromPath (backupPath p) = none := by
    unfold ArtFileType.fromPath
    rw [he]
    decide
  simp [artFilter, this]

theorem tame_remove (excl : ISet FilePath) : Tame fs0 (backupFilter excl) .remove := ⟨fun _ => rfl, fun _ _ _ _ _ h => by cases h⟩

/-! ## the simulation -/

/-- A moment of the walk in progress and a moment of the walk made before. -/
structure Sim (s : Settings) (c : LiveCfg) (c' : Cfg) : Prop where
  fs : c'.fs = c.fs
  phase : c'.phase = c.phase
  lints : c'.lints = c.lints
  backup : c.phase = .backup → ∃ fs0 D C, FS.WF fs0 ∧ SeparateDirs fs0 s.artifactPaths ∧
    Walking fs0 (artFilter s.excludeArtifactPaths) backupAct (walkArtifacts fs0 s) c D C ∧ c'.jobs = (walkArtifacts fs0 s).map (jobOf backupAct C)
  remove : c.phase = .remove → ∃ fs0 D C, FS.WF fs0 ∧ SeparateDirs fs0 s.artifactPaths ∧
    Walking fs0 (backupFilter s.excludeArtifactPaths) .remove (walkBackups fs0 s) c D C ∧ c'.jobs = (walkBackups fs0 s).map (jobOf .remove C)
  save : c.phase = .save → c'.jobs = c.jobs
  ended : c.phase ≠ .backup → c.phase ≠ .remove → c.phase ≠ .save → ∀ j ∈ c.jobs, j = []

theorem dirs_reaches {c0 c : Cfg} (h : Reaches L s files c0 c) (q : FilePath) : IMap.get? c.fs q = some .dir ↔ IMap.get? c0.fs q = some .dir := by
  induction h with
  | refl => rfl
  | tail _ hst ih =>
    rw [← ih]
    cases hst with
    | act b af a r fs' hj ha => exact apply_dir ha q
    | _ => rfl

theorem sim_init (w : FS.WF fs) (hr : SeparateDirs fs s.artifactPaths) : Sim s (LiveCfg.init fs s) (Cfg.init L fs s) := by
  refine ⟨rfl, rfl, ?_, ?_, nofun, nofun, fun h => absurd rfl h⟩
  · simp only [Cfg.init, LiveCfg.init]
    exact walkLints_dirs hr.dirs
  · intro _
    refine ⟨fs, [], [], w, hr, walking_init w hr rfl rfl rfl rfl, ?_⟩
    simp only [Cfg.init, backupJobs]
    rfl

theorem sim_act {c : LiveCfg} {c' : Cfg} (w : FS.WF fs0) (hr : SeparateDirs fs0 s.artifactPaths) (t : Tame fs0 f mk)
    (h : Walking fs0 f mk (walkPaths fs0 f s.artifactPaths) c D C) (hj' : c'.jobs = (walkPaths fs0 f s.artifactPaths).map (jobOf mk C)) (hfs : c'.fs = c.fs)
    {b af : List (List Act)} {a : Act} {r : List Act} {fs' : FS} (hj : c.jobs = b ++ (a :: r) :: af) (ha : a.apply c.fs = some fs') :
    ∃ C' d', SaveStep L s files c' d' ∧ d'.fs = fs' ∧ d'.phase = c'.phase ∧ d'.lints = c'.lints ∧
      Walking fs0 f mk (walkPaths fs0 f s.artifactPaths) { c with fs := fs', jobs := b ++ r :: af } D C' ∧
      d'.jobs = (walkPaths fs0 f s.artifactPaths).map (jobOf mk C') := by
  obtain ⟨p, hp, hpC, rfl, rfl, hw⟩ := h.act (walkPaths_findable w hr.dirs) t hj ha
  obtain ⟨b', af', e1, e2⟩ := jobs_open (mk := mk) (C := C) (walkPaths_nodup (f := f) w hr) ((h.front.cover p).2 (Or.inl hp)) hpC
  refine ⟨p :: C, { c' with fs := fs', jobs := b' ++ [] :: af' }, SaveStep.act c' b' af' (mk p) [] fs' (hj'.trans e1) (by rw [hfs]; exact ha), rfl, rfl, rfl, hw, ?_⟩
  exact e2.symm

theorem sim_fail {c : LiveCfg} {c' : Cfg} (w : FS.WF fs0) (hr : SeparateDirs fs0 s.artifactPaths)
    (h : Walking fs0 f mk (walkPaths fs0 f s.artifactPaths) c D C) (hj' : c'.jobs = (walkPaths fs0 f s.artifactPaths).map (jobOf mk C))
    {b af : List (List Act)} {a : Act} {r : List Act} (msg : Str) (ls : List Lint) (hj : c.jobs = b ++ (a :: r) :: af) :
    ∃ C' d', SaveStep L s files c' d' ∧ d'.fs = c'.fs ∧ d'.phase = c'.phase ∧ d'.lints = c'.lints ++ [failLint c'.phase a msg] ∧
      Walking fs0 f mk (walkPaths fs0 f s.artifactPaths) { c with jobs := b ++ [] :: af, lints := ls } D C' ∧
      d'.jobs = (walkPaths fs0 f s.artifactPaths).map (jobOf mk C') := by
  obtain ⟨p, hp, hpC, rfl, rfl, hw⟩ := h.fail ls hj
  obtain ⟨b', af', e1, e2⟩ := jobs_open (mk := mk) (C := C) (walkPaths_nodup (f := f) w hr) ((h.front.cover p).2 (Or.inl hp)) hpC
  exact ⟨p :: C, _, SaveStep.fail c' b' af' (mk p) [] msg (hj'.trans e1), rfl, rfl, rfl, hw, e2.symm⟩

theorem sim_step {c d : LiveCfg} {c' : Cfg} (wc : FS.WF c'.fs) (hr : SeparateDirs c'.fs s.artifactPaths) (h : Sim s c c') (hs : LiveStep L s files c d) :
    ∃ d', Reaches L s files c' d' ∧ Sim s d d' := by
  have wc' : FS.WF c.fs := h.fs ▸ wc
  cases hs with
  | findArtifacts _ hp hw =>
    obtain ⟨fs0, D, C, w0, hr0, hwk, hj⟩ := h.backup hp
    obtain ⟨⟨D', hD'⟩, e1, e2, e3⟩ := hwk.step w0 wc' (walkPaths_findable w0 hr0.dirs) hw
    have hp' := e3.trans hp
    exact ⟨c', .refl, h.fs.trans e1.symm, h.phase.trans e3.symm, h.lints.trans e2.symm, fun _ => ⟨fs0, D', C, w0, hr0, hD', hj⟩,
      (fun hx => by rw [hp'] at hx; cases hx), (fun hx => by rw [hp'] at hx; cases hx), fun hx => absurd hp' hx⟩
  | findBackups _ hp hw =>
    obtain ⟨fs0, D, C, w0, hr0, hwk, hj⟩ := h.remove hp
    obtain ⟨⟨D', hD'⟩, e1, e2, e3⟩ := hwk.step w0 wc' (walkPaths_findable w0 hr0.dirs) hw
    have hp' := e3.trans hp
    exact ⟨c', .refl, h.fs.trans e1.symm, h.phase.trans e3.symm, h.lints.trans e2.symm, (fun hx => by rw [hp'] at hx; cases hx),
      fun _ => ⟨fs0, D', C, w0, hr0, hD', hj⟩, (fun hx => by rw [hp'] at hx; cases hx), fun _ hx => absurd hp' hx⟩
  | act b af a r fs' hj ha =>
    by_cases hp : c.phase = .backup
    · obtain ⟨fs0, D, C, w0, hr0, hwk, hj'⟩ := h.backup hp
      obtain ⟨C', d', h1, h2, h3, h4, h5, h6⟩ := sim_act (L := L) (files := files) w0 hr0 (tame_backup w0 _) hwk hj' h.fs hj ha
      exact ⟨d', .single h1, h2, h3.trans h.phase, h4.trans h.lints, fun _ => ⟨fs0, D, C', w0, hr0, h5, h6⟩,
        (fun hx => by simp only [hp] at hx; cases hx), (fun hx => by simp only [hp] at hx; cases hx), fun hx => absurd hp hx⟩
    · by_cases hp2 : c.phase = .remove
      · obtain ⟨fs0, D, C, w0, hr0, hwk, hj'⟩ := h.remove hp2
        obtain ⟨C', d', h1, h2, h3, h4, h5, h6⟩ := sim_act (L := L) (files := files) w0 hr0 (tame_remove _) hwk hj' h.fs hj ha
        exact ⟨d', .single h1, h2, h3.trans h.phase, h4.trans h.lints, fun hx => absurd hx hp, fun _ => ⟨fs0, D, C', w0, hr0, h5, h6⟩,
          (fun hx => by simp only [hp2] at hx; cases hx), fun _ hx => absurd hp2 hx⟩
      · by_cases hp3 : c.phase = .save
        · exact ⟨{ c' with fs := fs', jobs := b ++ r :: af }, .single (SaveStep.act c' b af a r fs' ((h.save hp3).trans hj) (by rw [h.fs]; exact ha)),
            rfl, h.phase, h.lints, fun hx => absurd hx hp, fun hx => absurd hx hp2, fun _ => rfl, fun _ _ hx => absurd hp3 hx⟩
        · cases h.ended hp hp2 hp3 (a :: r) (by rw [hj]; exact mem_mid)
  | fail b af a r msg hj =>
    by_cases hp : c.phase = .backup
    · obtain ⟨fs0, D, C, w0, hr0, hwk, hj'⟩ := h.backup hp
      obtain ⟨C', d', h1, h2, h3, h4, h5, h6⟩ := sim_fail (L := L) (files := files) w0 hr0 hwk hj' msg (c.lints ++ [failLint c.phase a msg]) hj
      exact ⟨d', .single h1, h2.trans h.fs, h3.trans h.phase, by rw [h4, h.lints, h.phase], fun _ => ⟨fs0, D, C', w0, hr0, h5, h6⟩,
        (fun hx => by simp only [hp] at hx; cases hx), (fun hx => by simp only [hp] at hx; cases hx), fun hx => absurd hp hx⟩
    · by_cases hp2 : c.phase = .remove
      · obtain ⟨fs0, D, C, w0, hr0, hwk, hj'⟩ := h.remove hp2
        obtain ⟨C', d', h1, h2, h3, h4, h5, h6⟩ := sim_fail (L := L) (files := files) w0 hr0 hwk hj' msg (c.lints ++ [failLint c.phase a msg]) hj
        exact ⟨d', .single h1, h2.trans h.fs, h3.trans h.phase, by rw [h4, h.lints, h.phase], fun hx => absurd hx hp,
          fun _ => ⟨fs0, D, C', w0, hr0, h5, h6⟩, (fun hx => by simp only [hp2] at hx; cases hx), fun _ hx => absurd hp2 hx⟩
      · by_cases hp3 : c.phase = .save
        · exact ⟨_, .single (SaveStep.fail c' b af a r msg ((h.save hp3).trans hj)), h.fs, h.phase, by simp only [h.lints, h.phase],
            fun hx => absurd hx hp, fun hx => absurd hx hp2, fun _ => rfl, fun _ _ hx => absurd hp3 hx⟩
        · cases h.ended hp hp2 hp3 (a :: r) (by rw [hj]; exact mem_mid)
  | backupErr hp hi he =>
    obtain ⟨fs0, D, C, w0, hr0, hwk, hj'⟩ := h.backup hp
    have hi' : ∀ j ∈ c'.jobs, j = [] := by rw [hj']; exact hwk.idle hi
    exact ⟨_, .single (SaveStep.backupErr c' (h.phase.trans hp) hi' (by rw [h.lints]; exact he)), h.fs, rfl, h.lints, nofun, nofun, nofun, fun _ _ _ => hi.2.2⟩
  | backupOk hp hi he =>
    obtain ⟨fs0, D, C, w0, hr0, hwk, hj'⟩ := h.backup hp
    have hi' : ∀ j ∈ c'.jobs, j = [] := by rw [hj']; exact hwk.idle hi
    exact ⟨_, .single (SaveStep.backupOk c' (h.phase.trans hp) hi' (by rw [h.lints]; exact he)), h.fs, rfl, h.lints, nofun, nofun, fun _ => rfl,
      fun _ _ hx => absurd rfl hx⟩
  | saveErr hp hi he =>
    have hj := h.save hp
    exact ⟨_, .single (SaveStep.saveErr c' (h.phase.trans hp) (by rw [hj]; exact hi.2.2) (by rw [h.lints]; exact he)), h.fs, rfl, h.lints, nofun, nofun, nofun,
      fun _ _ _ => hi.2.2⟩
  | saveOk hp hi he =>
    have hj := h.save hp
    refine ⟨_, .single (SaveStep.saveOk c' (h.phase.trans hp) (by rw [hj]; exact hi.2.2) (by rw [h.lints]; exact he)), h.fs, rfl, ?_, nofun, ?_, nofun,
      fun _ hx => absurd rfl hx⟩
    · simp only [walkLints_dirs hr.dirs, List.append_nil]
      exact h.lints
    · intro _
      refine ⟨c'.fs, [], [], wc, hr, walking_init wc hr h.fs.symm rfl hi.2.1 rfl, ?_⟩
      simp only [removeJobs]
      rfl
  | removeOk hp hi =>
    obtain ⟨fs0, D, C, w0, hr0, hwk, hj'⟩ := h.remove hp
    have hi' : ∀ j ∈ c'.jobs, j = [] := by rw [hj']; exact hwk.idle hi
    exact ⟨_, .single (SaveStep.removeOk c' (h.phase.trans hp) hi'), h.fs, rfl, h.lints, nofun, nofun, nofun, fun _ _ _ => hi.2.2⟩

/-- Every moment of the walk in progress is a moment of the walk made before. -/
theorem sim_reaches (w : FS.WF fs) (hr : SeparateDirs fs s.artifactPaths) (hf : ∀ x ∈ files, FilePathOk x.1) {c : LiveCfg}
    (h : LiveReaches L s files (LiveCfg.init fs s) c) : ∃ c', Reaches L s files (Cfg.init L fs s) c' ∧ Sim s c c' := by
  induction h with
  | refl => exact ⟨_, .refl, sim_init w hr⟩
  | tail _ hst ih =>
    obtain ⟨c', h1, h2⟩ := ih
    have hr' : SeparateDirs c'.fs s.artifactPaths := ⟨fun r h => (dirs_reaches h1 r).2 (hr.dirs r h), hr.apart⟩
    obtain ⟨d', h3, h4⟩ := sim_step (tree_reaches w hf h1) hr' h2 hst
    exact ⟨d', h1.trans h3, h4⟩

/-! ## walking first -/

/-- The steps of the walk alone. -/
def Walks (L : Libs) (f : FilePath → Bool → Bool) (mk : FilePath → Act) : LiveCfg → LiveCfg → Prop := Relation.ReflTransGen (WalkStep L f mk)

/-- The jobs for the files. -/
def jobsFor (mk : FilePath → Act) (l : List FilePath) : List (List Act) := l.map (fun p => [mk p])

theorem jobsFor_append (a b : List FilePath) : jobsFor mk (a ++ b) = jobsFor mk a ++ jobsFor mk b := by simp [jobsFor]

/-- Walking the entries of a directory one after the other. -/
theorem walks_list {k : Nat}
    (ih : ∀ (c : LiveCfg) (hd : Handle) (st : List Handle) (e : FilePath) (n : Node), c.stack = hd :: st → isChild hd.dir e = true → e ∉ hd.seen → c.fs = fs →
      IMap.get? fs e = some n → walkFuel fs ≤ k + e.length → Walks L f mk c { c with stack := hd.see e :: st, jobs := c.jobs ++ jobsFor mk (walk fs f k e n) })
    (todo : List (FilePath × Node)) (c : LiveCfg) (hd : Handle) (st : List Handle) (hst : c.stack = hd :: st) (hfs : c.fs = fs)
    (hn : (todo.map Prod.fst).Nodup)
    (ht : ∀ x ∈ todo, isChild hd.dir x.1 = true ∧ x.1 ∉ hd.seen ∧ IMap.get? fs x.1 = some x.2 ∧ walkFuel fs ≤ k + x.1.length) :
    Walks L f mk c { c with stack := { hd with seen := (todo.map Prod.fst).reverse ++ hd.seen } :: st,
                            jobs := c.jobs ++ jobsFor mk (todo.flatMap (fun x => walk fs f k x.1 x.2)) } := by
  induction todo generalizing c hd with
  | nil =>
    obtain ⟨a1, a2, a3, a4, a5, a6⟩ := c
    simp only at hst
    subst hst
    simp only [List.map_nil, List.reverse_nil, List.nil_append, List.flatMap_nil, jobsFor, List.append_nil]
    exact .refl
  | cons x todo ih2 =>
    obtain ⟨h1, h2, h3, h4⟩ := ht x (by simp)
    simp only [List.map_cons, List.nodup_cons] at hn
    have s1 := ih c hd st x.1 x.2 hst h1 h2 hfs h3 h4
    have s2 := ih2 { c with stack := hd.see x.1 :: st, jobs := c.jobs ++ jobsFor mk (walk fs f k x.1 x.2) } (hd.see x.1) rfl hfs hn.2 ?_
    · refine s1.trans ?_
      simp only [Handle.see, List.map_cons, List.reverse_cons, List.append_assoc, List.singleton_append, List.flatMap_cons, jobsFor_append] at s2 ⊢
      exact s2
    · intro y hy
      obtain ⟨g1, g2, g3, g4⟩ := ht y (by simp [hy])
      refine ⟨g1, ?_, g3, g4⟩
      simp only [Handle.see, List.mem_cons, not_or]
      refine ⟨?_, g2⟩
      rintro e
      exact hn.1 (e ▸ List.mem_map_of_mem hy)

/-- Walking a directory that was just opened. -/
theorem walks_open (w : FS.WF fs) {k : Nat}
    (ih : ∀ (c : LiveCfg) (hd : Handle) (st : List Handle) (e : FilePath) (n : Node), c.stack = hd :: st → isChild hd.dir e = true → e ∉ hd.seen → c.fs = fs →
      IMap.get? fs e = some n → walkFuel fs ≤ k + e.length → Walks L f mk c { c with stack := hd.see e :: st, jobs := c.jobs ++ jobsFor mk (walk fs f k e n) })
    (c : LiveCfg) (d : FilePath) (st : List Handle) (hst : c.stack = openDir fs d :: st) (hfs : c.fs = fs) (hk : walkFuel fs ≤ k + 1 + d.length) :
    Walks L f mk c { c with stack := st, jobs := c.jobs ++ jobsFor mk ((children fs d).flatMap (fun x => walk fs f k x.1 x.2)) } := by
  have s1 := walks_list ih (children fs d) c (openDir fs d) st hst hfs (kids_nodup w d) ?_
  · refine s1.tail ?_
    refine WalkStep.close _ st rfl ?_
    intro e he
    exact Or.inl (List.mem_append_left _ (List.mem_reverse.2 he))
  · intro x hx
    obtain ⟨h1, h2⟩ := mem_children.1 hx
    refine ⟨h2, by simp [openDir], w.mem_iff.1 h1, ?_⟩
    obtain ⟨n, h3, h4, _⟩ := isChild_iff.1 h2
    rw [h3]
    simp
    omega

theorem walks_entry (w : FS.WF fs) (k : Nat) (c : LiveCfg) (hd : Handle) (st : List Handle) (e : FilePath) (n : Node) (hst : c.stack = hd :: st)
    (hc : isChild hd.dir e = true) (hs : e ∉ hd.seen) (hfs : c.fs = fs) (he : IMap.get? fs e = some n) (hk : walkFuel fs ≤ k + e.length) :
    Walks L f mk c { c with stack := hd.see e :: st, jobs := c.jobs ++ jobsFor mk (walk fs f k e n) } := by
  induction k generalizing c hd st e n with
  | zero =>
    have := length_walkFuel (w.mem_iff.2 he)
    simp only at this
    omega
  | succ k ih =>
    cases n with
    | file x =>
      have s1 := WalkStep.file (L := L) (f := f) (mk := mk) hd st e x hst hc hs (hfs.symm ▸ he)
      have : sendFile f mk e = jobsFor mk (walk fs f (k + 1) e (.file x)) := by
        unfold sendFile jobsFor
        simp only [walk]
        split <;> rfl
      rw [this] at s1
      exact .single s1
    | dir =>
      have s1 := WalkStep.dir (L := L) (f := f) (mk := mk) hd st e hst hc hs (hfs.symm ▸ he)
      by_cases hf : f e true = true
      · refine (Relation.ReflTransGen.single s1).trans ?_
        simp only [walk, hf, if_true, enterDir, List.singleton_append]
        rw [show openDir c.fs e = openDir fs e by rw [hfs]]
        have s2 := walks_open w (fun c hd st e n h1 h2 h3 h4 h5 h6 => ih c hd st e n h1 h2 h3 h4 h5 h6)
          { c with stack := openDir fs e :: hd.see e :: st } e (hd.see e :: st) rfl hfs hk
        exact s2
      · simp only [enterDir, if_neg hf, List.nil_append] at s1
        simp only [walk, if_neg hf]
        simp only [jobsFor, List.map_nil, List.append_nil]
        exact .single s1

/-- Walking all roots. -/
theorem walks_roots (w : FS.WF fs) (rs : List FilePath) (c : LiveCfg) (hst : c.stack = []) (hr : c.roots = rs) (hfs : c.fs = fs) :
    Walks L f mk c { c with roots := [], jobs := c.jobs ++ jobsFor mk (walkPaths fs f rs), lints := c.lints ++ walkLints L fs f rs } := by
  induction rs generalizing c with
  | nil =>
    obtain ⟨a1, a2, a3, a4, a5, a6⟩ := c
    simp only at hr
    subst hr
    simp only [walkPaths, walkLints, List.flatMap_nil, List.filterMap_nil, jobsFor, List.map_nil, List.append_nil]
    exact .refl
  | cons r rs ih =>
    have e1 : walkPaths fs f (r :: rs) = (walkPath fs f r).getD [] ++ walkPaths fs f rs := rfl
    have e2 : walkLints L fs f (r :: rs) = (if (walkPath fs f r).isNone then [Lint.loadError r (L.errMsg .io)] else []) ++ walkLints L fs f rs := by
      unfold walkLints
      rw [List.filterMap_cons]
      split
      · rename_i h
        split at h
        · cases h
        · rename_i h'
          rw [if_neg h']
          rfl
      · rename_i h
        split at h
        · rename_i h'
          rw [if_pos h']
          cases h
          rfl
        · cases h
    rw [e1, e2]
    cases hg : IMap.get? fs r with
    | none =>
      have s1 := WalkStep.missing (L := L) (f := f) (mk := mk) r rs hst hr (hfs.symm ▸ hg)
      have s2 := ih { c with roots := rs, lints := c.lints ++ [Lint.loadError r (L.errMsg .io)] } hst rfl hfs
      simp only [walkPath, hg, Option.getD_none, List.nil_append, Option.isNone_none, if_true]
      refine (Relation.ReflTransGen.single s1).trans ?_
      simp only [List.append_assoc] at s2
      exact s2
    | some n =>
      cases n with
      | file x =>
        have s1 := WalkStep.fileRoot (L := L) (f := f) (mk := mk) r rs x hst hr (hfs.symm ▸ hg)
        have s2 := ih { c with roots := rs, jobs := c.jobs ++ [[mk r]] } hst rfl hfs
        simp only [walkPath, hg, Option.getD_some, Option.isNone_some, Bool.false_eq_true, if_false, List.nil_append]
        refine (Relation.ReflTransGen.single s1).trans ?_
        simp only [List.append_assoc] at s2
        exact s2
      | dir =>
        have s1 := WalkStep.dirRoot (L := L) (f := f) (mk := mk) r rs hst hr (hfs.symm ▸ hg)
        simp only [walkPath, hg, Option.getD_some, Option.isNone_some, Bool.false_eq_true, if_false, List.nil_append]
        refine (Relation.ReflTransGen.single s1).trans ?_
        have s2 : Walks L f mk { c with roots := rs, stack := enterDir c.fs f r }
            { c with roots := rs, jobs := c.jobs ++ jobsFor mk (walk fs f (walkFuel fs) r .dir) } := by
          have hfu : ∃ k, walkFuel fs = k + 1 := ⟨_, rfl⟩
          obtain ⟨k, hk⟩ := hfu
          rw [hk]
          by_cases hf : f r true = true
          · have s3 := walks_open (L := L) (f := f) (mk := mk) w (fun c hd st e n h1 h2 h3 h4 h5 h6 => walks_entry w k c hd st e n h1 h2 h3 h4 h5 h6)
              { c with roots := rs, stack := [openDir fs r] } r [] rfl hfs (by omega)
            simp only [walk, hf, if_true, enterDir]
            rw [show openDir c.fs r = openDir fs r by rw [hfs]]
            simp only [hst]
            exact s3
          · simp only [walk, if_neg hf, enterDir]
            simp only [jobsFor, List.map_nil, List.append_nil, hst]
            exact .refl
        refine s2.trans ?_
        have s4 := ih { c with roots := rs, jobs := c.jobs ++ jobsFor mk (walk fs f (walkFuel fs) r .dir) } hst rfl hfs
        simp only [List.append_assoc, ← jobsFor_append] at s4
        exact s4

theorem walks_backup {c d : LiveCfg} (h : Walks L (artFilter s.excludeArtifactPaths) backupAct c d) (hp : c.phase = .backup) :
    LiveReaches L s files c d ∧ d.phase = .backup := by
  induction h with
  | refl => exact ⟨.refl, hp⟩
  | tail _ hst ih =>
    refine ⟨ih.1.tail (.findArtifacts _ ih.2 hst), ?_⟩
    cases hst <;> exact ih.2

theorem walks_remove {c d : LiveCfg} (h : Walks L (backupFilter s.excludeArtifactPaths) .remove c d) (hp : c.phase = .remove) :
    LiveReaches L s files c d ∧ d.phase = .remove := by
  induction h with
  | refl => exact ⟨.refl, hp⟩
  | tail _ hst ih =>
    refine ⟨ih.1.tail (.findBackups _ ih.2 hst), ?_⟩
    cases hst <;> exact ih.2

/-- The same moment, with nothing left to walk. -/
def Cfg.live (c : Cfg) : LiveCfg := ⟨c.fs, c.phase, [], [], c.jobs, c.lints⟩

theorem live_init (w : FS.WF fs) : LiveReaches L s files (LiveCfg.init fs s) (Cfg.init L fs s).live :=
  (walks_backup (walks_roots w s.artifactPaths (LiveCfg.init fs s) rfl rfl rfl) rfl).1

theorem live_step {c d : Cfg} (w : FS.WF c.fs) (h : SaveStep L s files c d) : LiveReaches L s files c.live d.live := by
  cases h with
  | act b af a r fs' hj ha => exact .single (LiveStep.act (c := c.live) b af a r fs' hj ha)
  | fail b af a r msg hj => exact .single (LiveStep.fail (c := c.live) b af a r msg hj)
  | backupErr hp hi he => exact .single (LiveStep.backupErr (c := c.live) hp ⟨rfl, rfl, hi⟩ he)
  | backupOk hp hi he => exact .single (LiveStep.backupOk (c := c.live) hp ⟨rfl, rfl, hi⟩ he)
  | saveErr hp hi he => exact .single (LiveStep.saveErr (c := c.live) hp ⟨rfl, rfl, hi⟩ he)
  | saveOk hp hi he =>
    refine (Relation.ReflTransGen.single (LiveStep.saveOk (c := c.live) hp ⟨rfl, rfl, hi⟩ he)).trans ?_
    exact (walks_remove (walks_roots w s.artifactPaths { c.live with phase := .remove, roots := s.artifactPaths, jobs := [] } rfl rfl rfl) rfl).1
  | removeOk hp hi => exact .single (LiveStep.removeOk (c := c.live) hp ⟨rfl, rfl, hi⟩)

theorem live_reaches (w : FS.WF fs) (hf : ∀ x ∈ files, FilePathOk x.1) {c : Cfg} (h : Reaches L s files (Cfg.init L fs s) c) :
    LiveReaches L s files (LiveCfg.init fs s) c.live := by
  induction h with
  | refl => exact live_init w
  | tail h1 hst ih => exact ih.trans (live_step (tree_reaches w hf h1) hst)

end Art
