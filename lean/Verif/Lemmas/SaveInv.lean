import Verif.Lemmas.Save

/-!
# Invariants of writing a project
-/

namespace Art
open Spec

variable {L : Libs} {s : Settings} {files : List (FilePath × Str)} {fs0 : FS}

/-- `c'` is reached by steps that keep `Inv`. -/
theorem reaches_inv {Inv : Cfg → Prop} (hs : ∀ c c', SaveStep L s files c c' → Inv c → Inv c') {c0 c : Cfg} (h : Reaches L s files c0 c) (h0 : Inv c0) :
    Inv c := by
  induction h with
  | refl => exact h0
  | tail _ hst ih => exact hs _ _ hst ih

theorem mem_split_job {before after : List (List Act)} {j j' k : List Act} (h : k ∈ before ++ j' :: after) : k = j' ∨ k ∈ before ++ j :: after := by
  rcases List.mem_append.1 h with h | h
  · exact Or.inr (List.mem_append_left _ h)
  · rcases List.mem_cons.1 h with h | h
    · exact Or.inl h
    · exact Or.inr (List.mem_append_right _ (List.mem_cons_of_mem _ h))

theorem mem_mid {α : Type _} {before after : List α} {j : α} : j ∈ before ++ j :: after := List.mem_append_right _ List.mem_cons_self

/-! ## the frame -/

/-- The paths that writing may change. -/
def Allowed (fs0 : FS) (s : Settings) (files : List (FilePath × Str)) (q : FilePath) : Prop :=
  q ∈ walkArtifacts fs0 s ∨ (∃ p ∈ walkArtifacts fs0 s, q = backupPath p) ∨ (∃ x ∈ files, q = x.1) ∨
    ∃ r ∈ s.artifactPaths, Under r q ∧ extension q = some c!"artbk"

structure FrameInv (fs0 : FS) (s : Settings) (files : List (FilePath × Str)) (c : Cfg) : Prop where
  same : ∀ q, ¬ Allowed fs0 s files q → IMap.get? c.fs q = IMap.get? fs0 q
  dirs : ∀ q, IMap.get? c.fs q = some .dir ↔ IMap.get? fs0 q = some .dir
  jobs : ∀ j ∈ c.jobs, ∀ a ∈ j, Allowed fs0 s files a.path ∧ ∀ q, a.target = some q → Allowed fs0 s files q

theorem frame_init : FrameInv fs0 s files (Cfg.init L fs0 s) := by
  refine ⟨fun _ _ => rfl, fun _ => Iff.rfl, ?_⟩
  intro j hj a ha
  obtain ⟨p, hp, rfl⟩ := List.mem_map.1 hj
  rw [List.mem_singleton] at ha
  subst ha
  refine ⟨Or.inl hp, ?_⟩
  intro q hq
  cases hq
  exact Or.inr (Or.inl ⟨p, hp, rfl⟩)

theorem saveJob_mem {x : FilePath × Str} {a : Act} (h : a ∈ saveJob x) : a.path = x.1 ∧ a.target = none := by
  rcases List.mem_cons.1 h with rfl | h
  · exact ⟨rfl, rfl⟩
  · rcases List.mem_cons.1 h with rfl | h
    · exact ⟨rfl, rfl⟩
    · obtain ⟨c, _, rfl⟩ := List.mem_map.1 h
      exact ⟨rfl, rfl⟩

theorem frame_step {c c' : Cfg} (h : SaveStep L s files c c') (hi : FrameInv fs0 s files c) : FrameInv fs0 s files c' := by
  cases h with
  | act before after a rest fs' hj ha =>
    have hm : (a :: rest) ∈ c.jobs := by rw [hj]; exact mem_mid
    obtain ⟨h1, h2⟩ := hi.jobs _ hm a List.mem_cons_self
    refine ⟨?_, fun q => (apply_dir ha q).trans (hi.dirs q), ?_⟩
    · intro q hq
      refine (apply_frame ha ?_ ?_).trans (hi.same q hq)
      · rintro rfl; exact hq h1
      · intro h; exact hq (h2 q h)
    · intro j hjm b hb
      rcases mem_split_job (j := a :: rest) hjm with rfl | hjm
      · exact hi.jobs _ hm b (List.mem_cons_of_mem _ hb)
      · exact hi.jobs j (by rw [hj]; exact hjm) b hb
  | fail before after a rest msg hj =>
    refine ⟨hi.same, hi.dirs, ?_⟩
    intro j hjm b hb
    rcases mem_split_job (j := a :: rest) hjm with rfl | hjm
    · cases hb
    · exact hi.jobs j (by rw [hj]; exact hjm) b hb
  | backupErr hp hj he => exact ⟨hi.same, hi.dirs, hi.jobs⟩
  | backupOk hp hj he =>
    refine ⟨hi.same, hi.dirs, ?_⟩
    intro j hjm a ha
    obtain ⟨x, hx, rfl⟩ := List.mem_map.1 hjm
    obtain ⟨h1, h2⟩ := saveJob_mem ha
    rw [h1, h2]
    exact ⟨Or.inr (Or.inr (Or.inl ⟨x, hx, rfl⟩)), by intro q hq; cases hq⟩
  | saveErr hp hj he => exact ⟨hi.same, hi.dirs, hi.jobs⟩
  | saveOk hp hj he =>
    refine ⟨hi.same, hi.dirs, ?_⟩
    intro j hjm a ha
    obtain ⟨q, hq, rfl⟩ := List.mem_map.1 hjm
    rw [List.mem_singleton] at ha
    subst ha
    refine ⟨?_, by intro q hq; cases hq⟩
    obtain ⟨r, hr, ⟨rfl, cc, hc⟩ | ⟨h1, h2⟩⟩ := walkPaths_sound hq
    · by_contra hna
      simp only [Act.path] at hna
      rw [hi.same _ hna] at hc
      exact hna (Or.inl (walkPaths_file hr hc))
    · exact Or.inr (Or.inr (Or.inr ⟨r, hr, h1, ((backupFilter_file _ _).1 h2).1⟩))
  | removeOk hp hj => exact ⟨hi.same, hi.dirs, hi.jobs⟩

theorem frame_reaches {c : Cfg} (h : Reaches L s files (Cfg.init L fs0 s) c) : FrameInv fs0 s files c :=
  reaches_inv (fun _ _ => frame_step) h frame_init

/-! ## the disk stays a tree -/

theorem backupPath_ok {p : FilePath} (h : FilePathOk p) : FilePathOk (backupPath p) := by
  obtain ⟨d, n, rfl, h1, h2⟩ := h
  unfold backupPath
  cases he : extension (d ++ '/' :: n) with
  | none =>
    refine ⟨d, n ++ c!".artbk", by simp, by simp, ?_⟩
    simp only [List.mem_append, not_or]
    exact ⟨h2, by decide⟩
  | some x =>
    obtain ⟨m, hm, rfl, hx⟩ := (extension_child d h2).1 he
    have := backupPath_of_ext (d := d) hm (fun h => h2 (List.mem_append_left _ h))
      (fun h => h2 (List.mem_append_right _ (List.mem_cons_of_mem _ h))) hx
    unfold backupPath at this
    rw [he] at this
    simp only at this ⊢
    rw [this]
    refine ⟨d, m ++ c!".artbk", rfl, by simp, ?_⟩
    simp only [List.mem_append, not_or] at h2 ⊢
    exact ⟨h2.1, by decide⟩

theorem walkArtifacts_file (w : FS.WF fs0) {p : FilePath} (h : p ∈ walkArtifacts fs0 s) : ∃ c, IMap.get? fs0 p = some (.file c) := by
  obtain ⟨r, _, hf⟩ := (C29_mem w s p).1 h
  exact w.isFile_iff.1 hf.1

structure TreeInv (c : Cfg) : Prop where
  wf : FS.WF c.fs
  jobs : ∀ j ∈ c.jobs, ∀ a ∈ j, ((∃ p, a = .remove p) ∨ FilePathOk a.path) ∧ ∀ q, a.target = some q → FilePathOk q

theorem tree_init (w : FS.WF fs0) : TreeInv (Cfg.init L fs0 s) := by
  refine ⟨w, ?_⟩
  intro j hj a ha
  obtain ⟨p, hp, rfl⟩ := List.mem_map.1 hj
  rw [List.mem_singleton] at ha
  subst ha
  obtain ⟨c, hc⟩ := walkArtifacts_file w hp
  refine ⟨Or.inr (w.fileOk hc).1, ?_⟩
  intro q hq
  cases hq
  exact backupPath_ok (w.fileOk hc).1

theorem tree_step (hf : ∀ x ∈ files, FilePathOk x.1) {c c' : Cfg} (h : SaveStep L s files c c') (hi : TreeInv c) : TreeInv c' := by
  cases h with
  | act before after a rest fs' hj ha =>
    have hm : (a :: rest) ∈ c.jobs := by rw [hj]; exact mem_mid
    obtain ⟨h1, h2⟩ := hi.jobs _ hm a List.mem_cons_self
    refine ⟨apply_wf hi.wf ha h1 h2, ?_⟩
    intro j hjm b hb
    rcases mem_split_job (j := a :: rest) hjm with rfl | hjm
    · exact hi.jobs _ hm b (List.mem_cons_of_mem _ hb)
    · exact hi.jobs j (by rw [hj]; exact hjm) b hb
  | fail before after a rest msg hj =>
    refine ⟨hi.wf, ?_⟩
    intro j hjm b hb
    rcases mem_split_job (j := a :: rest) hjm with rfl | hjm
    · cases hb
    · exact hi.jobs j (by rw [hj]; exact hjm) b hb
  | backupErr hp hj he => exact ⟨hi.wf, hi.jobs⟩
  | backupOk hp hj he =>
    refine ⟨hi.wf, ?_⟩
    intro j hjm a ha
    obtain ⟨x, hx, rfl⟩ := List.mem_map.1 hjm
    obtain ⟨h1, h2⟩ := saveJob_mem ha
    rw [h1, h2]
    exact ⟨Or.inr (hf x hx), by intro q hq; cases hq⟩
  | saveErr hp hj he => exact ⟨hi.wf, hi.jobs⟩
  | saveOk hp hj he =>
    refine ⟨hi.wf, ?_⟩
    intro j hjm a ha
    obtain ⟨q, hq, rfl⟩ := List.mem_map.1 hjm
    rw [List.mem_singleton] at ha
    subst ha
    exact ⟨Or.inl ⟨q, rfl⟩, by intro q hq; cases hq⟩
  | removeOk hp hj => exact ⟨hi.wf, hi.jobs⟩

theorem tree_reaches (w : FS.WF fs0) (hf : ∀ x ∈ files, FilePathOk x.1) {c : Cfg} (h : Reaches L s files (Cfg.init L fs0 s) c) : FS.WF c.fs :=
  (reaches_inv (fun _ _ => tree_step hf) h (tree_init w)).wf

/-! ## the contents -/

theorem Spec.Orderly.supported (o : Orderly fs0 s files) {p : FilePath} (h : p ∈ walkArtifacts fs0 s) : Supported p := by
  obtain ⟨r, hr, hf, rfl | ⟨_, h, _⟩⟩ := (C29_mem o.wf s p).1 h
  · exact absurd hf (o.roots _ hr)
  · exact h

theorem Spec.Orderly.inj (o : Orderly fs0 s files) {p q : FilePath} (hp : p ∈ walkArtifacts fs0 s) (hq : q ∈ walkArtifacts fs0 s)
    (h : backupPath p = backupPath q) : p = q :=
  o.stems p q ((C29_mem o.wf s p).1 hp) ((C29_mem o.wf s q).1 hq) (sameStem_of_backup (o.supported hp) (o.supported hq) h)

theorem bk_ne {p q : FilePath} (hp : Supported p) (hq : Supported q) : backupPath p ≠ q := by
  intro h
  have := (supported_backup hp).2.1
  rw [h] at this
  exact (supported_ext hq).1 this

/-- The file was renamed to its backup. -/
def Moved (fs0 fs : FS) (p : FilePath) : Prop := IMap.get? fs p = none ∧ IMap.get? fs (backupPath p) = IMap.get? fs0 p

/-- A job of `create_backups`, done or not. -/
def BackupJob (fs0 : FS) (s : Settings) (j : List Act) : Prop := j = [] ∨ ∃ p ∈ walkArtifacts fs0 s, j = [.rename p (backupPath p)]

structure BackupInv (fs0 : FS) (s : Settings) (c : Cfg) : Prop where
  safe : ∀ p ∈ walkArtifacts fs0 s, IMap.get? c.fs p = IMap.get? fs0 p ∨ Moved fs0 c.fs p
  jobs : ∀ j ∈ c.jobs, BackupJob fs0 s j
  todo : ∀ p ∈ walkArtifacts fs0 s, [Act.rename p (backupPath p)] ∈ c.jobs ∨ Moved fs0 c.fs p ∨ hasError c.lints = true
  roots : hasError c.lints = false → ∀ r ∈ s.artifactPaths, IMap.get? fs0 r = some .dir

/-- How far the job of one file got. -/
def Writing (fs : FS) (lints : List Lint) (x : FilePath × Str) (j : List Act) : Prop :=
  j = saveJob x ∨ j = .truncate x.1 :: x.2.map (.append x.1) ∨
    (∃ u v, x.2 = u ++ v ∧ IMap.get? fs x.1 = some (.file (.text u)) ∧ j = v.map (.append x.1)) ∨
    (hasError lints = true ∧ j = [])

structure SaveInv (fs0 : FS) (s : Settings) (files : List (FilePath × Str)) (c : Cfg) : Prop where
  kept : ∀ p ∈ walkArtifacts fs0 s, IMap.get? c.fs (backupPath p) = IMap.get? fs0 p
  gone : ∀ p ∈ walkArtifacts fs0 s, (∀ x ∈ files, p ≠ x.1) → IMap.get? c.fs p = none
  roots : ∀ r ∈ s.artifactPaths, IMap.get? fs0 r = some .dir
  jobs : List.Forall₂ (Writing c.fs c.lints) files c.jobs

/-- All files are written completely and the artifact files that are not among them are gone. -/
structure Written (fs0 : FS) (s : Settings) (files : List (FilePath × Str)) (fs : FS) : Prop where
  all : ∀ x ∈ files, IMap.get? fs x.1 = some (.file (.text x.2))
  gone : ∀ p ∈ walkArtifacts fs0 s, (∀ x ∈ files, p ≠ x.1) → IMap.get? fs p = none
  roots : ∀ r ∈ s.artifactPaths, IMap.get? fs0 r = some .dir

/-- A backup that could not be removed is reported. -/
def NotRemoved (lints : List Lint) (b : FilePath) : Prop := ∃ d ∈ lints, d.category = .removeBackups ∧ d.path = some b

structure RemoveInv (fs0 : FS) (s : Settings) (files : List (FilePath × Str)) (c : Cfg) : Prop where
  written : Written fs0 s files c.fs
  jobs : ∀ j ∈ c.jobs, j = [] ∨ ∃ b, extension b = some c!"artbk" ∧ j = [.remove b]
  todo : ∀ b, (∃ r ∈ s.artifactPaths, Finds c.fs s.excludeArtifactPaths (fun q => extension q = some c!"artbk") r b) →
    [Act.remove b] ∈ c.jobs ∨ NotRemoved c.lints b

/-- The invariant of all phases. -/
def Inv (fs0 : FS) (s : Settings) (files : List (FilePath × Str)) (c : Cfg) : Prop :=
  match c.phase with
  | .backup => BackupInv fs0 s c
  | .save => SaveInv fs0 s files c
  | .remove => RemoveInv fs0 s files c
  | .done => RemoveInv fs0 s files c ∧ ∀ j ∈ c.jobs, j = []
  | .failed .createBackups => BackupInv fs0 s c ∧ ∀ j ∈ c.jobs, j = []
  | .failed .saveProject => SaveInv fs0 s files c ∧ ∀ j ∈ c.jobs, j = []
  | .failed _ => False

theorem forall₂_split {α β : Type _} {R : α → β → Prop} {l : List α} {a c : List β} {b : β} (h : List.Forall₂ R l (a ++ b :: c)) :
    ∃ la x lc, l = la ++ x :: lc ∧ List.Forall₂ R la a ∧ R x b ∧ List.Forall₂ R lc c := by
  induction a generalizing l with
  | nil =>
    cases h with
    | cons h1 h2 => exact ⟨[], _, _, rfl, .nil, h1, h2⟩
  | cons y a ih =>
    cases h with
    | cons h1 h2 =>
      obtain ⟨la, x, lc, rfl, h3, h4, h5⟩ := ih h2
      exact ⟨_ :: la, x, lc, rfl, .cons h1 h3, h4, h5⟩

theorem forall₂_join {α β : Type _} {R : α → β → Prop} {la lc : List α} {x : α} {a c : List β} {b : β} (h1 : List.Forall₂ R la a) (h2 : R x b)
    (h3 : List.Forall₂ R lc c) : List.Forall₂ R (la ++ x :: lc) (a ++ b :: c) := by
  induction h1 with
  | nil => exact .cons h2 h3
  | cons h _ ih => exact .cons h ih

theorem forall₂_imp_mem {α β : Type _} {R S : α → β → Prop} {l : List α} {l' : List β} (h : List.Forall₂ R l l') (hi : ∀ x ∈ l, ∀ y, R x y → S x y) :
    List.Forall₂ S l l' := by
  induction h with
  | nil => exact .nil
  | cons h _ ih => exact .cons (hi _ List.mem_cons_self _ h) (ih (fun x hx => hi x (List.mem_cons_of_mem _ hx)))

theorem forall₂_mem {α β : Type _} {R : α → β → Prop} {l : List α} {l' : List β} (h : List.Forall₂ R l l') {x : α} (hx : x ∈ l) : ∃ y ∈ l', R x y := by
  induction h with
  | nil => cases hx
  | cons h _ ih =>
    rcases List.mem_cons.1 hx with rfl | hx
    · exact ⟨_, List.mem_cons_self, h⟩
    · obtain ⟨j, h1, h2⟩ := ih hx
      exact ⟨j, List.mem_cons_of_mem _ h1, h2⟩

theorem hasError_append {l : List Lint} (d : List Lint) (h : hasError l = true) : hasError (l ++ d) = true := by
  unfold hasError at *
  rw [List.any_append, h, Bool.true_or]

theorem hasError_fail (l : List Lint) (ph : Phase) (hp : ph ≠ .remove) (a : Act) (msg : Str) : hasError (l ++ [failLint ph a msg]) = true := by
  unfold hasError
  rw [List.any_append]
  have : (failLint ph a msg).level = .error := by cases ph <;> first | rfl | exact absurd rfl hp
  simp [this]

theorem mem_walkBackups {fs : FS} (w : FS.WF fs) (s : Settings) (b : FilePath) : b ∈ walkBackups fs s ↔
    ∃ r ∈ s.artifactPaths, Finds fs s.excludeArtifactPaths (fun q => extension q = some c!"artbk") r b := by
  unfold walkBackups walkPaths
  rw [List.mem_flatMap]
  have key := fun r => (walkPath_spec w (f := backupFilter s.excludeArtifactPaths) (excl := s.excludeArtifactPaths)
    (Wanted := fun q => extension q = some c!"artbk") (backupFilter_dir _)
    (fun p _ => by rw [backupFilter_file]; exact and_comm) r b).2
  constructor
  · rintro ⟨r, hr, h⟩; exact ⟨r, hr, (key r).1 h⟩
  · rintro ⟨r, hr, h⟩; exact ⟨r, hr, (key r).2 h⟩

theorem walkLints_dir {f : FilePath → Bool → Bool} {roots : ISet FilePath} {fs : FS} (h : hasError (walkLints L fs f roots) = false) :
    ∀ r ∈ roots, IMap.get? fs r ≠ none := by
  intro r hr hn
  have hm : Lint.loadError r (L.errMsg .io) ∈ walkLints L fs f roots := by
    refine List.mem_filterMap.2 ⟨r, hr, ?_⟩
    unfold walkPath
    rw [hn]
    rfl
  have : hasError (walkLints L fs f roots) = true := List.any_eq_true.2 ⟨_, hm, by rfl⟩
  rw [h] at this
  cases this

/-! ## steps -/

theorem inv_init (o : Orderly fs0 s files) : Inv fs0 s files (Cfg.init L fs0 s) := by
  show BackupInv fs0 s (Cfg.init L fs0 s)
  refine ⟨fun _ _ => Or.inl rfl, ?_, ?_, ?_⟩
  · intro j hj
    obtain ⟨p, hp, rfl⟩ := List.mem_map.1 hj
    exact Or.inr ⟨p, hp, rfl⟩
  · intro p hp
    exact Or.inl (List.mem_map.2 ⟨p, hp, rfl⟩)
  · intro h r hr
    have := walkLints_dir h r hr
    cases hg : IMap.get? fs0 r with
    | none => exact absurd hg this
    | some n =>
      cases n with
      | dir => rfl
      | file c => exact absurd (o.wf.isFile_iff.2 ⟨c, hg⟩) (o.roots r hr)

theorem backup_act (o : Orderly fs0 s files) {c : Cfg} (hi : BackupInv fs0 s c) {before after : List (List Act)} {a : Act} {rest : List Act} {fs' : FS}
    (hj : c.jobs = before ++ (a :: rest) :: after) (ha : a.apply c.fs = some fs') :
    BackupInv fs0 s { c with fs := fs', jobs := before ++ rest :: after } := by
  obtain h | ⟨p, hp, h⟩ := hi.jobs (a :: rest) (by rw [hj]; exact mem_mid)
  · cases h
  obtain ⟨rfl, rfl⟩ := List.cons.inj h
  have hne : p ≠ backupPath p := fun e => bk_ne (o.supported hp) (o.supported hp) e.symm
  obtain ⟨cc, h1, h2, h3⟩ := apply_rename ha hne
  have hfr : ∀ q, q ≠ p → q ≠ backupPath p → IMap.get? fs' q = IMap.get? c.fs q := by
    intro q h1 h2
    refine apply_frame ha h1 ?_
    intro h
    exact h2 (Option.some.inj h).symm
  have h0 : IMap.get? fs0 p = some (.file cc) := by
    rcases hi.safe p hp with h | h
    · rw [← h, h1]
    · rw [h.1] at h1; cases h1
  have hmp : Moved fs0 fs' p := ⟨h2, by rw [h3, h0]⟩
  have hother : ∀ q ∈ walkArtifacts fs0 s, q ≠ p → (IMap.get? fs' q = IMap.get? c.fs q) ∧ IMap.get? fs' (backupPath q) = IMap.get? c.fs (backupPath q) := by
    intro q hq hqp
    exact ⟨hfr q hqp (fun e => bk_ne (o.supported hp) (o.supported hq) e.symm), hfr _ (bk_ne (o.supported hq) (o.supported hp))
      (fun e => hqp (o.inj hq hp e))⟩
  refine ⟨?_, ?_, ?_, hi.roots⟩
  · intro q hq
    by_cases hqp : q = p
    · subst hqp; exact Or.inr hmp
    · obtain ⟨e1, e2⟩ := hother q hq hqp
      unfold Moved
      simp only
      rw [e1, e2]
      exact hi.safe q hq
  · intro j hjm
    rcases mem_split_job (j := [Act.rename p (backupPath p)]) hjm with rfl | hjm
    · exact Or.inl rfl
    · exact hi.jobs j (by rw [hj]; exact hjm)
  · intro q hq
    by_cases hqp : q = p
    · subst hqp; exact Or.inr (Or.inl hmp)
    · obtain ⟨e1, e2⟩ := hother q hq hqp
      unfold Moved
      simp only
      rw [e1, e2]
      refine (hi.todo q hq).imp_left ?_
      intro h
      rw [hj] at h
      rcases List.mem_append.1 h with h | h
      · exact List.mem_append_left _ h
      · rcases List.mem_cons.1 h with h | h
        · exact absurd (Act.rename.inj (List.cons.inj h).1).1 hqp
        · exact List.mem_append_right _ (List.mem_cons_of_mem _ h)

theorem writing_frame {fs fs' : FS} {ls : List Lint} {x : FilePath × Str} {j : List Act} (h : Writing fs ls x j)
    (hf : IMap.get? fs' x.1 = IMap.get? fs x.1) : Writing fs' ls x j := by
  unfold Writing at *
  rw [hf]
  exact h

theorem writing_lints {fs : FS} {ls : List Lint} {x : FilePath × Str} {j : List Act} (d : List Lint) (h : Writing fs ls x j) : Writing fs (ls ++ d) x j := by
  rcases h with h | h | h | ⟨h, h'⟩
  · exact Or.inl h
  · exact Or.inr (Or.inl h)
  · exact Or.inr (Or.inr (Or.inl h))
  · exact Or.inr (Or.inr (Or.inr ⟨hasError_append d h, h'⟩))

/-- An action of the job of a file is about this file and brings the job forward. -/
theorem writing_act {fs fs' : FS} {ls : List Lint} {x : FilePath × Str} {a : Act} {rest : List Act} (h : Writing fs ls x (a :: rest))
    (ha : a.apply fs = some fs') : a.path = x.1 ∧ a.target = none ∧ Writing fs' ls x rest := by
  rcases h with h | h | ⟨u, v, h1, h2, h3⟩ | ⟨_, h⟩
  · obtain ⟨rfl, rfl⟩ := List.cons.inj h
    exact ⟨rfl, rfl, Or.inr (Or.inl rfl)⟩
  · obtain ⟨rfl, rfl⟩ := List.cons.inj h
    refine ⟨rfl, rfl, Or.inr (Or.inr (Or.inl ⟨[], x.2, rfl, ?_, rfl⟩))⟩
    unfold Act.apply at ha; dsimp only at ha
    split at ha
    · cases ha
      rw [get?_put, if_pos rfl]
    · cases ha
  · cases v with
    | nil => cases h3
    | cons ch v =>
      obtain ⟨rfl, rfl⟩ := List.cons.inj h3
      refine ⟨rfl, rfl, Or.inr (Or.inr (Or.inl ⟨u ++ [ch], v, by rw [h1]; simp, ?_, rfl⟩))⟩
      unfold Act.apply at ha; dsimp only at ha
      rw [h2] at ha
      cases ha
      rw [get?_put, if_pos rfl]
  · cases h

theorem save_act (o : Orderly fs0 s files) {c : Cfg} (hi : SaveInv fs0 s files c) {before after : List (List Act)} {a : Act} {rest : List Act} {fs' : FS}
    (hj : c.jobs = before ++ (a :: rest) :: after) (ha : a.apply c.fs = some fs') :
    SaveInv fs0 s files { c with fs := fs', jobs := before ++ rest :: after } := by
  have hJ := hi.jobs
  rw [hj] at hJ
  obtain ⟨la, x, lc, hl, h1, h2, h3⟩ := forall₂_split hJ
  obtain ⟨e1, e2, h4⟩ := writing_act h2 ha
  have hx : x ∈ files := by rw [hl]; exact mem_mid
  have hfr : ∀ q, q ≠ x.1 → IMap.get? fs' q = IMap.get? c.fs q := by
    intro q hq
    refine apply_frame ha (by rw [e1]; exact hq) (by rw [e2]; simp)
  have hnd := o.nodup
  rw [hl, List.map_append, List.map_cons, List.nodup_append] at hnd
  obtain ⟨n1, n2, n3⟩ := hnd
  refine ⟨?_, ?_, hi.roots, ?_⟩
  · intro p hp
    simp only
    rw [hfr _ (bk_ne (o.supported hp) (o.files x hx))]
    exact hi.kept p hp
  · intro p hp hpf
    simp only
    rw [hfr _ (hpf x hx)]
    exact hi.gone p hp hpf
  · simp only
    have : List.Forall₂ (Writing fs' c.lints) (la ++ x :: lc) (before ++ rest :: after) := by
      refine forall₂_join (forall₂_imp_mem h1 ?_) h4 (forall₂_imp_mem h3 ?_)
      · intro y hy j hw
        refine writing_frame hw (hfr _ ?_)
        exact n3 _ (List.mem_map_of_mem hy) _ List.mem_cons_self
      · intro y hy j hw
        refine writing_frame hw (hfr _ ?_)
        intro e
        exact (List.nodup_cons.1 n2).1 (e ▸ List.mem_map_of_mem hy)
    rw [← hl] at this
    exact this

theorem remove_act (o : Orderly fs0 s files) {c : Cfg} (hi : RemoveInv fs0 s files c) (w : FS.WF c.fs) {before after : List (List Act)} {a : Act}
    {rest : List Act} {fs' : FS} (hj : c.jobs = before ++ (a :: rest) :: after) (ha : a.apply c.fs = some fs') :
    RemoveInv fs0 s files { c with fs := fs', jobs := before ++ rest :: after } := by
  obtain h | ⟨b, hb, h⟩ := hi.jobs (a :: rest) (by rw [hj]; exact mem_mid)
  · cases h
  obtain ⟨rfl, rfl⟩ := List.cons.inj h
  have hfr : ∀ q, q ≠ b → IMap.get? fs' q = IMap.get? c.fs q := fun q hq => apply_frame ha hq (by simp [Act.target])
  have hbn : IMap.get? fs' b = none := by
    unfold Act.apply at ha; dsimp only at ha
    split at ha
    · cases ha; rw [get?_erase, if_pos rfl]
    · cases ha
  have w' : FS.WF fs' := apply_wf w ha (Or.inl ⟨b, rfl⟩) (by intro q hq; cases hq)
  have hnb : ∀ p, Supported p → p ≠ b := by
    rintro p hp rfl
    exact (supported_ext hp).1 hb
  refine ⟨⟨?_, ?_, hi.written.roots⟩, ?_, ?_⟩
  · intro x hx
    simp only
    rw [hfr _ (hnb _ (o.files x hx))]
    exact hi.written.all x hx
  · intro p hp hpf
    simp only
    rw [hfr _ (hnb _ (o.supported hp))]
    exact hi.written.gone p hp hpf
  · intro j hjm
    rcases mem_split_job (j := [Act.remove b]) hjm with rfl | hjm
    · exact Or.inl rfl
    · exact hi.jobs j (by rw [hj]; exact hjm)
  · rintro q ⟨r, hr, hq, hq'⟩
    obtain ⟨cc, hcc⟩ := w'.isFile_iff.1 hq
    have hqb : q ≠ b := by
      rintro rfl
      rw [hbn] at hcc
      cases hcc
    rw [hfr q hqb] at hcc
    refine (hi.todo q ⟨r, hr, w.isFile_iff.2 ⟨cc, hcc⟩, hq'⟩).imp_left ?_
    intro h
    rw [hj] at h
    rcases List.mem_append.1 h with h | h
    · exact List.mem_append_left _ h
    · rcases List.mem_cons.1 h with h | h
      · exact absurd (Act.remove.inj (List.cons.inj h).1) hqb
      · exact List.mem_append_right _ (List.mem_cons_of_mem _ h)

theorem backup_fail {c : Cfg} (hp : c.phase = .backup) (hi : BackupInv fs0 s c) {before after : List (List Act)} {a : Act} {rest : List Act}
    (hj : c.jobs = before ++ (a :: rest) :: after) (msg : Str) :
    BackupInv fs0 s { c with jobs := before ++ [] :: after, lints := c.lints ++ [failLint c.phase a msg] } := by
  have he : hasError (c.lints ++ [failLint c.phase a msg]) = true := hasError_fail _ _ (by rw [hp]; simp) _ _
  refine ⟨hi.safe, ?_, fun q _ => Or.inr (Or.inr he), ?_⟩
  · intro j hjm
    rcases mem_split_job (j := a :: rest) hjm with rfl | hjm
    · exact Or.inl rfl
    · exact hi.jobs j (by rw [hj]; exact hjm)
  · intro h
    simp only at h
    rw [he] at h
    cases h

theorem save_fail {c : Cfg} (hp : c.phase = .save) (hi : SaveInv fs0 s files c) {before after : List (List Act)} {a : Act} {rest : List Act}
    (hj : c.jobs = before ++ (a :: rest) :: after) (msg : Str) :
    SaveInv fs0 s files { c with jobs := before ++ [] :: after, lints := c.lints ++ [failLint c.phase a msg] } := by
  have he : hasError (c.lints ++ [failLint c.phase a msg]) = true := hasError_fail _ _ (by rw [hp]; simp) _ _
  have hJ := hi.jobs
  rw [hj] at hJ
  obtain ⟨la, x, lc, rfl, h1, h2, h3⟩ := forall₂_split hJ
  refine ⟨hi.kept, hi.gone, hi.roots, ?_⟩
  exact forall₂_join (forall₂_imp_mem h1 fun y _ j hw => writing_lints _ hw) (Or.inr (Or.inr (Or.inr ⟨he, rfl⟩)))
    (forall₂_imp_mem h3 fun y _ j hw => writing_lints _ hw)

theorem remove_fail {c : Cfg} (hp : c.phase = .remove) (hi : RemoveInv fs0 s files c) {before after : List (List Act)} {a : Act} {rest : List Act}
    (hj : c.jobs = before ++ (a :: rest) :: after) (msg : Str) :
    RemoveInv fs0 s files { c with jobs := before ++ [] :: after, lints := c.lints ++ [failLint c.phase a msg] } := by
  obtain h | ⟨b, hb, h⟩ := hi.jobs (a :: rest) (by rw [hj]; exact mem_mid)
  · cases h
  obtain ⟨rfl, rfl⟩ := List.cons.inj h
  refine ⟨hi.written, ?_, ?_⟩
  · intro j hjm
    rcases mem_split_job (j := [Act.remove b]) hjm with rfl | hjm
    · exact Or.inl rfl
    · exact hi.jobs j (by rw [hj]; exact hjm)
  · intro q hq
    by_cases hqb : q = b
    · subst hqb
      refine Or.inr ⟨failLint c.phase (.remove q) msg, List.mem_append_right _ (List.mem_singleton_self _), ?_⟩
      rw [hp]
      exact ⟨rfl, rfl⟩
    · rcases hi.todo q hq with h | ⟨d, hd, h⟩
      · rw [hj] at h
        left
        rcases List.mem_append.1 h with h | h
        · exact List.mem_append_left _ h
        · rcases List.mem_cons.1 h with h | h
          · exact absurd (Act.remove.inj (List.cons.inj h).1) hqb
          · exact List.mem_append_right _ (List.mem_cons_of_mem _ h)
      · exact Or.inr ⟨d, List.mem_append_left _ hd, h⟩

theorem inv_step (o : Orderly fs0 s files) {c c' : Cfg} (h : SaveStep L s files c c') (hi : Inv fs0 s files c)
    (w : FS.WF c.fs) (hd : ∀ q, IMap.get? c.fs q = some .dir ↔ IMap.get? fs0 q = some .dir) : Inv fs0 s files c' := by
  cases h with
  | act before after a rest fs' hj ha =>
    unfold Inv at hi ⊢
    have hmem : (a :: rest) ∈ c.jobs := by rw [hj]; exact mem_mid
    simp only
    cases hp : c.phase with
    | backup => rw [hp] at hi; have := backup_act o hi hj ha; rw [hp] at this; exact this
    | save => rw [hp] at hi; have := save_act o hi hj ha; rw [hp] at this; exact this
    | remove => rw [hp] at hi; have := remove_act o hi w hj ha; rw [hp] at this; exact this
    | done => rw [hp] at hi; cases hi.2 _ hmem
    | failed k =>
      rw [hp] at hi
      cases k <;> first | exact hi.elim | cases hi.2 _ hmem
  | fail before after a rest msg hj =>
    unfold Inv at hi ⊢
    have hmem : (a :: rest) ∈ c.jobs := by rw [hj]; exact mem_mid
    simp only
    cases hp : c.phase with
    | backup => rw [hp] at hi; have := backup_fail hp hi hj msg; rw [hp] at this; exact this
    | save => rw [hp] at hi; have := save_fail hp hi hj msg; rw [hp] at this; exact this
    | remove => rw [hp] at hi; have := remove_fail hp hi hj msg; rw [hp] at this; exact this
    | done => rw [hp] at hi; cases hi.2 _ hmem
    | failed k =>
      rw [hp] at hi
      cases k <;> first | exact hi.elim | cases hi.2 _ hmem
  | backupErr hp hj he =>
    unfold Inv at hi ⊢
    rw [hp] at hi
    exact ⟨⟨hi.safe, hi.jobs, hi.todo, hi.roots⟩, hj⟩
  | backupOk hp hj he =>
    unfold Inv at hi ⊢
    rw [hp] at hi
    have hm : ∀ p ∈ walkArtifacts fs0 s, Moved fs0 c.fs p := by
      intro p hp'
      rcases hi.todo p hp' with h | h | h
      · cases hj _ h
      · exact h
      · rw [he] at h; cases h
    refine ⟨fun p hp' => (hm p hp').2, fun p hp' _ => (hm p hp').1, hi.roots he, ?_⟩
    simp only
    clear hm hi o
    induction files with
    | nil => exact .nil
    | cons x l ih => exact .cons (Or.inl rfl) ih
  | saveErr hp hj he =>
    unfold Inv at hi ⊢
    rw [hp] at hi
    exact ⟨⟨hi.kept, hi.gone, hi.roots, hi.jobs⟩, hj⟩
  | saveOk hp hj he =>
    unfold Inv at hi ⊢
    rw [hp] at hi
    refine ⟨⟨?_, hi.gone, hi.roots⟩, ?_, ?_⟩
    · intro x hx
      obtain ⟨j, hjm, hw⟩ := forall₂_mem hi.jobs hx
      have := hj j hjm
      subst this
      rcases hw with h | h | ⟨u, v, h1, h2, h3⟩ | ⟨h, _⟩
      · cases h
      · cases h
      · have : v = [] := List.map_eq_nil_iff.1 h3.symm
        subst this
        rw [List.append_nil] at h1
        rw [h1]
        exact h2
      · rw [he] at h; cases h
    · intro j hjm
      obtain ⟨b, hb, rfl⟩ := List.mem_map.1 hjm
      right
      obtain ⟨r, hr, ⟨rfl, cc, hc⟩ | ⟨h1, h2⟩⟩ := walkPaths_sound hb
      · rw [(hd b).2 (hi.roots b hr)] at hc
        cases hc
      · exact ⟨b, ((backupFilter_file _ _).1 h2).1, rfl⟩
    · intro b hb
      exact Or.inl (List.mem_map.2 ⟨b, (mem_walkBackups w s b).2 hb, rfl⟩)
  | removeOk hp hj =>
    unfold Inv at hi ⊢
    rw [hp] at hi
    exact ⟨⟨hi.written, hi.jobs, hi.todo⟩, hj⟩

theorem inv_reaches (o : Orderly fs0 s files) {c : Cfg} (h : Reaches L s files (Cfg.init L fs0 s) c) : Inv fs0 s files c := by
  have hok : ∀ x ∈ files, FilePathOk x.1 := fun x hx => (supported_ext (o.files x hx)).2
  induction h with
  | refl => exact inv_init o
  | tail hr hst ih => exact inv_step o hst ih (tree_reaches o.wf hok hr) (frame_reaches hr).dirs

end Art
