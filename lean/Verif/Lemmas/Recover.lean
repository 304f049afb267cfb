import Verif.Spec.Recover
import Verif.Props.Bytes

/-!
# Lemmas about the backups while a project is written
-/

namespace Art.Recover
open Spec Cli Bytes

variable {L : Libs} {s : Settings} {files : List (FilePath × Str)} {fs0 now out : FS}

/-- Nothing but backups is made so far. -/
def IsEarly : Phase → Prop
  | .backup | .failed .createBackups => True
  | _ => False

/-- Everything is written. -/
def IsLate : Phase → Prop
  | .remove | .done => True
  | _ => False

/-- What is known about the backup of an artifact file. -/
def Kept (fs0 : FS) (c : Cfg) (p : FilePath) : Prop :=
  (IsEarly c.phase ∧ IMap.get? c.fs p = IMap.get? fs0 p ∧ IMap.get? c.fs (backupPath p) = IMap.get? fs0 (backupPath p)) ∨
  IMap.get? c.fs (backupPath p) = IMap.get? fs0 p ∨ (IsLate c.phase ∧ IMap.get? c.fs (backupPath p) = none)

theorem kept_reaches (o : Orderly fs0 s files) {c : Cfg} (h : Reaches L s files (Cfg.init L fs0 s) c) : ∀ p ∈ walkArtifacts fs0 s, Kept fs0 c p := by
  induction h with
  | refl => exact fun p _ => Or.inl ⟨trivial, rfl, rfl⟩
  | tail hr hst ih =>
    have hi := inv_reaches o hr
    unfold Inv at hi
    intro p hp
    cases hst with
    | act before after a rest fs' hj ha =>
      rename_i c
      have hmem : (a :: rest) ∈ c.jobs := by rw [hj]; exact mem_mid
      cases hph : c.phase with
      | backup =>
        rw [hph] at hi
        obtain h | ⟨q, hq, h⟩ := hi.jobs _ hmem
        · cases h
        obtain ⟨rfl, rfl⟩ := List.cons.inj h
        have hi' := backup_act o hi hj ha
        by_cases e : p = q
        · subst e
          have hne : p ≠ backupPath p := fun e => bk_ne (o.supported hp) (o.supported hp) e.symm
          obtain ⟨cc, h1, h2, h3⟩ := apply_rename ha hne
          rcases hi'.safe p hp with h | h
          · obtain ⟨c0, hc0⟩ := walkArtifacts_file o.wf hp
            simp only at h
            rw [h2, hc0] at h
            cases h
          · exact Or.inr (Or.inl h.2)
        · have e1 : IMap.get? fs' p = IMap.get? c.fs p := apply_frame ha e (fun h => bk_ne (o.supported hq) (o.supported hp) (Option.some.inj h))
          have e2 : IMap.get? fs' (backupPath p) = IMap.get? c.fs (backupPath p) :=
            apply_frame ha (bk_ne (o.supported hp) (o.supported hq)) (fun h => e (o.inj hq hp (Option.some.inj h)).symm)
          have := ih p hp
          unfold Kept at this ⊢
          simp only
          rw [hph] at this
          rw [e1, e2]
          exact this
      | save =>
        rw [hph] at hi
        exact Or.inr (Or.inl ((save_act o hi hj ha).kept p hp))
      | remove =>
        rw [hph] at hi
        obtain h | ⟨b, hb, h⟩ := hi.jobs _ hmem
        · cases h
        obtain ⟨rfl, rfl⟩ := List.cons.inj h
        have hk := ih p hp
        unfold Kept at hk ⊢
        simp only
        by_cases e : backupPath p = b
        · refine Or.inr (Or.inr ⟨trivial, ?_⟩)
          unfold Act.apply at ha
          dsimp only at ha
          split at ha
          · rw [← Option.some.inj ha, get?_erase, if_pos e]
          · cases ha
        · have e2 : IMap.get? fs' (backupPath p) = IMap.get? c.fs (backupPath p) := apply_frame ha e (fun h => by cases h)
          rw [e2]
          rw [hph] at hk
          rcases hk with ⟨h, _⟩ | hk
          · exact h.elim
          · exact Or.inr hk
      | done => rw [hph] at hi; cases hi.2 _ hmem
      | failed k =>
        rw [hph] at hi
        cases k <;> first | exact hi.elim | cases hi.2 _ hmem
    | fail before after a rest msg hj => exact ih p hp
    | backupErr hp' hj he =>
      have hk := ih p hp
      unfold Kept at hk ⊢
      rw [hp'] at hk
      exact hk.imp_right fun h => h.imp_right fun h => h.1.elim
    | backupOk hp' hj he =>
      have h2 := inv_step (L := L) o (.backupOk _ hp' hj he) (by unfold Inv; exact hi) (tree_reaches o.wf (fun x hx => (supported_ext (o.files x hx)).2) hr) (frame_reaches hr).dirs
      exact Or.inr (Or.inl (SaveInv.kept h2 p hp))
    | saveErr hp' hj he =>
      rw [hp'] at hi
      exact Or.inr (Or.inl (hi.kept p hp))
    | saveOk hp' hj he =>
      rw [hp'] at hi
      exact Or.inr (Or.inl (hi.kept p hp))
    | removeOk hp' hj =>
      have hk := ih p hp
      unfold Kept at hk ⊢
      rw [hp'] at hk
      exact hk.imp (fun h => h.1.elim) (fun h => h.imp_right fun h => ⟨trivial, h.2⟩)

/-- Every path but backups and the artifact files of before is as before, or is an artifact file that was not there. -/
structure Around (fs0 : FS) (s : Settings) (now : FS) : Prop where
  wf : FS.WF now
  dirs : ∀ q, IMap.get? now q = some .dir ↔ IMap.get? fs0 q = some .dir
  same : ∀ q, ¬ ArtifactFile fs0 s q → ¬ ArtifactFile now s q → ¬ IsBackup q → IMap.get? now q = IMap.get? fs0 q
  fresh : ∀ q, ¬ ArtifactFile fs0 s q → ArtifactFile now s q → IMap.get? fs0 q = none

theorem around (o : Orderly fs0 s files) (roots : ∀ r ∈ s.artifactPaths, IMap.get? fs0 r = some .dir) (hold : ∀ x ∈ files, MayHold s x.1) {c : Cfg}
    (h : Reaches L s files (Cfg.init L fs0 s) c) : Around fs0 s c.fs := by
  have hok : ∀ x ∈ files, FilePathOk x.1 := fun x hx => (supported_ext (o.files x hx)).2
  have w := tree_reaches o.wf hok h
  have fr := frame_reaches h
  have hr : ∀ r ∈ s.artifactPaths, ¬ IsFile c.fs r := by
    intro r hr hf
    obtain ⟨cc, hc⟩ := w.isFile_iff.1 hf
    rw [(fr.dirs r).2 (roots r hr)] at hc
    cases hc
  have art : ∀ x, ArtifactFile c.fs s x ↔ IsFile c.fs x ∧ MayHold s x := fun x => (C29_mem w s x).symm.trans (walk_hold w hr)
  have art0 : ∀ x, ArtifactFile fs0 s x ↔ IsFile fs0 x ∧ MayHold s x := fun x => (C29_mem o.wf s x).symm.trans (walk_hold o.wf o.roots)
  refine ⟨w, fr.dirs, fun q h0 h1 hb => ?_, fun q h0 h1 => ?_⟩
  · by_contra hne
    have ha : Allowed fs0 s files q := by
      by_contra hna
      exact hne (fr.same q hna)
    rcases ha with hm | ⟨f, hf, rfl⟩ | ⟨y, hy, rfl⟩ | ⟨r, hr, hu, hext⟩
    · exact h0 ((C29_mem o.wf s q).1 hm)
    · exact hb ⟨_, rfl⟩
    · have n1 : ∀ cc, IMap.get? c.fs y.1 ≠ some (.file cc) := fun cc hc => h1 ((art _).2 ⟨w.isFile_iff.2 ⟨cc, hc⟩, hold y hy⟩)
      have n0 : ∀ cc, IMap.get? fs0 y.1 ≠ some (.file cc) := fun cc hc => h0 ((art0 _).2 ⟨o.wf.isFile_iff.2 ⟨cc, hc⟩, hold y hy⟩)
      have hd := fr.dirs y.1
      cases e : IMap.get? c.fs y.1 with
      | some n =>
        cases n with
        | dir => exact hne (e.trans (hd.1 e).symm)
        | file cc => exact n1 cc e
      | none =>
        cases e' : IMap.get? fs0 y.1 with
        | none => exact hne (e.trans e'.symm)
        | some n =>
          cases n with
          | dir => rw [hd.2 e'] at e; cases e
          | file cc => exact n0 cc e'
    · exact hb (isBackup_ext (changed_file o.wf w fr.dirs hne) hext)
  · obtain ⟨hf, hm⟩ := (art q).1 h1
    obtain ⟨cc, hc⟩ := w.isFile_iff.1 hf
    cases e : IMap.get? fs0 q with
    | none => rfl
    | some n =>
      cases n with
      | dir => rw [(fr.dirs q).2 e] at hc; cases hc
      | file c' => exact absurd ((art0 q).2 ⟨o.wf.isFile_iff.2 ⟨c', e⟩, hm⟩) h0

/-- No artifact file is a backup. -/
theorem supported_not_backup {q : FilePath} (h : Supported q) : ¬ IsBackup q := by
  rintro ⟨e, he⟩
  obtain ⟨d, n, x, rfl, h1, h2, h3⟩ := h
  have := congrArg (fun l => l.reverse.take 2) he
  rcases h3 with rfl | rfl | rfl <;> simp at this

/-- Moving the backups back gives the disk of before. -/
theorem putBack_iff (w0 : FS.WF fs0) (hr0 : ∀ r ∈ s.artifactPaths, ¬ IsFile fs0 r) (hrn : ∀ r ∈ s.artifactPaths, ¬ IsFile now r) (a : Around fs0 s now)
    (k : ∀ p ∈ walkArtifacts fs0 s, (IMap.get? now p = IMap.get? fs0 p ∧ ¬ IsFile now (backupPath p)) ∨ IMap.get? now (backupPath p) = IMap.get? fs0 p) :
    PutBack s (ArtifactFile fs0 s) now out ↔ SameDisk out fs0 := by
  have sup : ∀ q, ArtifactFile fs0 s q → Supported q ∧ q ∈ walkArtifacts fs0 s := fun q hq => by
    have hm := (C29_mem w0 s q).2 hq
    exact ⟨((walk_hold w0 hr0).1 hm).2.1, hm⟩
  have sup' : ∀ q, ArtifactFile now s q → Supported q := fun q hq => ((walk_hold a.wf hrn).1 ((C29_mem a.wf s q).2 hq)).2.1
  have file0 : ∀ q, ArtifactFile fs0 s q → IMap.get? now (backupPath q) = IMap.get? fs0 q → IsFile now (backupPath q) := fun q hq e => by
    obtain ⟨c, hc⟩ := walkArtifacts_file w0 (sup q hq).2
    exact a.wf.isFile_iff.2 ⟨c, e.trans hc⟩
  constructor
  · intro h q hb
    by_cases hq : ArtifactFile fs0 s q
    · obtain ⟨h1, h2⟩ := sup q hq
      rcases k q h2 with ⟨k1, k2⟩ | k
      · rw [h.stays q hq (fun b hb hf => k2 (by rw [backup_eq hb]; exact hf)), k1]
      · rw [h.moved q _ hq (supported_backup h1).1 (file0 q hq k), k]
    · by_cases hn : ArtifactFile now s q
      · rw [h.dropped q hq hn, a.fresh q hq hn]
      · rw [h.others q hq hn hb, a.same q hq hn hb]
  · intro h
    refine ⟨fun q b hq hb hf => ?_, fun q hq hb => ?_, fun q hq hn => ?_, fun q hq hn hb => ?_⟩
    · rw [h q (supported_not_backup (sup q hq).1), ← backup_eq hb]
      rcases k q (sup q hq).2 with ⟨-, k2⟩ | k
      · exact absurd (by rw [backup_eq hb]; exact hf) k2
      · exact k.symm
    · rw [h q (supported_not_backup (sup q hq).1)]
      rcases k q (sup q hq).2 with ⟨k1, -⟩ | k
      · exact k1.symm
      · exact absurd (file0 q hq k) (hb _ (supported_backup (sup q hq).1).1)
    · rw [h q (supported_not_backup (sup' q hn)), a.fresh q hq hn]
    · rw [h q hb, a.same q hq hn hb]

/-- Files that are to be written are found by the loader. -/
theorem hold_of_ways {x : FilePath} (hx : Supported x) (h : ways s x = 1) : MayHold s x := by
  refine ⟨hx, ?_⟩
  by_contra hn
  have : ways s x = 0 := by
    unfold ways
    rw [List.countP_eq_zero]
    intro r hr h
    exact hn ⟨r, hr, by simpa using h⟩
  omega

/-- Removing the backups can always be given up. -/
theorem given_up {c : Cfg} (h : c.phase = .remove) : ∃ l, Reaches L s files c ⟨c.fs, .done, c.jobs.map (fun _ => []), l⟩ := by
  have key : ∀ (todo done : List (List Act)) (l : List Lint), (∀ j ∈ done, j = []) → ∃ l', Reaches L s files ⟨c.fs, .remove, done ++ todo, l⟩ ⟨c.fs, .remove, (done ++ todo).map (fun _ => []), l'⟩ := by
    intro todo
    induction todo with
    | nil =>
      intro done l hd
      refine ⟨l, ?_⟩
      have : (done ++ []).map (fun _ => ([] : List Act)) = done ++ [] := by
        rw [List.append_nil]
        exact (List.map_congr_left fun j hj => (hd j hj).symm).trans (List.map_id _)
      rw [this]
      exact .refl
    | cons j todo ih =>
      intro done l hd
      have hd' : ∀ j ∈ done ++ [[]], j = [] := fun j hj => by
        rcases List.mem_append.1 hj with h | h
        · exact hd j h
        · exact List.mem_singleton.1 h
      cases j with
      | nil =>
        obtain ⟨l', h'⟩ := ih (done ++ [[]]) l hd'
        simp only [List.append_assoc, List.singleton_append] at h'
        exact ⟨l', h'⟩
      | cons a rest =>
        obtain ⟨l', h'⟩ := ih (done ++ [[]]) (l ++ [failLint .remove a []]) hd'
        simp only [List.append_assoc, List.singleton_append] at h'
        refine ⟨l', ?_⟩
        have st : SaveStep L s files ⟨c.fs, .remove, done ++ (a :: rest) :: todo, l⟩ ⟨c.fs, .remove, done ++ [] :: todo, l ++ [failLint .remove a []]⟩ :=
          .fail ⟨c.fs, .remove, done ++ (a :: rest) :: todo, l⟩ done todo a rest [] rfl
        have e : (done ++ (a :: rest) :: todo).map (fun _ => ([] : List Act)) = (done ++ [] :: todo).map (fun _ => []) := by simp
        rw [e]
        exact (Relation.ReflTransGen.single st).trans h'
  obtain ⟨l, hl⟩ := key c.jobs [] c.lints (fun j hj => by cases hj)
  rw [List.nil_append] at hl
  refine ⟨l, Relation.ReflTransGen.tail (b := ⟨c.fs, .remove, c.jobs.map (fun _ => []), l⟩) ?_ (.removeOk _ rfl (by simp))⟩
  obtain ⟨fs, ph, jobs, lints⟩ := c
  subst h
  exact hl

end Art.Recover
