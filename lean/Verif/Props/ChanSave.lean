import Verif.Lemmas.ChanSave
import Verif.Spec.Chan

/-!
# C66: the threads that write a project
-/

namespace Art.Chan
open Spec

/-! ## renaming and removing -/

/-- Renaming and removing always end. -/
theorem C66_backup_ends (n : Nat) (found : List (FilePath × Option Lint ⊕ Lint)) :
    Terminates (Step (backupNet n found)) (backupNet n found).init := by
  rintro ⟨f, _, hf⟩
  exact (wellFounded_iff_isEmpty_descending_chain.1 (ends (backupWeights n found))).elim ⟨f, hf⟩

/-- Renaming and removing never get stuck. -/
theorem C66_backup_never_stuck {t : St (WTh n) WCh Item} (h : Reach (backupNet n found) t) (ho : ¬ t.Over) : ∃ t', Step (backupNet n found) t t' :=
  progress backup_wired (fun _ => show 0 < 128 by decide) h ho

/-- When the main thread goes on, every file was handled once, in the order in which the walk found them, nobody is at work any more, and the
main thread has received exactly the lints of the walk and of the files that failed. -/
theorem C66_backup_all {t : St (WTh n) WCh Item} (hn : 0 < n) (h : Reach (backupNet n found) t) (hc : (t.th .main).closed = true) :
    (∀ i, i ≠ .main → (t.th i).fate ≠ .live) ∧
    t.taken .job = (found.filterMap Sum.getLeft?).map (fun x => Item.job x.1 x.2) ∧
    (lintsOf (t.th .main).got).Perm (found.filterMap Sum.getRight? ++ (found.filterMap Sum.getLeft?).filterMap Prod.snd) := by
  obtain ⟨h1, h2⟩ := backup_over h hc
  refine ⟨fun i hi => ?_, backup_all hn h hc⟩
  cases i with
  | main => exact absurd rfl hi
  | walk => exact h2
  | work k => exact h1 k

/-- Every execution of renaming and removing can be finished, and then the main thread has gone on. -/
theorem C66_backup_finishes {t : St (WTh n) WCh Item} (h : Reach (backupNet n found) t) :
    ∃ t', Relation.ReflTransGen (Step (backupNet n found)) t t' ∧ t'.Over ∧ (t'.th .main).closed = true := by
  induction t using (ends (backupWeights n found)).induction with
  | _ t ih =>
    by_cases ho : t.Over
    · refine ⟨t, .refl, ho, ?_⟩
      have he : (t.th .main).fate = .ended := by
        match hf : (t.th .main).fate with
        | .live => exact absurd hf (ho .main)
        | .ended => rfl
        | .died => exact absurd hf (faithful_alive (backup_pool (n := n) (found := found)).faithful h .main rfl)
      exact ((reach_th h .main).ended he).resolve_right (by simp [backupNet, backupProg])
    · obtain ⟨t1, h1⟩ := C66_backup_never_stuck h ho
      obtain ⟨t', h2, h3⟩ := ih t1 h1 (Relation.ReflTransGen.tail h h1)
      exact ⟨t', Relation.ReflTransGen.head h1 h2, h3⟩

/-! ## writing -/

/-- Writing never goes on for ever. -/
theorem C66_save_ends (q n : Nat) (files : List (FilePath × Option Lint)) : Terminates (Step (saveNet q n files)) (saveNet q n files).init := by
  rintro ⟨f, _, hf⟩
  exact (wellFounded_iff_isEmpty_descending_chain.1 (ends (saveWeights q n files))).elim ⟨f, hf⟩

/-- Without too many failures writing never gets stuck. -/
theorem C66_save_never_stuck {t : St (WTh n) WCh Item} (hn : 0 < n) (hq : 0 < q) (h : Reach (saveNet q n files) t)
    (hb : ¬ Blocks q n (fun x => x.2.isSome) files) (ho : ¬ t.Over) : ∃ t', Step (saveNet q n files) t t' := by
  by_contra hno
  simp only [not_exists] at hno
  exact (save_stuck hn hq h hno).elim ho hb

/-- With too many failures it always does: however the threads run, the main thread never gets to the end, and every execution can be continued to a state
in which nobody can do anything any more. -/
theorem C66_save_stuck {t : St (WTh n) WCh Item} (hn : 0 < n) (h : Reach (saveNet q n files) t) (hb : Blocks q n (fun x => x.2.isSome) files) :
    (t.th .main).fate = .live ∧ (t.th .main).closed = false ∧ (t.th .main).got = [] ∧
    ∃ t', Relation.ReflTransGen (Step (saveNet q n files)) t t' ∧ (t'.th .main).fate = .live ∧ ∀ t'', ¬ Step (saveNet q n files) t' t'' := by
  have hlive : ∀ {t : St (WTh n) WCh Item}, Reach (saveNet q n files) t →
      (t.th .main).fate = .live ∧ (t.th .main).closed = false ∧ (t.th .main).got = [] := by
    intro t h
    obtain ⟨v, rest, ho⟩ := save_sending hn hb h
    have hm := (main_first h).resolve_right (by rw [ho]; simp)
    exact ⟨live_of_ops h ho, hm.2, hm.1⟩
  refine ⟨(hlive h).1, (hlive h).2.1, (hlive h).2.2, ?_⟩
  induction t using (ends (saveWeights q n files)).induction with
  | _ t ih =>
    by_cases hs : ∃ t1, Step (saveNet q n files) t t1
    · obtain ⟨t1, h1⟩ := hs
      obtain ⟨t', h2, h3⟩ := ih t1 h1 (Relation.ReflTransGen.tail h h1)
      exact ⟨t', Relation.ReflTransGen.head h1 h2, h3⟩
    · exact ⟨t, .refl, (hlive h).1, fun t'' h'' => hs ⟨t'', h''⟩⟩

/-- When the main thread goes on, every file was handled once, in the order of sending, no worker is at work any more, and the main thread has
received exactly the lints of the files that failed. -/
theorem C66_save_all {t : St (WTh n) WCh Item} (hn : 0 < n) (h : Reach (saveNet q n files) t) (hc : (t.th .main).closed = true) :
    (∀ k, (t.th (.work k)).fate ≠ .live) ∧ t.taken .job = files.map (fun x => Item.job x.1 x.2) ∧
    (lintsOf (t.th .main).got).Perm (files.filterMap Prod.snd) := ⟨save_over h hc, save_all hn h hc⟩

/-- The main thread returns in some execution exactly if it returns in all of them, and that is if there are not too many failures. -/
theorem C66_save_returns_iff (hn : 0 < n) (hq : 0 < q) :
    (∃ t, Reach (saveNet q n files) t ∧ (t.th .main).closed = true) ↔ ¬ Blocks q n (fun x => x.2.isSome) files := by
  constructor
  · rintro ⟨t, h, hc⟩ hb
    rw [(C66_save_stuck hn h hb).2.1] at hc
    simp at hc
  · intro hb
    have : ∀ t, Reach (saveNet q n files) t → ∃ t', Reach (saveNet q n files) t' ∧ t'.Over := by
      intro t
      induction t using (ends (saveWeights q n files)).induction with
      | _ t ih =>
        intro h
        by_cases ho : t.Over
        · exact ⟨t, h, ho⟩
        · obtain ⟨t1, h1⟩ := C66_save_never_stuck hn hq h hb ho
          exact ih t1 h1 (Relation.ReflTransGen.tail h h1)
    obtain ⟨t, h, ho⟩ := this _ .refl
    refine ⟨t, h, ?_⟩
    have he : (t.th .main).fate = .ended := by
      match hf : (t.th .main).fate with
      | .live => exact absurd hf (ho .main)
      | .ended => rfl
      | .died => exact absurd hf (save_alive hn h .main)
    exact ((reach_th h .main).ended he).resolve_right (by simp [saveNet, saveProg])

/-- A small project, or few failures, are safe. -/
theorem C66_save_safe (h : files.length ≤ 2 * q + n ∨ files.countP fails < q + n) : ¬ Blocks q n fails files := by
  rintro ⟨a, b, rfl, h1, h2⟩
  rcases h with h | h
  · have := List.countP_le_length (p := fails) (l := a)
    rw [List.length_append] at h
    omega
  · rw [List.countP_append] at h
    omega

/-- If no file can be written (a full disk) and there are more than `2 q + n` of them, writing blocks. -/
theorem C66_full_disk_blocks (hf : ∀ x ∈ files, fails x = true) (h : 2 * q + n < files.length) : Blocks q n fails files := by
  refine ⟨files.take (q + n), files.drop (q + n), (List.take_append_drop _ _).symm, ?_, ?_⟩
  · rw [List.countP_eq_length.2 fun x hx => hf x (List.mem_of_mem_take hx), List.length_take]
    omega
  · rw [List.length_drop]
    omega

/-- The claim that writing always returns is false: 265 files and a full disk on a machine with 8 processors. -/
theorem C66_save_returns_false : ∃ files : List (FilePath × Option Lint), ∀ t, Reach (saveNet 128 8 files) t → (t.th .main).closed = false := by
  refine ⟨List.replicate 265 (c!"/p/design/a.md", some (Lint.loadError c!"/p/design/a.md" c!"No space left on device")), fun t h => ?_⟩
  refine (C66_save_stuck (by decide) h (C66_full_disk_blocks (fun x hx => ?_) ?_)).2.1
  · rw [List.eq_of_mem_replicate hx]
    rfl
  · rw [List.length_replicate]
    omega

/-- With queues of length one and one worker: three failing files are written, with four the main thread blocks. -/
example : ¬ Blocks 1 1 (fun x : FilePath × Option Lint => x.2.isSome) (List.replicate 3 (c!"/a", some (Lint.loadError c!"/a" c!"no")))
    ∧ Blocks 1 1 (fun x : FilePath × Option Lint => x.2.isSome) (List.replicate 4 (c!"/a", some (Lint.loadError c!"/a" c!"no"))) :=
  ⟨C66_save_safe (.inl (by simp)), C66_full_disk_blocks (by simp) (by simp)⟩

/-- A walk that finds two files, one of which cannot be renamed, and a directory that cannot be read. -/
def exFound : List (FilePath × Option Lint ⊕ Lint) :=
  [.inl (c!"/p/a.md", none), .inr (Lint.loadError c!"/p/d" c!"no"), .inl (c!"/p/b.md", some (Lint.loadError c!"/p/b.md" c!"no"))]

/-- The hypotheses of `C66_backup_all` can be met, with two lints. -/
example : ∃ t, Reach (backupNet 2 exFound) t ∧ (t.th .main).closed = true ∧ (lintsOf (t.th .main).got).length = 2 := by
  obtain ⟨t, h1, _, h3⟩ := C66_backup_finishes (n := 2) (found := exFound) .refl
  exact ⟨t, h1, h3, by rw [(C66_backup_all (by decide) h1 h3).2.2.length_eq]; rfl⟩

end Art.Chan
