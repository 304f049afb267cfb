import Verif.Props.Team

/-!
# C82: when the threads can block
-/

namespace Art.Team
open Spec

variable {L : Libs} {s : Settings} {files : List (FilePath × Str)} {n : Nat} {fs : FS}

/-- A file is sent, taken, and cannot be written. -/
theorem run_fail {t : Moment} {x : FilePath × Str} {rest : List (List Act ⊕ Lint)} {b a : List Worker} (h1 : t.phase = .save) (h2 : t.hand = .inl (saveJob x) :: rest)
    (h3 : t.queue = []) (h4 : t.work = b ++ .idle :: a) (msg : Str) :
    Reaches L s files t { t with hand := rest, work := b ++ .telling (failLint .save (.create x.1) msg) :: a } := by
  obtain ⟨fs, phase, roots, stack, hand, sending, queue, work, mail, got⟩ := t
  simp only at h1 h2 h3 h4
  subst h1 h2 h3 h4
  exact .head (.sendFile _ _ _ rfl (show 0 < room by decide)) (.head (.take _ b a (saveJob x) [] rfl rfl) (.single (.fail _ b a (.create x.1) _ msg rfl)))

/-- The channel of lints is filled. -/
theorem run_mail {a : List Worker} (msg : Str) : ∀ (xs : List (FilePath × Str)) (t : Moment) (rest : List (List Act ⊕ Lint)), t.phase = .save →
    t.hand = xs.map (fun x => .inl (saveJob x)) ++ rest → t.queue = [] → t.work = .idle :: a → t.mail.length + xs.length ≤ room →
    Reaches L s files t { t with hand := rest, mail := t.mail ++ xs.map fun x => failLint .save (.create x.1) msg }
  | [], t, rest, _, h2, _, _, _ => by
    have : ({ t with hand := rest, mail := t.mail ++ [].map fun x : FilePath × Str => failLint .save (.create x.1) msg } : Moment) = t := by
      cases t
      simp only [List.map_nil, List.nil_append, List.append_nil] at *
      rw [h2]
    rw [this]
    exact .refl
  | x :: xs, t, rest, h1, h2, h3, h4, h5 => by
    simp only [List.length_cons] at h5
    have e1 := run_fail (L := L) (s := s) (files := files) (b := []) h1 h2 h3 h4 msg
    have e2 := Step.tell (L := L) (s := s) (files := files) (before := []) (after := a) (l := failLint .save (.create x.1) msg) (t := { t with
      hand := xs.map (fun x => .inl (saveJob x)) ++ rest, work := [] ++ .telling (failLint .save (.create x.1) msg) :: a }) rfl (by
        show t.mail.length < room
        omega)
    have e3 := run_mail (a := a) msg xs { t with hand := xs.map (fun x => .inl (saveJob x)) ++ rest, mail := t.mail ++ [failLint .save (.create x.1) msg], work := .idle :: a }
      rest h1 rfl h3 rfl (by
        simp only [List.length_append, List.length_cons, List.length_nil]
        omega)
    have e4 := (e1.tail e2).trans e3
    simpa [Reaches, ← h4] using e4

/-- All workers wait for room. -/
theorem run_workers (msg : Str) : ∀ (xs : List (FilePath × Str)) (t : Moment) (b : List Worker) (rest : List (List Act ⊕ Lint)), t.phase = .save →
    t.hand = xs.map (fun x => .inl (saveJob x)) ++ rest → t.queue = [] → t.work = b ++ List.replicate xs.length .idle →
    Reaches L s files t { t with hand := rest, work := b ++ xs.map fun x => .telling (failLint .save (.create x.1) msg) }
  | [], t, b, rest, _, h2, _, h4 => by
    have : ({ t with hand := rest, work := b ++ [].map fun x : FilePath × Str => .telling (failLint .save (.create x.1) msg) } : Moment) = t := by
      cases t
      simp only [List.map_nil, List.nil_append, List.append_nil, List.length_nil, List.replicate_zero] at *
      rw [h2, h4]
    rw [this]
    exact .refl
  | x :: xs, t, b, rest, h1, h2, h3, h4 => by
    have e1 := run_fail (L := L) (s := s) (files := files) (b := b) h1 h2 h3 h4 msg
    have e2 := run_workers msg xs (b := b ++ [.telling (failLint .save (.create x.1) msg)]) (rest := rest) (t := { t with
      hand := xs.map (fun x => .inl (saveJob x)) ++ rest, work := b ++ .telling (failLint .save (.create x.1) msg) :: List.replicate xs.length .idle }) h1 rfl h3 (by simp)
    have e3 := e1.trans e2
    simpa [Reaches] using e3

/-- The channel of files is filled. -/
theorem run_queue : ∀ (xs : List (FilePath × Str)) (t : Moment) (rest : List (List Act ⊕ Lint)),
    t.hand = xs.map (fun x => .inl (saveJob x)) ++ rest → t.queue.length + xs.length ≤ room →
    Reaches L s files t { t with hand := rest, queue := t.queue ++ xs.map saveJob }
  | [], t, rest, h2, _ => by
    have : ({ t with hand := rest, queue := t.queue ++ [].map saveJob } : Moment) = t := by
      cases t
      simp only [List.map_nil, List.nil_append, List.append_nil] at *
      rw [h2]
    rw [this]
    exact .refl
  | x :: xs, t, rest, h2, h5 => by
    simp only [List.length_cons] at h5
    have e1 := Step.sendFile (L := L) (s := s) (files := files) t _ _ h2 (by omega)
    have e2 := run_queue xs { t with hand := xs.map (fun x => .inl (saveJob x)) ++ rest, queue := t.queue ++ [saveJob x] } rest rfl (by
      simp only [List.length_append, List.length_cons, List.length_nil]
      omega)
    have e3 := e2.head e1
    simpa [Reaches] using e3

/-- Both channels are full and all workers wait: nobody can do anything. -/
theorem full_stuck {t : Moment} (h1 : t.phase = .save) (h2 : t.sending = true) (h3 : t.mail.length = room) (h4 : t.queue.length = room) {j : List Act}
    {rest : List (List Act ⊕ Lint)} (h5 : t.hand = .inl j :: rest) (h6 : ∀ w ∈ t.work, ∃ l, w = .telling l) : Stuck L s files t := by
  intro t' hs
  have no : ∀ {b a : List Worker} {w : Worker}, t.work = b ++ w :: a → ∃ l, w = .telling l := fun e => h6 _ (by rw [e]; simp)
  cases hs with
  | findArtifacts d p => rw [h1] at p; cases p
  | findBackups d p => rw [h1] at p; cases p
  | sendFile j rest p q => omega
  | sendLint l rest p q => rw [h5] at p; cases p
  | sent p q => rw [h5] at q; cases q
  | take b a j q p r => obtain ⟨l, e⟩ := no p; cases e
  | act b a x rest fs' p r => obtain ⟨l, e⟩ := no p; cases e
  | fail b a x rest m p => obtain ⟨l, e⟩ := no p; cases e
  | tell b a l p q => omega
  | ready b a p => obtain ⟨l, e⟩ := no p; cases e
  | leave b a p q r => obtain ⟨l, e⟩ := no p; cases e
  | hear l m p q => rw [q h1] at h2; cases h2
  | backupErr p => rw [h1] at p; cases p
  | backupOk p => rw [h1] at p; cases p
  | saveErr p q => rw [q.2.1] at h2; cases h2
  | saveOk p q => rw [q.2.1] at h2; cases h2
  | removeOk p => rw [h1] at p; cases p

/-- C82: with one file more than that, the threads can block for ever: the disk is full when the first file is written, all artifact files are renamed, and `modify_project` does not return. -/
theorem C82_can_block (hn : 0 < n) (hlen : 2 * 128 + n < files.length) {t : Moment} (h : Reaches L s files (start n fs s) t) (h1 : t.phase = .backup) (h2 : t.Over)
    (h3 : hasError t.got = false) (msg : Str) :
    ∃ t', Reaches L s files (start n fs s) t' ∧ t'.phase = .save ∧ t'.fs = t.fs ∧ ∀ t'', ¬ Step L s files t' t'' := by
  have hc := (inv_reaches h (inv_start n fs s)).count
  obtain ⟨xs, r1, e1, l1⟩ : ∃ xs r, files = xs ++ r ∧ xs.length = 128 := ⟨files.take 128, files.drop 128, (List.take_append_drop ..).symm, by rw [List.length_take]; omega⟩
  obtain ⟨ys, r2, e2, l2⟩ : ∃ xs r, r1 = xs ++ r ∧ xs.length = n := ⟨r1.take n, r1.drop n, (List.take_append_drop ..).symm, by
    have := congrArg List.length e1
    rw [List.length_append] at this
    rw [List.length_take]; omega⟩
  obtain ⟨zs, r3, e3, l3⟩ : ∃ xs r, r2 = xs ++ r ∧ xs.length = 128 := ⟨r2.take 128, r2.drop 128, (List.take_append_drop ..).symm, by
    have := congrArg List.length e1
    have := congrArg List.length e2
    simp only [List.length_append] at *
    rw [List.length_take]; omega⟩
  have l4 : r3 ≠ [] := by
    rintro rfl
    have := congrArg List.length e1
    have := congrArg List.length e2
    have := congrArg List.length e3
    simp only [List.length_append, List.length_nil] at *
    omega
  obtain ⟨y, r4, rfl⟩ := List.exists_cons_of_ne_nil l4
  subst e3 e2
  obtain ⟨k, rfl⟩ : ∃ k, n = k + 1 := ⟨n - 1, by omega⟩
  have a0 : Step L s files t _ := .backupOk t h1 h2 h3
  have hw : (t.work.map fun _ => Worker.idle) = .idle :: List.replicate k .idle := by
    rw [List.map_const', hc]
    rfl
  have a1 := run_mail (L := L) (s := s) (files := files) msg xs (t.next .save [] (files.map fun x => .inl (saveJob x)))
    ((ys ++ (zs ++ y :: r4)).map fun x => .inl (saveJob x)) rfl (by rw [e1]; simp [Moment.next]) rfl hw (by simp [Moment.next, l1, room])
  have a2 := run_workers (L := L) (s := s) (files := files) msg ys (b := []) (rest := (zs ++ y :: r4).map fun x => .inl (saveJob x)) (t := { t.next .save [] (files.map fun x => .inl (saveJob x)) with
      hand := (ys ++ (zs ++ y :: r4)).map fun x => .inl (saveJob x), mail := [] ++ xs.map fun x => failLint .save (.create x.1) msg })
    rfl (by simp) rfl (by
      show (t.work.map fun _ => Worker.idle) = _
      rw [hw, l2]
      rfl)
  have a3 := run_queue (L := L) (s := s) (files := files) zs (rest := (y :: r4).map fun x => .inl (saveJob x)) (t := { t.next .save [] (files.map fun x => .inl (saveJob x)) with
      hand := (zs ++ y :: r4).map fun x => .inl (saveJob x), mail := [] ++ xs.map fun x => failLint .save (.create x.1) msg,
      work := [] ++ ys.map fun x => .telling (failLint .save (.create x.1) msg) })
    (by simp) (by simp [Moment.next, l3, room])
  refine ⟨_, ((h.tail a0).trans a1).trans (a2.trans a3), rfl, rfl, ?_⟩
  refine full_stuck rfl rfl ?_ ?_ rfl ?_
  · simp [l1, room]
  · simp [Moment.next, l3, room]
  · intro w hw
    simp only [List.nil_append, List.mem_map] at hw
    obtain ⟨x, _, rfl⟩ := hw
    exact ⟨_, rfl⟩

end Art.Team
