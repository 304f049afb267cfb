import Verif.Props.TeamBlock
import Verif.Props.LiveEx
import Verif.Cases.Disk
import Verif.Lemmas.LiveRun

/-!
# C82: examples
-/

namespace Art.Team
open Spec

/-- Which thread takes the next step, and how. -/
inductive Turn where
  | walk (k : Pick)
  | send | sent
  | take (i : Nat) | act (i : Nat) | fail (i : Nat) (msg : Str) | tell (i : Nat) | ready (i : Nat) | leave (i : Nat)
  | hear | next

def isOver (t : Moment) : Bool := t.mail.isEmpty && !t.sending && t.work.all (fun w => w = .ended)

theorem over_of {t : Moment} (h : isOver t = true) : t.Over := by
  simp only [isOver, Bool.and_eq_true, List.isEmpty_iff, Bool.not_eq_true', List.all_eq_true, decide_eq_true_eq] at h
  exact ⟨h.1.1, h.1.2, h.2⟩

/-- The step of this thread. -/
def turn (L : Libs) (s : Settings) (files : List (FilePath × Str)) (t : Moment) : Turn → Option Moment
  | .walk k =>
    if t.sending = true ∧ t.hand = [] then
      ((walkKind s t.phase).bind fun x => walkPick L x.1 x.2 t.walker k).map fun c =>
        { t with roots := c.roots, stack := c.stack, hand := c.jobs.map .inl ++ c.lints.map .inr }
    else none
  | .send =>
    match t.hand with
    | .inl j :: rest => if t.queue.length < room then some { t with hand := rest, queue := t.queue ++ [j] } else none
    | .inr l :: rest => if t.mail.length < room then some { t with hand := rest, mail := t.mail ++ [l] } else none
    | [] => none
  | .sent => if t.sending = true ∧ t.hand = [] ∧ t.roots = [] ∧ t.stack.isEmpty = true then some { t with sending := false } else none
  | .take i =>
    match t.work[i]?, t.queue with
    | some .idle, j :: q => some { t with queue := q, work := t.work.set i (.busy j) }
    | _, _ => none
  | .act i =>
    match t.work[i]? with
    | some (.busy (a :: rest)) => (a.apply t.fs).map fun fs' => { t with fs := fs', work := t.work.set i (.busy rest) }
    | _ => none
  | .fail i msg =>
    match t.work[i]? with
    | some (.busy (a :: _)) => some { t with work := t.work.set i (.telling (failLint t.phase a msg)) }
    | _ => none
  | .tell i =>
    match t.work[i]? with
    | some (.telling l) => if t.mail.length < room then some { t with mail := t.mail ++ [l], work := t.work.set i .idle } else none
    | _ => none
  | .ready i =>
    match t.work[i]? with
    | some (.busy []) => some { t with work := t.work.set i .idle }
    | _ => none
  | .leave i =>
    match t.work[i]?, t.queue, t.sending with
    | some .idle, [], false => some { t with work := t.work.set i .ended }
    | _, _, _ => none
  | .hear =>
    match t.mail with
    | l :: m => if t.phase = .save → t.sending = false then some { t with mail := m, got := t.got ++ [l] } else none
    | [] => none
  | .next =>
    if isOver t then
      match t.phase with
      | .backup => if hasError t.got then some { t with phase := .failed .createBackups } else some (t.next .save [] (files.map fun x => .inl (saveJob x)))
      | .save => if hasError t.got then some { t with phase := .failed .saveProject } else some (t.next .remove s.artifactPaths [])
      | .remove => some { t with phase := .done }
      | _ => none
    else none

theorem turn_sound {L : Libs} {s : Settings} {files : List (FilePath × Str)} {t u : Moment} {k : Turn} (h : turn L s files t k = some u) : Step L s files t u := by
  unfold turn at h
  split at h
  · split at h
    · rename_i hh
      obtain ⟨c, h1, rfl⟩ := Option.map_eq_some_iff.1 h
      obtain ⟨⟨f, mk⟩, h2, h3⟩ := Option.bind_eq_some_iff.1 h1
      have h4 := walkPick_sound h3
      unfold walkKind at h2
      split at h2
      · rename_i hp; cases h2; exact .findArtifacts t c hp hh.1 hh.2 h4
      · rename_i hp; cases h2; exact .findBackups t c hp hh.1 hh.2 h4
      · cases h2
    · cases h
  · split at h
    · rename_i j rest hh
      split at h
      · rename_i hq; cases h; exact .sendFile t j rest hh hq
      · cases h
    · rename_i l rest hh
      split at h
      · rename_i hq; cases h; exact .sendLint t l rest hh hq
      · cases h
    · cases h
  · split at h
    · rename_i hh; cases h; exact .sent t hh.1 hh.2.1 hh.2.2.1 (List.isEmpty_iff.1 hh.2.2.2)
    · cases h
  · split at h
    · rename_i i j q hw hq
      cases h
      obtain ⟨b, a, e1, e2⟩ := set_split (b := Worker.busy j) hw
      rw [e2]
      exact .take t b a j q e1 hq
    · cases h
  · split at h
    · rename_i i x rest hw
      obtain ⟨fs', h1, rfl⟩ := Option.map_eq_some_iff.1 h
      obtain ⟨b, a, e1, e2⟩ := set_split (b := Worker.busy rest) hw
      rw [e2]
      exact .act t b a x rest fs' e1 h1
    · cases h
  · split at h
    · rename_i i msg _ x rest hw
      cases h
      obtain ⟨b, a, e1, e2⟩ := set_split (b := Worker.telling (failLint t.phase x msg)) hw
      rw [e2]
      exact .fail t b a x rest msg e1
    · cases h
  · split at h
    · rename_i i l hw
      split at h
      · rename_i hq
        cases h
        obtain ⟨b, a, e1, e2⟩ := set_split (b := Worker.idle) hw
        rw [e2]
        exact .tell t b a l e1 hq
      · cases h
    · cases h
  · split at h
    · rename_i i hw
      cases h
      obtain ⟨b, a, e1, e2⟩ := set_split (b := Worker.idle) hw
      rw [e2]
      exact .ready t b a e1
    · cases h
  · split at h
    · rename_i i hw hq hs
      cases h
      obtain ⟨b, a, e1, e2⟩ := set_split (b := Worker.ended) hw
      rw [e2]
      exact .leave t b a e1 hq hs
    · cases h
  · split at h
    · rename_i l m hm
      split at h
      · rename_i hq; cases h; exact .hear t l m hm hq
      · cases h
    · cases h
  · split at h
    · rename_i ho
      have ho := over_of ho
      split at h
      · rename_i hp
        split at h
        · rename_i he; cases h; exact .backupErr t hp ho he
        · rename_i he; cases h; exact .backupOk t hp ho (by simpa using he)
      · rename_i hp
        split at h
        · rename_i he; cases h; exact .saveErr t hp ho he
        · rename_i he; cases h; exact .saveOk t hp ho (by simpa using he)
      · rename_i hp; cases h; exact .removeOk t hp ho
      · cases h
    · cases h

/-- Threads take turns. -/
def turns (L : Libs) (s : Settings) (files : List (FilePath × Str)) (ks : List Turn) (t : Moment) : Option Moment := ks.foldlM (turn L s files) t

theorem turns_sound {L : Libs} {s : Settings} {files : List (FilePath × Str)} {ks : List Turn} {t u : Moment} (h : turns L s files ks t = some u) :
    Reaches L s files t u := by
  induction ks generalizing t with
  | nil => cases h; exact .refl
  | cons k ks ih =>
    unfold turns at h
    rw [List.foldlM_cons] at h
    obtain ⟨c', h1, h2⟩ := Option.bind_eq_some_iff.1 h
    exact .head (turn_sound h1) (ih h2)

/-- Two workers rename two files while the walk is still on, and write two files at the same time. -/
def exTurns : List Turn :=
  [.walk .root, .walk (.entry c!"/p/design/a.md"), .send, .take 1, .act 1, .walk (.entry c!"/p/design/b.md"), .send, .walk (.entry c!"/p/design/a.artbk"), .walk .close,
   .take 0, .ready 1, .sent, .act 0, .ready 0, .leave 1, .leave 0, .next,
   .send, .send, .sent, .take 1, .act 1, .act 1, .take 0, .act 0, .act 0, .act 0, .act 1, .act 1, .act 0, .act 0, .ready 0, .ready 1, .leave 0, .leave 1, .next,
   .walk .root, .walk (.entry c!"/p/design/a.artbk"), .send, .take 0, .act 0, .walk (.entry c!"/p/design/b.artbk"), .send, .walk (.entry c!"/p/design/a.md"),
   .walk (.entry c!"/p/design/c.md"), .take 1, .fail 1 c!"busy", .tell 1, .walk .close, .sent, .hear, .ready 0, .leave 0, .leave 1, .next]

def exTwoFiles : List (FilePath × Str) := [(c!"/p/design/a.md", c!"hi"), (c!"/p/design/c.md", c!"you")]

/-- What the run leaves behind after some turns. -/
def exTurned (k : Nat) : Option (Phase × List (String × String) × List String) :=
  (turns nameLibs exS exTwoFiles (exTurns.take k) (start 2 exGood exS)).map fun t => (t.phase, shown t.fs, t.got.map fun l => String.ofList l.msg)

theorem exTeam : exTurned 100 = some (.done, [("/p/design/b.artbk", "# SPC-b\nmore\n"), ("/p/design/a.md", "hi"), ("/p/design/c.md", "you")], ["busy"]) := by
  decide +kernel

/-- Both workers are in the middle of a file, so that two files are neither complete nor reported: fewer than one for each processor are not to be expected. -/
theorem exMiddle : exTurned 28 = some (.save, [("/p/design/a.artbk", "# REQ-a\nwhat\n# SPC-a\nhow [[.x]]\n"), ("/p/design/b.artbk", "# SPC-b\nmore\n"),
    ("/p/design/a.md", "h"), ("/p/design/c.md", "y")], []) := by
  decide +kernel

theorem exTwo_orderly : Orderly exGood exS exTwoFiles where
  wf := exGood_wf
  roots := exGood_safe.1
  stems := exGood_safe.2
  files := by
    have : ∀ x ∈ exTwoFiles, x.1.head? = some '/' ∧ (ArtFileType.fromPath x.1).isSome = true := by decide +kernel
    exact fun x hx => case_supported (this x hx)
  nodup := by decide +kernel

/-- The moments of this run, with what C82 says about them. -/
example : ∃ t, Reaches nameLibs exS exTwoFiles (start 2 exGood exS) t ∧ t.phase = .done ∧ t.got.length = 1 ∧
    ∃ c, Art.Reaches nameLibs exS exTwoFiles (Cfg.init nameLibs exGood exS) c ∧ c.fs = t.fs ∧ c.phase = t.phase ∧ t.got.Perm c.lints := by
  obtain ⟨t, h1, h2⟩ := Option.map_eq_some_iff.1 exTeam
  simp only [Prod.mk.injEq] at h2
  have h3 := turns_sound h1
  obtain ⟨c, g1, g2, g3, g4⟩ := C82_sound (by decide) exGood_wf exGood_separate (fun x hx => (supported_ext (exTwo_orderly.files x hx)).2) h3
  refine ⟨t, h3, h2.1, ?_, c, g1, g2, g3, g4 (.inl h2.1)⟩
  have := congrArg List.length h2.2.2
  rwa [List.length_map] at this

example : ∃ t, Reaches nameLibs exS exTwoFiles (start 2 exGood exS) t ∧ t.phase = .save ∧ shown t.fs = [("/p/design/a.artbk", "# REQ-a\nwhat\n# SPC-a\nhow [[.x]]\n"),
      ("/p/design/b.artbk", "# SPC-b\nmore\n"), ("/p/design/a.md", "h"), ("/p/design/c.md", "y")] ∧
    (∃ fs0, Interrupted 2 fs0 t.fs exTwoFiles (t.got ++ t.mail)) ∧ ∃ t', Step nameLibs exS exTwoFiles t t' := by
  obtain ⟨t, h1, h2⟩ := Option.map_eq_some_iff.1 exMiddle
  simp only [Prod.mk.injEq] at h2
  have h3 := turns_sound h1
  obtain ⟨fs0, _, g⟩ := C82_crash (by decide) exTwo_orderly exGood_separate h3 h2.1
  exact ⟨t, h3, h2.1, h2.2.1, ⟨fs0, g⟩, C82_never_stuck (by decide) exTwo_orderly.nodup (by decide) h3 (.inr (.inl h2.1))⟩

/-! ## a whole modification -/

/-- Threads take turns by themselves: the first of these that can. -/
def auto (L : Libs) (s : Settings) (files : List (FilePath × Str)) (ks : List Turn) : Nat → Moment → Moment
  | 0, t => t
  | k + 1, t =>
    match ks.findSome? (turn L s files t) with
    | some u => auto L s files ks k u
    | none => t

theorem auto_sound {L : Libs} {s : Settings} {files : List (FilePath × Str)} {ks : List Turn} (k : Nat) (t : Moment) : Reaches L s files t (auto L s files ks k t) := by
  induction k generalizing t with
  | zero => exact .refl
  | succ k ih =>
    unfold auto
    split
    · rename_i u h
      obtain ⟨x, _, hx⟩ := List.exists_of_findSome?_eq_some h
      exact .head (turn_sound hx) (ih u)
    · exact .refl

def exOrder : List Turn :=
  [.take 3, .act 0, .ready 0, .send, .take 0, .act 1, .ready 1, .take 1, .act 3, .ready 3, .walk .root] ++
    ["a.md", "b.md", "c.toml", "a.artbk", "b.artbk"].map (fun x => .walk (.entry (c!"/p/design/" ++ x.toList))) ++
    [.walk .close, .sent, .leave 0, .leave 1, .leave 2, .leave 3, .next]

def exAuto (k : Nat) : Moment := auto nameLibs exS caseFiles exOrder k (start 4 exGood exS)

theorem exAuto_done : (exAuto 1000).phase = .done ∧ (exAuto 1000).got = [] ∧
    shown (exAuto 1000).fs = [("/p/design/c.toml", "SPC-c"), ("/p/design/b.md", "# SPC-b\npartof: REQ-a\n###\neven more"), ("/p/design/a.md", "# REQ-a\nwhat")] := by
  refine ⟨?_, ?_, ?_⟩ <;> decide +kernel

theorem exPlan : ∃ read c p, ReadsProject nameLibs (fun _ => some exRaw) exId 4 exGood c!"/p" read ∧ PlansRead nameLibs exId (fun _ => []) exOps read (.ok (c, p)) ∧
    projectFiles nameLibs p = .ok caseFiles ∧ p.settings = exS := by
  obtain ⟨files, fs', h1, _, _⟩ := modifyNow_some exWrite.1
  obtain ⟨⟨p', ⟨read, c, h2, h3⟩, h4⟩, _⟩ := modifyNow_sound (ncpu := 4) exGood_settings (by decide +kernel) (by decide +kernel) h1
  have e : (modifyNow nameLibs exId exGood exS exOps 1000).map (fun r => r.1) = (modifyNow nameLibs exId exGood exS exOps 0).map (fun r => r.1) := by decide +kernel
  have e2 : files = caseFiles := by
    unfold caseFiles
    rw [← e, h1]
    rfl
  exact ⟨read, c, p', h2, h3, e2 ▸ h4, (accepted_settings exGood_wf exGood_settings exOps_ok.2.1 ⟨read, c, h2, h3⟩).1⟩

/-- From reading to the end, and what C82 says about it. -/
example : ∃ r fs', Modifies nameLibs (fun _ => some exRaw) exId (fun _ => []) 4 exGood c!"/p" exOps (some (.ok r)) fs' ∧
    (∃ out', Art.Modifies nameLibs (fun _ => some exRaw) exId (fun _ => []) 4 exGood c!"/p" exOps out' fs' ∧ SameResult (some (.ok r)) out') ∧
    ∃ p' files, projectFiles nameLibs p' = .ok files ∧ ∀ x ∈ files, contentAt fs' x.1 = some (.text x.2) := by
  obtain ⟨read, c, p, h1, h2, h3, h4⟩ := exPlan
  have hm := Modifies.done h1 h2 h3 (t := exAuto 1000) (h4 ▸ auto_sound _ _) exAuto_done.1
  refine ⟨_, _, hm, C82_modify (by decide) exGood_wf exGood_settings exOps_ok.2.1 exGood_separate hm, ?_⟩
  rcases (C82_safe (by decide) exGood_wf exGood_settings exOps_ok.2.1 exGood_separate exGood_safe hm).1 with ⟨h, _⟩ | ⟨_, p', files, _, h5, h6⟩
  · exact absurd rfl (h _)
  · exact ⟨p', files, h5, h6⟩

/-- The process dies after 40 steps. -/
example : ∃ fs', Modifies nameLibs (fun _ => some exRaw) exId (fun _ => []) 4 exGood c!"/p" exOps none fs' ∧
    shown fs' = [("/p/design/a.artbk", "# REQ-a\nwhat\n# SPC-a\nhow [[.x]]\n"), ("/p/design/b.artbk", "# SPC-b\nmore\n"), ("/p/design/c.toml", "SPC-c"), ("/p/design/b.md", "# SP")] ∧
    ∀ q, IMap.get? fs' q ≠ IMap.get? exGood q → MayTouch nameLibs (fun _ => some exRaw) exId (fun _ => []) 4 exGood c!"/p" exOps exS q := by
  obtain ⟨read, c, p, h1, h2, h3, h4⟩ := exPlan
  have hm := Modifies.crash h1 h2 h3 (t := exAuto 40) (h4 ▸ auto_sound _ _)
  exact ⟨_, hm, by decide +kernel, (C82_safe (by decide) exGood_wf exGood_settings exOps_ok.2.1 exGood_separate exGood_safe hm).2.1⟩

/-! ## blocking -/

/-- A project of 300 files. -/
def exMany : List (FilePath × Str) := (List.range 300).map fun i => (c!"/p/design/" ++ List.replicate i 'a' ++ c!".md", c!"hi")

/-- On a machine with two processors and a full disk it is never saved; its old files all have been renamed by then. -/
example : ∃ t, Reaches nameLibs exS exMany (start 2 exGood exS) t ∧ t.phase = .save ∧ (∀ t', ¬ Step nameLibs exS exMany t t') ∧
    shown t.fs = [("/p/design/a.artbk", "# REQ-a\nwhat\n# SPC-a\nhow [[.x]]\n"), ("/p/design/b.artbk", "# SPC-b\nmore\n")] ∧
    ∃ bad : List (FilePath × Str), bad ≠ [] ∧ ∀ x ∈ bad, FailReported (t.mail ++ t.work.filterMap Worker.lint) x.1 := by
  have h : (turns nameLibs exS exMany (exTurns.take 16) (start 2 exGood exS)).map (fun t => (t.phase, isOver t, hasError t.got, shown t.fs)) =
      some (.backup, true, false, [("/p/design/a.artbk", "# REQ-a\nwhat\n# SPC-a\nhow [[.x]]\n"), ("/p/design/b.artbk", "# SPC-b\nmore\n")]) := by decide +kernel
  obtain ⟨t, h1, h2⟩ := Option.map_eq_some_iff.1 h
  simp only [Prod.mk.injEq] at h2
  obtain ⟨t', g1, g2, g3, g4⟩ := C82_can_block (files := exMany) (by decide) (by simp [exMany]) (turns_sound h1) h2.1 (over_of h2.2.1) h2.2.2.1 c!"No space left on device"
  have hnd : (exMany.map (·.1)).Nodup := by
    simp only [exMany, List.map_map]
    refine List.Nodup.map_on ?_ List.nodup_range
    intro i _ j _ e
    have := congrArg List.length e
    simpa using this
  obtain ⟨_, bad, h5, a, b, h6, h7, h8⟩ := C82_stuck (by decide) hnd g1 (.inr (.inl g2)) g4
  refine ⟨t', g1, g2, g4, by rw [g3]; exact h2.2.2.2, bad, ?_, h5⟩
  rintro rfl
  simp at h7

end Art.Team
