import Verif.Model.Team
import Verif.Lemmas.LiveSim
import Mathlib.Algebra.Order.Group.Multiset
import Mathlib.Tactic.Abel

/-!
# The threads do what the phases do
-/

namespace Art.Team
open Spec

variable {L : Libs} {s : Settings} {files : List (FilePath × Str)}

/-- What is left to be done with the files of a phase. -/
def handJobs (h : List (List Act ⊕ Lint)) : List (List Act) := h.filterMap Sum.getLeft?

def handLints (h : List (List Act ⊕ Lint)) : List Lint := h.filterMap Sum.getRight?

def Worker.job : Worker → Option (List Act)
  | .busy j => some j
  | _ => none

def Worker.lint : Worker → Option Lint
  | .telling l => some l
  | _ => none

def pending (t : Moment) : Multiset (List Act) :=
  Multiset.filter (· ≠ []) (↑(handJobs t.hand) + ↑t.queue + ↑(t.work.filterMap Worker.job))

/-- All lints, wherever they are. -/
def everyLint (t : Moment) : Multiset Lint := ↑t.got + ↑t.mail + ↑(t.work.filterMap Worker.lint) + ↑(handLints t.hand)

/-- The invariant of the threads. -/
structure Inv (n : Nat) (t : Moment) : Prop where
  closed : t.sending = false → t.hand = [] ∧ t.roots = [] ∧ t.stack = []
  ended : .ended ∈ t.work → t.sending = false ∧ t.queue = []
  count : t.work.length = n

/-- What the phases know of the threads. -/
structure Sim (t : Moment) (c : LiveCfg) : Prop where
  fs : c.fs = t.fs
  phase : c.phase = t.phase
  roots : c.roots = t.roots
  stack : c.stack = t.stack
  jobs : Multiset.filter (· ≠ []) (c.jobs : Multiset (List Act)) = pending t
  lints : (c.lints : Multiset Lint) = everyLint t

theorem inv_start (n : Nat) (fs : FS) (s : Settings) : Inv n (start n fs s) where
  closed := by simp [start]
  ended := by simp [start]
  count := by simp [start]

theorem inv_step {t t' : Moment} (hs : Step L s files t t') (h : Inv n t) : Inv n t' := by
  obtain ⟨h1, h2, h3⟩ := h
  cases hs with
  | findArtifacts c p q r _ =>
    refine ⟨?_, h2, h3⟩
    simp [q]
  | findBackups c p q r _ =>
    refine ⟨?_, h2, h3⟩
    simp [q]
  | sendFile j rest p q =>
    refine ⟨?_, ?_, h3⟩
    · intro e
      rw [p] at h1
      cases (h1 e).1
    · intro e
      rw [p] at h1
      cases (h1 (h2 e).1).1
  | sendLint l rest p q =>
    refine ⟨?_, h2, h3⟩
    intro e
    rw [p] at h1
    cases (h1 e).1
  | sent p q r u =>
    refine ⟨fun _ => ⟨q, r, u⟩, ?_, h3⟩
    intro e
    rw [(h2 e).1] at p
    cases p
  | take b a j q p r =>
    rw [p] at h3
    refine ⟨h1, ?_, by simpa using h3⟩
    intro e
    have := h2 (by rw [p]; simpa using e)
    rw [r] at this
    cases this.2
  | act b a x rest fs' p r =>
    rw [p] at h3 h2
    exact ⟨h1, fun e => h2 (by simpa using e), by simpa using h3⟩
  | fail b a x rest m p =>
    rw [p] at h3 h2
    exact ⟨h1, fun e => h2 (by simpa using e), by simpa using h3⟩
  | tell b a l p =>
    rw [p] at h3 h2
    exact ⟨h1, fun e => h2 (by simpa using e), by simpa using h3⟩
  | ready b a p =>
    rw [p] at h3 h2
    exact ⟨h1, fun e => h2 (by simpa using e), by simpa using h3⟩
  | leave b a p q r =>
    rw [p] at h3
    exact ⟨h1, fun _ => ⟨r, q⟩, by simpa using h3⟩
  | hear l m p q => exact ⟨h1, h2, h3⟩
  | backupErr p q r => exact ⟨h1, h2, h3⟩
  | saveErr p q r => exact ⟨h1, h2, h3⟩
  | removeOk p q => exact ⟨h1, h2, h3⟩
  | backupOk p q r => exact ⟨by simp [Moment.next], by simp [Moment.next], by simpa [Moment.next] using h3⟩
  | saveOk p q r => exact ⟨by simp [Moment.next], by simp [Moment.next], by simpa [Moment.next] using h3⟩

theorem inv_reaches {n : Nat} {t u : Moment} (h : Reaches L s files t u) (hi : Inv n t) : Inv n u := by
  induction h with
  | refl => exact hi
  | tail _ hs ih => exact inv_step hs ih

/-- A walk does not depend on the jobs and lints that there are already. -/
theorem walk_more {f : FilePath → Bool → Bool} {mk : FilePath → Act} {c d : LiveCfg} (h : WalkStep L f mk c d) (hj : c.jobs = []) (hl : c.lints = [])
    (js : List (List Act)) (ls : List Lint) :
    WalkStep L f mk { c with jobs := js, lints := ls } { d with jobs := js ++ d.jobs, lints := ls ++ d.lints } ∧ d.fs = c.fs ∧ d.phase = c.phase := by
  cases h with
  | missing r rs h1 h2 h3 =>
    refine ⟨?_, rfl, rfl⟩
    have := WalkStep.missing (L := L) (f := f) (mk := mk) (c := { c with jobs := js, lints := ls }) r rs h1 h2 h3
    simpa [hj, hl] using this
  | fileRoot r rs x h1 h2 h3 =>
    refine ⟨?_, rfl, rfl⟩
    have := WalkStep.fileRoot (L := L) (f := f) (mk := mk) (c := { c with jobs := js, lints := ls }) r rs x h1 h2 h3
    simpa [hj, hl] using this
  | dirRoot r rs h1 h2 h3 =>
    refine ⟨?_, rfl, rfl⟩
    have := WalkStep.dirRoot (L := L) (f := f) (mk := mk) (c := { c with jobs := js, lints := ls }) r rs h1 h2 h3
    simpa [hj, hl] using this
  | file h st e x h1 h2 h3 h4 =>
    refine ⟨?_, rfl, rfl⟩
    have := WalkStep.file (L := L) (f := f) (mk := mk) (c := { c with jobs := js, lints := ls }) h st e x h1 h2 h3 h4
    simpa [hj, hl] using this
  | dir h st e h1 h2 h3 h4 =>
    refine ⟨?_, rfl, rfl⟩
    have := WalkStep.dir (L := L) (f := f) (mk := mk) (c := { c with jobs := js, lints := ls }) h st e h1 h2 h3 h4
    simpa [hj, hl] using this
  | fetch above below h e n h1 h2 h3 =>
    refine ⟨?_, rfl, rfl⟩
    have := WalkStep.fetch (L := L) (f := f) (mk := mk) (c := { c with jobs := js, lints := ls }) above below h e n h1 h2 h3
    simpa [hj, hl] using this
  | stale h st e h1 h2 h3 h4 =>
    refine ⟨?_, rfl, rfl⟩
    have := WalkStep.stale (L := L) (f := f) (mk := mk) (c := { c with jobs := js, lints := ls }) h st e h1 h2 h3 h4
    simpa [hj, hl] using this
  | lost h st e h1 h2 h3 h4 =>
    refine ⟨?_, rfl, rfl⟩
    have := WalkStep.lost (L := L) (f := f) (mk := mk) (c := { c with jobs := js, lints := ls }) h st e h1 h2 h3 h4
    simpa [hj, hl] using this
  | close h st h1 h2 =>
    refine ⟨?_, rfl, rfl⟩
    have := WalkStep.close (L := L) (f := f) (mk := mk) (c := { c with jobs := js, lints := ls }) h st h1 h2
    simpa [hj, hl] using this

theorem hand_back (js : List (List Act)) (ls : List Lint) :
    handJobs (js.map .inl ++ ls.map .inr) = js ∧ handLints (js.map .inl ++ ls.map .inr) = ls := by
  constructor
  · simp [handJobs, List.filterMap_map, Function.comp_def]
  · simp [handLints, List.filterMap_map, Function.comp_def]

theorem sim_walk {f : FilePath → Bool → Bool} {mk : FilePath → Act} {t : Moment} {c d : LiveCfg} (h : Sim t c) (hh : t.hand = [])
    (hw : WalkStep L f mk t.walker d) :
    ∃ c', WalkStep L f mk c c' ∧ Sim { t with roots := d.roots, stack := d.stack, hand := d.jobs.map .inl ++ d.lints.map .inr } c' := by
  obtain ⟨h1, h2, h3, h4, h5, h6⟩ := h
  obtain ⟨g1, g2, g3⟩ := walk_more hw rfl rfl c.jobs c.lints
  have e : ({ t.walker with jobs := c.jobs, lints := c.lints } : LiveCfg) = c := by
    cases c
    simp only [Moment.walker] at *
    subst h1 h2 h3 h4
    rfl
  rw [e] at g1
  refine ⟨_, g1, g2, g3, rfl, rfl, ?_, ?_⟩
  · show Multiset.filter _ (↑(c.jobs ++ d.jobs) : Multiset (List Act)) = _
    simp only [pending, (hand_back _ _).1, ← Multiset.coe_add, Multiset.filter_add]
    rw [h5]
    simp only [pending, hh, handJobs, List.filterMap_nil, Multiset.filter_add, Multiset.coe_nil, Multiset.filter_zero]
    abel
  · show (↑(c.lints ++ d.lints) : Multiset Lint) = _
    simp only [everyLint, (hand_back _ _).2, ← Multiset.coe_add]
    rw [h6]
    simp only [everyLint, hh, handLints, List.filterMap_nil, Multiset.coe_nil]
    abel

theorem mem_jobs {t : Moment} {c : LiveCfg} (h : Sim t c) {b a : List Worker} {j : List Act} (hw : t.work = b ++ .busy j :: a) (hj : j ≠ []) : j ∈ c.jobs := by
  have : j ∈ Multiset.filter (· ≠ []) (c.jobs : Multiset (List Act)) := by
    rw [h.jobs, pending]
    simp [hw, Worker.job, hj]
  exact (Multiset.mem_filter.1 this).1

/-- The jobs after one of them was brought forward. -/
theorem jobs_moved {t : Moment} {c : LiveCfg} (h : Sim t c) {b a : List Worker} {x : Act} {rest : List Act} (hw : t.work = b ++ .busy (x :: rest) :: a)
    {b' a' : List (List Act)} (hc : c.jobs = b' ++ (x :: rest) :: a') (new : Worker) (r : List Act) (hn : Multiset.filter (· ≠ []) (↑[r] : Multiset (List Act)) = Multiset.filter (· ≠ []) (↑new.job.toList)) :
    Multiset.filter (· ≠ []) (↑(b' ++ r :: a') : Multiset (List Act)) =
      Multiset.filter (· ≠ []) (↑(handJobs t.hand) + ↑t.queue + ↑((b ++ new :: a).filterMap Worker.job)) := by
  have h5 := h.jobs
  have e1 : ∀ (u v : List (List Act)) (y : List Act), (↑(u ++ y :: v) : Multiset (List Act)) = ↑u + ↑[y] + ↑v := by
    intro u v y
    rw [show u ++ y :: v = u ++ [y] ++ v by simp]
    rfl
  have e2 : ((b ++ new :: a).filterMap Worker.job : List (List Act)) = b.filterMap Worker.job ++ new.job.toList ++ a.filterMap Worker.job := by
    cases hnj : new.job <;> simp [hnj]
  rw [hc, pending, hw, e1] at h5
  have e3 : ((b ++ Worker.busy (x :: rest) :: a).filterMap Worker.job : List (List Act)) = b.filterMap Worker.job ++ [x :: rest] ++ a.filterMap Worker.job := by
    simp [Worker.job]
  rw [e3] at h5
  rw [e1, e2]
  simp only [← Multiset.coe_add, Multiset.filter_add] at h5 ⊢
  rw [hn]
  generalize Multiset.filter (· ≠ []) (↑new.job.toList : Multiset (List Act)) = N at *
  generalize Multiset.filter (· ≠ []) (↑[x :: rest] : Multiset (List Act)) = X at *
  generalize Multiset.filter (· ≠ []) (↑b' : Multiset (List Act)) = B' at *
  generalize Multiset.filter (· ≠ []) (↑a' : Multiset (List Act)) = A' at *
  generalize Multiset.filter (· ≠ []) (↑(b.filterMap Worker.job) : Multiset (List Act)) = B at *
  generalize Multiset.filter (· ≠ []) (↑(a.filterMap Worker.job) : Multiset (List Act)) = A at *
  generalize Multiset.filter (· ≠ []) (↑(handJobs t.hand) : Multiset (List Act)) = H at *
  generalize Multiset.filter (· ≠ []) (↑t.queue : Multiset (List Act)) = Q at *
  refine add_right_cancel (b := X) ?_
  rw [show B' + N + A' + X = (B' + X + A') + N by abel, h5]
  abel

theorem hasError_perm {l l' : List Lint} (h : (l : Multiset Lint) = ↑l') : hasError l = hasError l' := by
  have hp := Multiset.coe_eq_coe.1 h
  rw [Bool.eq_iff_iff]
  unfold hasError
  simp only [List.any_eq_true]
  exact ⟨fun ⟨x, h1, h2⟩ => ⟨x, hp.mem_iff.1 h1, h2⟩, fun ⟨x, h1, h2⟩ => ⟨x, hp.mem_iff.2 h1, h2⟩⟩

/-- When the main thread goes on, nothing is left. -/
theorem over_clear {n : Nat} (hn : 0 < n) {t : Moment} (hi : Inv n t) (ho : t.Over) :
    pending t = 0 ∧ everyLint t = ↑t.got ∧ t.hand = [] ∧ t.roots = [] ∧ t.stack = [] ∧ t.queue = [] := by
  obtain ⟨o1, o2, o3⟩ := ho
  obtain ⟨h1, h2, h3⟩ := hi.closed o2
  have hq : t.queue = [] := by
    cases hw : t.work with
    | nil =>
      have := hi.count
      rw [hw] at this
      simp only [List.length_nil] at this
      omega
    | cons w ws =>
      have := o3 w (by rw [hw]; simp)
      exact (hi.ended (by rw [hw, this]; simp)).2
  have e1 : t.work.filterMap Worker.job = [] := by
    rw [List.filterMap_eq_nil_iff]
    intro w hw
    rw [o3 w hw]
    rfl
  have e2 : t.work.filterMap Worker.lint = [] := by
    rw [List.filterMap_eq_nil_iff]
    intro w hw
    rw [o3 w hw]
    rfl
  refine ⟨?_, ?_, h1, h2, h3, hq⟩
  · simp [pending, h1, hq, e1, handJobs]
  · simp [everyLint, h1, o1, e2, handLints]

theorem sim_idle {n : Nat} (hn : 0 < n) {t : Moment} {c : LiveCfg} (hi : Inv n t) (h : Sim t c) (ho : t.Over) :
    c.idle ∧ hasError c.lints = hasError t.got := by
  obtain ⟨g1, g2, _, g3, g4, _⟩ := over_clear hn hi ho
  refine ⟨⟨h.roots.trans g3, h.stack.trans g4, ?_⟩, hasError_perm (h.lints.trans g2)⟩
  intro j hj
  by_contra hne
  have : j ∈ Multiset.filter (· ≠ []) (c.jobs : Multiset (List Act)) := Multiset.mem_filter.2 ⟨hj, hne⟩
  rw [h.jobs, g1] at this
  simp at this

theorem lint_mid (b a : List Worker) (w : Worker) :
    (↑((b ++ w :: a).filterMap Worker.lint) : Multiset Lint) = ↑(b.filterMap Worker.lint) + ↑w.lint.toList + ↑(a.filterMap Worker.lint) := by
  have : ((b ++ w :: a).filterMap Worker.lint : List Lint) = b.filterMap Worker.lint ++ w.lint.toList ++ a.filterMap Worker.lint := by
    cases h : w.lint <;> simp [h]
  rw [this]
  rfl

theorem job_mid (b a : List Worker) (w : Worker) :
    (↑((b ++ w :: a).filterMap Worker.job) : Multiset (List Act)) = ↑(b.filterMap Worker.job) + ↑w.job.toList + ↑(a.filterMap Worker.job) := by
  have : ((b ++ w :: a).filterMap Worker.job : List (List Act)) = b.filterMap Worker.job ++ w.job.toList ++ a.filterMap Worker.job := by
    cases h : w.job <;> simp [h]
  rw [this]
  rfl

theorem idle_job (w : List Worker) : (w.map (fun _ => Worker.idle)).filterMap Worker.job = [] ∧ (w.map (fun _ => Worker.idle)).filterMap Worker.lint = [] := by
  constructor
  · rw [List.filterMap_eq_nil_iff]
    intro x hx
    obtain ⟨_, _, rfl⟩ := List.mem_map.1 hx
    rfl
  · rw [List.filterMap_eq_nil_iff]
    intro x hx
    obtain ⟨_, _, rfl⟩ := List.mem_map.1 hx
    rfl

theorem sim_start (n : Nat) (fs : FS) (s : Settings) : Sim (start n fs s) (LiveCfg.init fs s) := by
  have e1 : (List.replicate n Worker.idle).filterMap Worker.job = [] := by
    rw [List.filterMap_eq_nil_iff]
    intro x hx
    rw [List.eq_of_mem_replicate hx]
    rfl
  have e2 : (List.replicate n Worker.idle).filterMap Worker.lint = [] := by
    rw [List.filterMap_eq_nil_iff]
    intro x hx
    rw [List.eq_of_mem_replicate hx]
    rfl
  refine ⟨rfl, rfl, rfl, rfl, ?_, ?_⟩
  · simp [LiveCfg.init, pending, start, e1, handJobs]
  · simp [LiveCfg.init, everyLint, start, e2, handLints]

/-- Every step of a thread is a step of the phases, or none. -/
theorem sim_step {n : Nat} (hn : 0 < n) {t t' : Moment} {c : LiveCfg} (hi : Inv n t) (h : Sim t c) (hs : Step L s files t t') :
    ∃ c', LiveReaches L s files c c' ∧ Sim t' c' := by
  have one : ∀ {d : LiveCfg}, LiveStep L s files c d → LiveReaches L s files c d := fun h => Relation.ReflTransGen.single h
  cases hs with
  | findArtifacts d p q r w =>
    obtain ⟨c', g1, g2⟩ := sim_walk h r w
    exact ⟨c', one (.findArtifacts c' (h.phase.trans p) g1), g2⟩
  | findBackups d p q r w =>
    obtain ⟨c', g1, g2⟩ := sim_walk h r w
    exact ⟨c', one (.findBackups c' (h.phase.trans p) g1), g2⟩
  | sendFile j rest p q =>
    refine ⟨c, .refl, h.fs, h.phase, h.roots, h.stack, ?_, ?_⟩
    · rw [h.jobs]
      unfold pending
      congr 1
      simp only [p, handJobs, List.filterMap_cons, Sum.getLeft?_inl, ← Multiset.coe_add, ← Multiset.cons_coe, ← Multiset.singleton_add, Multiset.coe_nil]
      abel
    · rw [h.lints]
      simp only [everyLint, p, handLints, List.filterMap_cons, Sum.getRight?_inl]
  | sendLint l rest p q =>
    refine ⟨c, .refl, h.fs, h.phase, h.roots, h.stack, ?_, ?_⟩
    · rw [h.jobs]
      simp only [pending, p, handJobs, List.filterMap_cons, Sum.getLeft?_inr]
    · rw [h.lints]
      unfold everyLint
      simp only [p, handLints, List.filterMap_cons, Sum.getRight?_inr, ← Multiset.coe_add, ← Multiset.cons_coe, ← Multiset.singleton_add, Multiset.coe_nil]
      abel
  | sent p q r u => exact ⟨c, .refl, h.fs, h.phase, h.roots, h.stack, h.jobs, h.lints⟩
  | take b a j q p r =>
    refine ⟨c, .refl, h.fs, h.phase, h.roots, h.stack, ?_, ?_⟩
    · rw [h.jobs]
      unfold pending
      congr 1
      simp only [p, r, job_mid, Worker.job, Option.toList, ← Multiset.cons_coe, ← Multiset.singleton_add, Multiset.coe_nil]
      abel
    · rw [h.lints]
      unfold everyLint
      simp only [p, lint_mid, Worker.lint]
  | act b a x rest fs' p r =>
    obtain ⟨b', a', hc⟩ := List.append_of_mem (mem_jobs h p (by simp))
    refine ⟨_, one (.act b' a' x rest fs' hc (by rw [h.fs]; exact r)), rfl, h.phase, h.roots, h.stack, ?_, ?_⟩
    · exact jobs_moved h p hc (.busy rest) rest rfl
    · show (c.lints : Multiset Lint) = _
      rw [h.lints]
      unfold everyLint
      simp only [p, lint_mid, Worker.lint]
  | fail b a x rest m p =>
    obtain ⟨b', a', hc⟩ := List.append_of_mem (mem_jobs h p (by simp))
    refine ⟨_, one (.fail b' a' x rest m hc), h.fs, h.phase, h.roots, h.stack, ?_, ?_⟩
    · exact jobs_moved h p hc (.telling _) [] rfl
    · show (↑(c.lints ++ [failLint c.phase x m]) : Multiset Lint) = _
      rw [h.phase, ← Multiset.coe_add, h.lints]
      unfold everyLint
      simp only [p, lint_mid, Worker.lint, Option.toList, Multiset.coe_nil]
      abel
  | tell b a l p q =>
    refine ⟨c, .refl, h.fs, h.phase, h.roots, h.stack, ?_, ?_⟩
    · rw [h.jobs]
      unfold pending
      simp only [p, job_mid, Worker.job]
    · rw [h.lints]
      unfold everyLint
      simp only [p, lint_mid, Worker.lint, Option.toList, Multiset.coe_nil, ← Multiset.coe_add]
      abel
  | ready b a p =>
    refine ⟨c, .refl, h.fs, h.phase, h.roots, h.stack, ?_, ?_⟩
    · rw [h.jobs]
      unfold pending
      simp only [p, job_mid, Worker.job, Option.toList, Multiset.filter_add]
      rfl
    · rw [h.lints]
      unfold everyLint
      simp only [p, lint_mid, Worker.lint]
  | leave b a p q r =>
    refine ⟨c, .refl, h.fs, h.phase, h.roots, h.stack, ?_, ?_⟩
    · rw [h.jobs]
      unfold pending
      simp only [p, job_mid, Worker.job]
    · rw [h.lints]
      unfold everyLint
      simp only [p, lint_mid, Worker.lint]
  | hear l m p q =>
    refine ⟨c, .refl, h.fs, h.phase, h.roots, h.stack, h.jobs, ?_⟩
    rw [h.lints]
    unfold everyLint
    simp only [p, ← Multiset.coe_add, ← Multiset.cons_coe, ← Multiset.singleton_add, Multiset.coe_nil]
    abel
  | backupErr p q r =>
    obtain ⟨g1, g2⟩ := sim_idle hn hi h q
    exact ⟨_, one (.backupErr (h.phase.trans p) g1 (g2.trans r)), h.fs, rfl, h.roots, h.stack, h.jobs, h.lints⟩
  | backupOk p q r =>
    obtain ⟨g1, g2⟩ := sim_idle hn hi h q
    refine ⟨_, one (.backupOk (h.phase.trans p) g1 (g2.trans r)), h.fs, rfl, g1.1, g1.2.1, ?_, ?_⟩
    · have := (hand_back (files.map saveJob) []).1
      simp only [List.map_map, List.map_nil, List.append_nil, Function.comp_def] at this
      simp only [pending, Moment.next, this, (idle_job _).1]
      simp
    · have := (hand_back (files.map saveJob) []).2
      simp only [List.map_map, List.map_nil, List.append_nil, Function.comp_def] at this
      show (c.lints : Multiset Lint) = _
      rw [h.lints, (over_clear hn hi q).2.1]
      simp only [everyLint, Moment.next, this, (idle_job _).2]
      simp
  | saveErr p q r =>
    obtain ⟨g1, g2⟩ := sim_idle hn hi h q
    exact ⟨_, one (.saveErr (h.phase.trans p) g1 (g2.trans r)), h.fs, rfl, h.roots, h.stack, h.jobs, h.lints⟩
  | saveOk p q r =>
    obtain ⟨g1, g2⟩ := sim_idle hn hi h q
    refine ⟨_, one (.saveOk (h.phase.trans p) g1 (g2.trans r)), h.fs, rfl, rfl, g1.2.1, ?_, ?_⟩
    · simp only [pending, Moment.next, handJobs, (idle_job _).1]
      simp
    · show (c.lints : Multiset Lint) = _
      rw [h.lints, (over_clear hn hi q).2.1]
      simp only [everyLint, Moment.next, handLints, (idle_job _).2]
      simp
  | removeOk p q =>
    obtain ⟨g1, g2⟩ := sim_idle hn hi h q
    exact ⟨_, one (.removeOk (h.phase.trans p) g1), h.fs, rfl, h.roots, h.stack, h.jobs, h.lints⟩

theorem sim_reaches {n : Nat} (hn : 0 < n) {fs : FS} {t : Moment} (h : Reaches L s files (start n fs s) t) :
    Inv n t ∧ ∃ c, LiveReaches L s files (LiveCfg.init fs s) c ∧ Sim t c := by
  induction h with
  | refl => exact ⟨inv_start n fs s, _, .refl, sim_start n fs s⟩
  | tail _ hs ih =>
    obtain ⟨h1, c, h2, h3⟩ := ih
    obtain ⟨c', h4, h5⟩ := sim_step hn h1 h3 hs
    exact ⟨inv_step hs h1, c', h2.trans h4, h5⟩

/-- After the end of all phases nothing happens any more. -/
theorem final_over {n : Nat} {fs : FS} {t : Moment} (h : Reaches L s files (start n fs s) t) (hp : t.phase = .done ∨ ∃ k, t.phase = .failed k) : t.Over := by
  induction h with
  | refl => rcases hp with h | ⟨k, h⟩ <;> cases h
  | @tail u v hu hs ih =>
    have hi := inv_reaches hu (inv_start n fs s)
    have stuck : u.phase = .done ∨ (∃ k, u.phase = .failed k) → False := by
      intro hu
      obtain ⟨o1, o2, o3⟩ := ih hu
      have no : ∀ {b a : List Worker} {w : Worker}, u.work = b ++ w :: a → w = .ended := fun e => o3 _ (by rw [e]; simp)
      cases hs with
      | findArtifacts d p q r w => rw [q] at o2; cases o2
      | findBackups d p q r w => rw [q] at o2; cases o2
      | sendFile j rest p q => rw [(hi.closed o2).1] at p; cases p
      | sendLint l rest p q => rw [(hi.closed o2).1] at p; cases p
      | sent p q r w => rw [p] at o2; cases o2
      | take b a j q p r => cases no p
      | act b a x rest fs' p r => cases no p
      | fail b a x rest m p => cases no p
      | tell b a l p q => cases no p
      | ready b a p => cases no p
      | leave b a p q r => cases no p
      | hear l m p q => rw [o1] at p; cases p
      | _ p => rw [p] at hu; rcases hu with h | ⟨k, h⟩ <;> cases h
    cases hs with
    | _ p q => first | exact q | exact absurd hp stuck | (exfalso; simp_all [Moment.next])

end Art.Team
