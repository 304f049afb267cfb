import Verif.Lemmas.ChanRead
import Verif.Spec.Chan

/-!
# Lemmas about the threads that write a project
-/

namespace Art.Chan
open scoped BigOperators

section general
variable {ι C V : Type} [DecidableEq ι] [DecidableEq C] [Fintype ι] [Fintype C]

theorem queue_le {N : Net ι C V} {s : St ι C V} (h : Reach N s) (c : C) : (s.queue c).length ≤ N.cap c := by
  induction h with
  | refl => simp [Net.init]
  | @tail s s' hr h ih =>
    cases h with
    | send k d v rest ho ht _ hq =>
      by_cases hcd : c = d
      · subst hcd
        simp only [Function.update_self, List.length_append, List.length_singleton]
        omega
      · simpa [Function.update_of_ne hcd, St.set] using ih
    | recv k d v q ho hl hcl hsr hq =>
      by_cases hcd : c = d
      · subst hcd
        rw [hq] at ih
        simp only [Function.update_self]
        simp only [List.length_cons] at ih
        omega
      · simpa [Function.update_of_ne hcd, St.set] using ih
    | _ => exact ih

/-- A thread that cannot go on waits for room or waits for a value. -/
theorem waits {N : Net ι C V} {s : St ι C V} (hno : ∀ s', ¬ Step N s s') {i : ι} (hl : (s.th i).fate = .live) :
    (∃ c v rest, (s.th i).ops = .send c v :: rest ∧ ((s.th i).tx c = true → N.cap c ≤ (s.queue c).length)) ∨
      ∃ c, (s.th i).ops = [] ∧ (s.th i).closed = false ∧ (N.prog i).src = some c ∧ s.queue c = [] ∧ ∃ j, (s.th j).tx c = true := by
  match ho : (s.th i).ops with
  | .dropTx c :: rest => exact absurd (Step.dropTx s i c rest ho) (hno _)
  | .dropRx c :: rest => exact absurd (Step.dropRx s i c rest ho) (hno _)
  | .die :: rest => exact absurd (Step.die s i rest ho) (hno _)
  | .send c v :: rest =>
    left
    refine ⟨c, v, rest, rfl, fun htx => ?_⟩
    by_contra hq
    by_cases hrx : ∃ j, (s.th j).rx c = true
    · exact hno _ (Step.send s i c v rest ho htx hrx (by omega))
    · simp only [not_exists, Bool.not_eq_true] at hrx
      exact hno _ (Step.sendDead s i c v rest ho htx hrx)
  | [] =>
    right
    have hcl : (s.th i).closed = false := by
      by_contra hc
      exact hno _ (Step.stop s i ho hl (.inl (by simpa using hc)))
    match hs : (N.prog i).src with
    | none => exact absurd (Step.stop s i ho hl (.inr hs)) (hno _)
    | some c =>
      have hq : s.queue c = [] := by
        match hq : s.queue c with
        | [] => rfl
        | v :: q => exact absurd (Step.recv s i c v q ho hl hcl hs hq) (hno _)
      refine ⟨c, rfl, hcl, rfl, hq, ?_⟩
      by_contra hn
      simp only [not_exists, Bool.not_eq_true] at hn
      exact hno _ (Step.close s i c ho hl hcl hs hq hn)

/-- Nobody sends into `c` any more, but a thread that never gives its sender away is not over: impossible. -/
theorem over_of_closed {N : Net ι C V} {s : St ι C V} (h : Reach N s) {i j : ι} {c : C} (hc : (s.th i).closed = true) (hs : (N.prog i).src = some c)
    (ht : N.tx j c = true) (hn : ¬ Does N j (.dropTx c)) : (s.th j).fate ≠ .live := by
  intro hl
  have := (reach_th h j).txkept hl c ht fun hm => hn (does_of_full (mem_full_of_ran h hm))
  rw [(closed_inv h i c hc hs).2 j] at this
  simp at this

end general

instance : Fintype WCh := ⟨{.job, .lint}, by intro x; cases x <;> simp⟩

/-- The threads in two groups. -/
def wthEquiv (n : Nat) : Fin 2 ⊕ Fin n ≃ WTh n where
  toFun
    | .inl 0 => .main
    | .inl 1 => .walk
    | .inr k => .work k
  invFun
    | .main => .inl 0
    | .walk => .inl 1
    | .work k => .inr k
  left_inv := by
    rintro (k | k)
    · match k with
      | 0 | 1 => rfl
    · rfl
  right_inv := by intro x; cases x <;> rfl

instance (n : Nat) : Fintype (WTh n) := Fintype.ofEquiv _ (wthEquiv n)

theorem wth_sum {M : Type} [AddCommMonoid M] (n : Nat) (f : WTh n → M) : ∑ i, f i = f .main + f .walk + ∑ k, f (.work k) := by
  rw [← Equiv.sum_comp (wthEquiv n), Fintype.sum_sum_type, Fin.sum_univ_two]
  rfl

/-! ## weights -/

/-- The weight of a value in a queue. -/
def writeVal : WCh → Item → Nat
  | .job, _ => 4
  | .lint, _ => 1

/-- The weight of an action. -/
def writeOp : Op WCh Item → Nat
  | .send c v => writeVal c v + 1
  | _ => 1

theorem jobOps_weight (v : Item) : ((jobOps v).map writeOp).sum < 4 := by
  unfold jobOps
  split <;> simp [writeOp, writeVal]

/-- Weights for renaming and removing. -/
def backupWeights (n : Nat) (found : List (FilePath × Option Lint ⊕ Lint)) : Weights (backupNet n found) where
  op := writeOp
  val := writeVal
  op_pos := by intro o; cases o <;> simp [writeOp]
  send := by intro c v; simp [writeOp]
  item := by
    intro i c v h
    cases i with
    | main => cases h; simp [backupNet, backupProg, writeVal]
    | walk => simp [backupNet, backupProg] at h
    | work k => cases h; exact jobOps_weight v

/-- Weights for writing. -/
def saveWeights (q n : Nat) (files : List (FilePath × Option Lint)) : Weights (saveNet q n files) where
  op := writeOp
  val := writeVal
  op_pos := by intro o; cases o <;> simp [writeOp]
  send := by intro c v; simp [writeOp]
  item := by
    intro i c v h
    cases i with
    | main => cases h; simp [saveNet, saveProg, writeVal]
    | walk => simp [saveNet, saveProg] at h
    | work k => cases h; exact jobOps_weight v

theorem jobOps_mem {v : Item} {o : Op WCh Item} (h : o ∈ jobOps v) : ∃ l, o = .send .lint (.lint l) := by
  unfold jobOps at h
  split at h
  · exact ⟨_, by simpa using h⟩
  · simp at h

/-- What handling a file gives. -/
def jobLint : Item → Option Lint
  | .job _ o => o
  | _ => none

theorem jobOps_eq (v : Item) : jobOps v = (jobLint v).toList.map fun l => .send .lint (.lint l) := by
  cases v with
  | job p o => cases o <;> rfl
  | _ => rfl

theorem jobOps_lints (v : Item) : (jobOps v).filterMap (toChan .lint) = (jobLint v).toList.map .lint := by
  rw [jobOps_eq]
  cases jobLint v <;> simp [toChan]

/-! ## renaming and removing -/

section backup
variable {n : Nat} {found : List (FilePath × Option Lint ⊕ Lint)}

theorem backup_wired (i : WTh n) : Holder (backupNet n found) i ∨ Worker (backupNet n found) (fun | .job => 0 | .lint => 1) i := by
  cases i with
  | main =>
    left
    refine ⟨?_, fun _ => rfl, fun _ => rfl, ?_, ?_⟩
    · intro o ho
      simp only [backupNet, backupProg, List.mem_cons, List.not_mem_nil, or_false] at ho
      rcases ho with rfl | rfl <;> simp
    · intro c hc
      cases c <;> simp_all [backupNet, backupProg, backupTx]
    · intro c hc
      cases c <;> simp_all [backupNet, backupProg, writeRx]
  | walk =>
    right
    refine ⟨?_, ?_, ?_⟩
    · rintro o (h | ⟨v, h⟩ | ⟨l, h⟩)
      · simp only [backupNet, backupProg, List.mem_map] at h
        obtain ⟨x, _, rfl⟩ := h
        cases x <;> exact .inr ⟨_, _, rfl, rfl⟩
      · simp [backupNet, backupProg] at h
      · simp [backupNet, backupProg] at h
    · intro c d _ h; simp [backupNet, backupProg] at h
    · intro c hc; cases c <;> simp [backupNet, writeRx] at hc
  | work k =>
    right
    refine ⟨?_, ?_, ?_⟩
    · rintro o (h | ⟨v, h⟩ | ⟨l, h⟩)
      · simp [backupNet, backupProg] at h
      · obtain ⟨l, rfl⟩ := jobOps_mem h
        exact .inr ⟨_, _, rfl, rfl⟩
      · simp [backupNet, backupProg] at h
    · intro c d hc h; cases h; cases c <;> first | decide | exact absurd hc Bool.false_ne_true
    · intro c hc; cases c <;> simp_all [backupNet, backupProg, writeRx]

theorem backup_pool : Pool (backupNet n found) (· = .main) .job .walk n WTh.work jobOps (fun _ => false) where
  faithful := by
    refine ⟨?_, ?_, ?_⟩
    · rintro i rfl (h | ⟨v, h⟩ | ⟨l, h⟩) <;> simp [backupNet, backupProg] at h
    · rintro i rfl c v (h | ⟨v, h⟩ | ⟨l, h⟩) <;> simp [backupNet, backupProg] at h
    · rintro i rfl c hc
      cases hc
      refine ⟨rfl, ?_⟩
      rintro (h | ⟨v, h⟩ | ⟨l, h⟩) <;> simp [backupNet, backupProg] at h
  inj := fun a b h => by cases h; rfl
  only := by
    intro i
    constructor
    · intro h
      cases i <;> simp_all [backupNet, backupProg]
    · rintro ⟨k, rfl⟩
      rfl
  first := fun _ => rfl
  item := fun k v => by simp [backupNet, backupProg]
  close := fun _ _ => rfl
  sends := by
    intro v o h
    obtain ⟨l, rfl⟩ := jobOps_mem h
    exact ⟨_, _, rfl, .main, rfl, rfl⟩
  rx := fun _ => rfl
  tx := by intro i h; cases i <;> simp_all [backupNet, backupTx]
  walk_src := rfl
  walk_first := by
    intro o h
    simp only [backupNet, backupProg, List.mem_map] at h
    obtain ⟨x, _, rfl⟩ := h
    cases x
    · exact ⟨_, _, rfl, .inl rfl⟩
    · exact ⟨_, _, rfl, .inr ⟨.main, rfl, rfl⟩⟩

/-- The files that the walk finds, with what handling them will give. -/
def jobsOf (found : List (FilePath × Option Lint ⊕ Lint)) : List (FilePath × Option Lint) := found.filterMap Sum.getLeft?

theorem found_jobs : (found.map foundOps).filterMap (toChan .job) = (jobsOf found).map fun x => Item.job x.1 x.2 := by
  induction found with
  | nil => rfl
  | cons a l ih =>
    cases a with
    | inl x => simpa [foundOps, toChan, jobsOf] using ih
    | inr x => simpa [foundOps, toChan, jobsOf, List.filterMap_cons] using ih

theorem found_lints : (found.map foundOps).filterMap (toChan .lint) = (found.filterMap Sum.getRight?).map Item.lint := by
  induction found with
  | nil => rfl
  | cons a l ih =>
    cases a with
    | inl x => simpa [foundOps, toChan, List.filterMap_cons] using ih
    | inr x => simpa [foundOps, toChan] using ih

/-- When the main thread goes on, all others are over. -/
theorem backup_over {t : St (WTh n) WCh Item} (h : Reach (backupNet n found) t) (hc : (t.th .main).closed = true) :
    (∀ k, (t.th (.work k)).fate ≠ .live) ∧ (t.th .walk).fate ≠ .live := by
  refine ⟨fun k => over_of_closed h hc rfl rfl ?_, over_of_closed h hc rfl rfl ?_⟩
  · rintro (h | ⟨v, h⟩ | ⟨l, h⟩)
    · simp [backupNet, backupProg] at h
    · obtain ⟨l, h⟩ := jobOps_mem h
      simp at h
    · simp [backupNet, backupProg] at h
  · rintro (h | ⟨v, h⟩ | ⟨l, h⟩)
    · simp only [backupNet, backupProg, List.mem_map] at h
      obtain ⟨x, _, h⟩ := h
      cases x <;> simp [foundOps] at h
    · simp [backupNet, backupProg] at h
    · simp [backupNet, backupProg] at h

theorem lints_of_jobs (l : List (FilePath × Option Lint)) :
    lintsOf ((l.map fun x => Item.job x.1 x.2).flatMap fun v => (jobOps v).filterMap (toChan .lint)) = l.filterMap Prod.snd := by
  induction l with
  | nil => rfl
  | cons a l ih =>
    rw [List.map_cons, List.flatMap_cons, lintsOf_append, ih, jobOps_lints, lintsOf_map, List.filterMap_cons]
    cases h : a.2 <;> simp [jobLint, h]

theorem backup_all {t : St (WTh n) WCh Item} (hn : 0 < n) (h : Reach (backupNet n found) t) (hc : (t.th .main).closed = true) :
    t.taken .job = (jobsOf found).map (fun x => Item.job x.1 x.2) ∧
    (lintsOf (t.th .main).got).Perm (found.filterMap Sum.getRight? ++ (jobsOf found).filterMap Prod.snd) := by
  obtain ⟨ho, how⟩ := backup_over h hc
  have hp := backup_pool.over' h ho how
  have e : ((backupNet n found).prog .walk).first = found.map foundOps := rfl
  rw [e, found_jobs] at hp
  have hz : ((jobsOf found).map fun x => Item.job x.1 x.2).countP (fun _ => false) < n := by simpa using hn
  rw [upTo_lt _ _ _ hz] at hp
  refine ⟨hp.1, ?_⟩
  have h1 := closed_all h (i := .main) (c := .lint) hc rfl (by intro j hj; cases j <;> simp_all [backupNet, backupProg])
  have hm : (t.th .main).ran.filterMap (toChan .lint) = [] := by
    refine no_send h fun v => ?_
    rintro (h | ⟨_, h⟩ | ⟨_, h⟩) <;> simp [backupNet, backupProg] at h
  rw [wth_sum, hm, pool_sum' backup_pool h ho how .lint, e, found_jobs, upTo_lt _ _ _ hz, hp.2.2.1 hz, found_lints] at h1
  simp only [Multiset.coe_nil, zero_add, Multiset.coe_add, Multiset.coe_eq_coe] at h1
  have h2 := lintsOf_perm h1
  rwa [lintsOf_append, lintsOf_map, lints_of_jobs] at h2

end backup

/-! ## writing -/

section save
variable {q n : Nat} {files : List (FilePath × Option Lint)}

theorem save_first : ((saveNet q n files).prog .main).first =
    files.map (fun x => .send .job (.job x.1 x.2)) ++ [.dropRx .job, .dropTx .job, .dropTx .lint] := rfl

theorem save_does_work {k : Fin n} {o : Op WCh Item} (h : Does (saveNet q n files) (.work k) o) : ∃ l, o = .send .lint (.lint l) := by
  rcases h with h | ⟨v, h⟩ | ⟨l, h⟩
  · simp [saveNet, saveProg] at h
  · exact jobOps_mem h
  · simp [saveNet, saveProg] at h

theorem save_does_main {o : Op WCh Item} (h : Does (saveNet q n files) .main o) :
    (∃ x ∈ files, o = .send .job (.job x.1 x.2)) ∨ o = .dropRx .job ∨ o = .dropTx .job ∨ o = .dropTx .lint := by
  rcases h with h | ⟨v, h⟩ | ⟨l, h⟩
  · rw [save_first, List.mem_append, List.mem_map] at h
    rcases h with ⟨x, hx, rfl⟩ | h
    · exact .inl ⟨x, hx, rfl⟩
    · right
      simpa using h
  · simp [saveNet, saveProg] at h
  · simp [saveNet, saveProg] at h

theorem save_does_walk {o : Op WCh Item} (h : Does (saveNet q n files) .walk o) : False := by
  rcases h with h | ⟨v, h⟩ | ⟨l, h⟩ <;> simp [saveNet, saveProg] at h

theorem save_faithful (hn : 0 < n) : Faithful (saveNet q n files) (fun _ => True) := by
  refine ⟨?_, ?_, ?_⟩
  · intro i _ h
    cases i with
    | main => rcases save_does_main h with ⟨x, _, h⟩ | h | h | h <;> simp at h
    | walk => exact save_does_walk h
    | work k =>
      obtain ⟨l, h⟩ := save_does_work h
      simp at h
  · intro i _ c v h
    cases i with
    | main =>
      rcases save_does_main h with ⟨x, _, h⟩ | h | h | h
      · cases h
        exact ⟨.work ⟨0, hn⟩, trivial, rfl⟩
      all_goals simp at h
    | walk => exact (save_does_walk h).elim
    | work k =>
      obtain ⟨l, h⟩ := save_does_work h
      cases h
      exact ⟨.main, trivial, rfl⟩
  · intro i _ c hc
    cases i with
    | main =>
      cases hc
      refine ⟨rfl, fun h => ?_⟩
      rcases save_does_main h with ⟨x, _, h⟩ | h | h | h <;> simp at h
    | walk => simp [saveNet, saveProg] at hc
    | work k =>
      cases hc
      refine ⟨rfl, fun h => ?_⟩
      obtain ⟨l, h⟩ := save_does_work h
      simp at h

/-- Nobody dies. -/
theorem save_alive (hn : 0 < n) {t : St (WTh n) WCh Item} (h : Reach (saveNet q n files) t) (i : WTh n) : (t.th i).fate ≠ .died :=
  faithful_alive (save_faithful hn) h i trivial

/-- Before the main thread has done everything that it does first it has received nothing. -/
theorem main_first {t : St (WTh n) WCh Item} (h : Reach (saveNet q n files) t) :
    ((t.th .main).got = [] ∧ (t.th .main).closed = false) ∨ (t.th .main).ops = [] := by
  have := th_inv (N := saveNet q n files) (fun i t => i = .main → (t.got = [] ∧ t.closed = false) ∨ t.ops = [])
    (fun i _ => .inl ⟨rfl, rfl⟩) (by
      intro i t t' ih hs
      cases hs with
      | send c v rest ho _ => rintro rfl; exact .inl ((ih rfl).resolve_right (by rw [ho]; simp))
      | dropTx c rest ho => rintro rfl; exact .inl ((ih rfl).resolve_right (by rw [ho]; simp))
      | dropRx c rest ho => rintro rfl; exact .inl ((ih rfl).resolve_right (by rw [ho]; simp))
      | recv c v _ _ _ _ => rintro rfl; exact .inr rfl
      | close c _ _ _ _ => rintro rfl; exact .inr rfl
      | sendDead => intro _; exact .inr rfl
      | die => intro _; exact .inr rfl
      | stop => intro _; exact .inr rfl) h .main
  exact this rfl

/-- What the main thread has done and still has to do. -/
theorem main_script (hn : 0 < n) {t : St (WTh n) WCh Item} (h : Reach (saveNet q n files) t) :
    (t.th .main).ran ++ (t.th .main).ops = files.map (fun x => .send .job (.job x.1 x.2)) ++ [.dropRx .job, .dropTx .job, .dropTx .lint] := by
  have hs := (reach_th h .main).script (save_alive hn h _)
  have hi : ((saveNet q n files).prog .main).item = fun _ => [] := rfl
  have hc : ((saveNet q n files).prog .main).close = fun _ => [] := rfl
  rw [full, save_first, hi, hc] at hs
  rw [hs]
  simp

/-- While a file is still to be sent, no drop has been done. -/
theorem main_sending (hn : 0 < n) {t : St (WTh n) WCh Item} (h : Reach (saveNet q n files) t) {c : WCh} {v : Item} {rest : List (Op WCh Item)}
    (ho : (t.th .main).ops = .send c v :: rest) : c = .job ∧ ∃ a x b, files = a ++ x :: b ∧ v = .job x.1 x.2 ∧
      (t.th .main).ran = a.map (fun x => .send .job (.job x.1 x.2)) ∧
      rest = b.map (fun x => .send .job (.job x.1 x.2)) ++ [.dropRx .job, .dropTx .job, .dropTx .lint] := by
  have hs := main_script hn h
  rw [ho] at hs
  generalize (t.th .main).ran = r at hs ⊢
  clear ho h
  induction files generalizing r with
  | nil =>
    exfalso
    match r with
    | [] => simp at hs
    | [_] => simp at hs
    | [_, _] => simp at hs
    | [_, _, _] => simp at hs
    | _ :: _ :: _ :: _ :: _ => simp at hs
  | cons y l ih =>
    cases r with
    | nil =>
      simp only [List.nil_append, List.map_cons, List.cons_append, List.cons.injEq, Op.send.injEq] at hs
      exact ⟨hs.1.1, [], y, l, rfl, hs.1.2, rfl, hs.2⟩
    | cons o r =>
      simp only [List.map_cons, List.cons_append, List.cons.injEq] at hs
      obtain ⟨h1, a, x, b, h2, h3, h4, h5⟩ := ih r hs.2
      exact ⟨h1, y :: a, x, b, by rw [h2]; rfl, h3, by rw [hs.1, h4]; rfl, h5⟩

theorem save_only_main {t : St (WTh n) WCh Item} (h : Reach (saveNet q n files) t) :
    t.taken .job ++ t.queue .job = (t.th .main).ran.filterMap (toChan .job) :=
  sent_list (w := .main) (by intro i hi; cases i <;> simp_all [saveNet, saveTx]) h

/-- A worker has at most one thing to do. -/
theorem work_one {t : St (WTh n) WCh Item} (h : Reach (saveNet q n files) t) (k : Fin n) : (t.th (.work k)).ops.length ≤ 1 := by
  have := th_inv (N := saveNet q n files) (fun i t => ∀ k, i = .work k → t.ops.length ≤ 1)
    (fun i k hk => by subst hk; simp [Net.init, saveNet, saveProg]) (by
      intro i t t' ih hs
      cases hs with
      | send c v rest ho _ => intro k hk; have := ih k hk; rw [ho] at this; simp at this; simp [this]
      | dropTx c rest ho => intro k hk; have := ih k hk; rw [ho] at this; simp at this; simp [this]
      | dropRx c rest ho => intro k hk; have := ih k hk; rw [ho] at this; simp at this; simp [this]
      | recv c v _ _ _ _ =>
        rintro k rfl
        show (jobOps v).length ≤ 1
        rw [jobOps_eq]
        cases jobLint v <;> simp
      | close c _ _ _ _ => rintro k rfl; simp [saveNet, saveProg]
      | sendDead => intro k _; simp [Th.over]
      | die => intro k _; simp [Th.over]
      | stop => intro k _; simp [Th.over]) h (.work k)
  exact this k rfl

/-- Whether handling a file fails. -/
def jobFails (v : Item) : Bool := (jobLint v).isSome

/-- What a worker has received and failed with is sent or about to be sent. -/
theorem work_count (hn : 0 < n) {t : St (WTh n) WCh Item} (h : Reach (saveNet q n files) t) (k : Fin n) :
    (t.th (.work k)).got.countP jobFails = ((t.th (.work k)).ran.filterMap (toChan .lint)).length + (t.th (.work k)).ops.length := by
  have hs := (reach_th h (.work k)).script (save_alive hn h _)
  have hfull : full (saveNet q n files) (.work k) (t.th (.work k)).got (t.th (.work k)).closed = (t.th (.work k)).got.flatMap jobOps := by
    have hi : ((saveNet q n files).prog (.work k)).item = jobOps := rfl
    have hc : ((saveNet q n files).prog (.work k)).close = fun _ => [] := rfl
    have hf : ((saveNet q n files).prog (.work k)).first = [] := rfl
    rw [full, hi, hc, hf]
    simp
  rw [hfull] at hs
  have hall : ∀ l : List (Op WCh Item), (∀ o ∈ l, ∃ x, o = .send .lint (.lint x)) → (l.filterMap (toChan .lint)).length = l.length := by
    intro l hl
    induction l with
    | nil => rfl
    | cons o l ih =>
      obtain ⟨x, rfl⟩ := hl o (by simp)
      simpa [toChan] using ih fun o ho => hl o (by simp [ho])
  have hmem : ∀ o ∈ (t.th (.work k)).ran ++ (t.th (.work k)).ops, ∃ x, o = .send .lint (.lint x) := by
    intro o ho
    rw [hs, List.mem_flatMap] at ho
    obtain ⟨v, _, hv⟩ := ho
    exact jobOps_mem hv
  rw [hall _ fun o ho => hmem o (List.mem_append_left _ ho), ← List.length_append, hs]
  generalize (t.th (.work k)).got = g
  induction g with
  | nil => rfl
  | cons v g ih =>
    rw [List.flatMap_cons, List.length_append, ← ih, jobOps_eq, List.countP_cons, jobFails]
    cases jobLint v <;> simp [Nat.add_comm]

theorem save_taken {t : St (WTh n) WCh Item} (h : Reach (saveNet q n files) t) :
    ((t.taken .job : List Item) : Multiset Item) = ∑ k, ((t.th (.work k)).got : Multiset Item) := by
  rw [taken_inv h .job, wth_sum]
  simp [gotFrom, saveNet, saveProg]

theorem save_count {t : St (WTh n) WCh Item} (h : Reach (saveNet q n files) t) :
    (t.taken .job).countP jobFails = ∑ k, (t.th (.work k)).got.countP jobFails := by
  have := congrArg (Multiset.countPAddMonoidHom (fun v => jobFails v = true)) (save_taken h)
  rw [map_sum] at this
  simpa using this

theorem save_lints_sent {t : St (WTh n) WCh Item} (h : Reach (saveNet q n files) t) :
    ((t.taken .lint ++ t.queue .lint : List Item) : Multiset Item) = ∑ k, (((t.th (.work k)).ran.filterMap (toChan .lint) : List Item) : Multiset Item) := by
  rw [sent_inv h .lint, wth_sum]
  have hm : (t.th .main).ran.filterMap (toChan .lint) = [] := by
    refine no_send h fun v hd => ?_
    rcases save_does_main hd with ⟨x, _, h⟩ | h | h | h <;> simp at h
  have hw : (t.th .walk).ran.filterMap (toChan .lint) = [] := no_send h fun v hd => save_does_walk hd
  rw [hm, hw]
  simp

theorem save_taken_lint {t : St (WTh n) WCh Item} (h : Reach (saveNet q n files) t) :
    ((t.taken .lint : List Item) : Multiset Item) = ((t.th .main).got : Multiset Item) := by
  rw [taken_inv h .lint, wth_sum]
  simp [gotFrom, saveNet, saveProg]

/-- As long as the main thread has received nothing: the failures are in the queue or in the hands of workers. -/
theorem save_failures (hn : 0 < n) {t : St (WTh n) WCh Item} (h : Reach (saveNet q n files) t) (hg : (t.th .main).got = []) :
    (t.taken .job).countP jobFails = (t.queue .lint).length + ∑ k, (t.th (.work k)).ops.length := by
  have ht : t.taken .lint = [] := by
    have := save_taken_lint h
    rw [hg] at this
    simpa using this
  have hq := congrArg Multiset.card (save_lints_sent h)
  rw [ht, List.nil_append, Multiset.coe_card, Multiset.card_sum] at hq
  simp only [Multiset.coe_card] at hq
  rw [save_count h, hq, ← Finset.sum_add_distrib]
  exact Finset.sum_congr rfl fun k _ => work_count hn h k

/-- As long as the main thread has received nothing: nothing is taken after the failures fill the queue and the workers. -/
theorem save_upTo (hn : 0 < n) {t : St (WTh n) WCh Item} (h : Reach (saveNet q n files) t) : (t.th .main).got = [] →
    upTo jobFails (q + n) (t.taken .job) = t.taken .job := by
  induction h with
  | refl =>
    intro _
    simp only [Net.init]
    cases q + n <;> rfl
  | @tail s s' hr h ih =>
    cases h with
    | recv k d v r ho hl hcl hsr hq =>
      intro hg
      have hg' : (s.th .main).got = [] := by
        by_cases hk : .main = k
        · subst hk
          simp [St.set] at hg
        · simpa [St.set, Function.update_of_ne hk] using hg
      cases k with
      | main => simp [St.set] at hg
      | walk => simp [saveNet, saveProg] at hsr
      | work m =>
        cases hsr
        simp only [Function.update_self]
        refine upTo_snoc jobFails v _ _ ?_
        rw [save_failures hn hr hg']
        have h1 : (s.queue .lint).length ≤ q := queue_le hr .lint
        have h2 : ∑ k, (s.th (.work k)).ops.length < ∑ _k : Fin n, 1 :=
          Finset.sum_lt_sum (fun k _ => work_one hr k) ⟨m, Finset.mem_univ m, by rw [ho]; exact Nat.one_pos⟩
        simp at h2
        omega
    | send k d v rest ho ht _ _ =>
      intro hg
      refine ih ?_
      by_cases hk : .main = k
      · subst hk; simpa [St.set] using hg
      · simpa [St.set, Function.update_of_ne hk] using hg
    | dropTx k d rest ho =>
      intro hg
      refine ih ?_
      by_cases hk : .main = k
      · subst hk; simpa [St.set] using hg
      · simpa [St.set, Function.update_of_ne hk] using hg
    | dropRx k d rest ho =>
      intro hg
      refine ih ?_
      by_cases hk : .main = k
      · subst hk; simpa [St.set] using hg
      · simpa [St.set, Function.update_of_ne hk] using hg
    | close k d ho hl hcl hsr hq ht =>
      intro hg
      refine ih ?_
      by_cases hk : .main = k
      · subst hk; simpa [St.set] using hg
      · simpa [St.set, Function.update_of_ne hk] using hg
    | sendDead k d v rest ho ht _ =>
      intro hg
      refine ih ?_
      by_cases hk : .main = k
      · subst hk; simpa [St.set, Th.over] using hg
      · simpa [St.set, Function.update_of_ne hk] using hg
    | die k rest ho =>
      intro hg
      refine ih ?_
      by_cases hk : .main = k
      · subst hk; simpa [St.set, Th.over] using hg
      · simpa [St.set, Function.update_of_ne hk] using hg
    | stop k ho hl hc =>
      intro hg
      refine ih ?_
      by_cases hk : .main = k
      · subst hk; simpa [St.set, Th.over] using hg
      · simpa [St.set, Function.update_of_ne hk] using hg

theorem files_ran (a : List (FilePath × Option Lint)) :
    (a.map (fun x => (.send .job (.job x.1 x.2) : Op WCh Item))).filterMap (toChan .job) = a.map fun x => Item.job x.1 x.2 := by
  simp [List.filterMap_map, Function.comp_def, toChan]

theorem files_fails (a : List (FilePath × Option Lint)) : (a.map fun x => Item.job x.1 x.2).countP jobFails = a.countP fun x => x.2.isSome := by
  rw [List.countP_map]
  rfl

/-- A state in which nothing can go on: all is over, or the main thread waits for room while all failures wait for it. -/
theorem save_stuck (hn : 0 < n) (hq : 0 < q) {t : St (WTh n) WCh Item} (h : Reach (saveNet q n files) t) (hno : ∀ t', ¬ Step (saveNet q n files) t t') :
    t.Over ∨ ∃ a b, files = a ++ b ∧ q + n ≤ a.countP (fun x => x.2.isSome) ∧ q < b.length := by
  have workTx : ∀ k : Fin n, (t.th (.work k)).fate = .live → (t.th (.work k)).tx .lint = true := fun k hl =>
    (reach_th h (.work k)).txkept hl .lint rfl fun hm => by
      obtain ⟨l, hd⟩ := save_does_work (does_of_full (mem_full_of_ran h hm))
      simp at hd
  have hwalk : (t.th .walk).fate ≠ .live := by
    intro hl
    rcases waits hno hl with ⟨c, v, rest, ho, _⟩ | ⟨c, _, _, hs, _⟩
    · exact save_does_walk (does_of_full (mem_full (o := .send c v) h (by rw [hl]; simp) (by rw [ho]; simp)))
    · simp [saveNet, saveProg] at hs
  by_cases hl : (t.th .main).fate = .live
  · rcases waits hno hl with ⟨c, v, rest, ho, hfull⟩ | ⟨c, ho, hcl, hs, hqe, j, hj⟩
    · right
      obtain ⟨rfl, a, x, b, hf, hv, hran, hrest⟩ := main_sending hn h ho
      have htx : (t.th .main).tx .job = true := (reach_th h .main).txkept hl .job rfl (by rw [hran]; simp)
      have hqj : q ≤ (t.queue .job).length := hfull htx
      have hg : (t.th .main).got = [] := ((main_first h).resolve_right (by rw [ho]; simp)).1
      -- every worker waits for room
      have hw : ∀ k : Fin n, (t.th (.work k)).ops.length = 1 ∧ q ≤ (t.queue .lint).length := by
        intro k
        have hkl : (t.th (.work k)).fate = .live := by
          match hf : (t.th (.work k)).fate with
          | .live => rfl
          | .died => exact absurd hf (save_alive hn h _)
          | .ended =>
            have hc := ((reach_th h (.work k)).ended hf).resolve_right (by simp [saveNet, saveProg])
            rw [(closed_inv h (.work k) .job hc rfl).2 .main] at htx
            simp at htx
        rcases waits hno hkl with ⟨c, v, rest, hok, hfullk⟩ | ⟨c, _, _, hs, hqe, _⟩
        · obtain ⟨l, hd⟩ := save_does_work (does_of_full (mem_full (o := .send c v) h (by rw [hkl]; simp) (by rw [hok]; simp)))
          cases hd
          refine ⟨?_, hfullk (workTx k hkl)⟩
          have := work_one h k
          rw [hok] at this ⊢
          simp only [List.length_cons] at this ⊢
          omega
        · cases hs
          rw [hqe] at hqj
          simp at hqj
          omega
      have hcount := save_failures hn h hg
      rw [Finset.sum_congr rfl fun k _ => (hw k).1] at hcount
      simp only [Finset.sum_const, Finset.card_univ, Fintype.card_fin, smul_eq_mul, mul_one] at hcount
      have hsent := save_only_main h
      rw [hran, files_ran] at hsent
      -- the files that were taken
      have hlen := congrArg List.length hsent
      rw [List.length_append, List.length_map] at hlen
      have htake : t.taken .job = (a.take (t.taken .job).length).map fun x => Item.job x.1 x.2 := by
        rw [List.map_take, ← hsent, List.take_left']
        rfl
      refine ⟨a.take (t.taken .job).length, a.drop (t.taken .job).length ++ x :: b, ?_, ?_, ?_⟩
      · rw [← List.append_assoc, List.take_append_drop, hf]
      · rw [← files_fails, ← htake, hcount]
        have := (hw ⟨0, hn⟩).2
        omega
      · simp only [List.length_append, List.length_drop, List.length_cons]
        omega
    · exfalso
      cases hs
      have hran : (t.th .main).ran = files.map (fun x => .send .job (.job x.1 x.2)) ++ [.dropRx .job, .dropTx .job, .dropTx .lint] := by
        have := main_script hn h
        rwa [ho, List.append_nil] at this
      cases j with
      | main =>
        rw [(reach_th h .main).txdrop .lint (by rw [hran]; simp)] at hj
        simp at hj
      | walk =>
        have := (reach_th h .walk).txle _ hj
        simp [saveNet, saveTx] at this
      | work k =>
        have hkl : (t.th (.work k)).fate = .live := by
          by_contra hn'
          rw [((reach_th h (.work k)).over_ops hn').2.1] at hj
          simp at hj
        rcases waits hno hkl with ⟨c, v, rest, hok, hfullk⟩ | ⟨c, _, _, hs, hqe', j, hj'⟩
        · obtain ⟨l, hd⟩ := save_does_work (does_of_full (mem_full (o := .send c v) h (by rw [hkl]; simp) (by rw [hok]; simp)))
          cases hd
          have : q ≤ (t.queue .lint).length := hfullk (workTx k hkl)
          rw [hqe] at this
          simp at this
          omega
        · cases hs
          have hjm : j = .main := by
            have := (reach_th h j).txle _ hj'
            cases j <;> simp_all [saveNet, saveTx]
          subst hjm
          rw [(reach_th h .main).txdrop .job (by rw [hran]; simp)] at hj'
          simp at hj'
  · left
    have he : (t.th .main).fate = .ended := by
      match hf : (t.th .main).fate with
      | .live => exact absurd hf hl
      | .ended => rfl
      | .died => exact absurd hf (save_alive hn h _)
    have hc := ((reach_th h .main).ended he).resolve_right (by simp [saveNet, saveProg])
    intro i
    cases i with
    | main => exact hl
    | walk => exact hwalk
    | work k =>
      intro hkl
      have := workTx k hkl
      rw [(closed_inv h .main .lint hc rfl).2] at this
      simp at this

/-- If the failures fill the queue and the workers while more files remain than the queue has room for, then the main thread never sends the last file. -/
theorem save_sending (hn : 0 < n) (hb : ∃ a b, files = a ++ b ∧ q + n ≤ a.countP (fun x => x.2.isSome) ∧ q < b.length) {t : St (WTh n) WCh Item}
    (h : Reach (saveNet q n files) t) : ∃ v rest, (t.th .main).ops = .send .job v :: rest := by
  induction h with
  | refl =>
    obtain ⟨a, b, rfl, _, hlen⟩ := hb
    cases hab : a ++ b with
    | nil =>
      simp only [List.append_eq_nil_iff] at hab
      rw [hab.2] at hlen
      simp at hlen
    | cons x l => exact ⟨_, _, by simp [Net.init, saveNet, saveProg]; exact ⟨rfl, rfl⟩⟩
  | @tail s s' hr h ih =>
    obtain ⟨v, rest, ho⟩ := ih
    have hr' : Reach (saveNet q n files) s' := Relation.ReflTransGen.tail hr h
    obtain ⟨k, hk, hj⟩ := step_th h
    by_cases hkm : .main = k
    · subst hkm
      have hdied := save_alive hn hr' .main
      have hgot : (s.th .main).got = [] := ((main_first hr).resolve_right (by rw [ho]; simp)).1
      obtain ⟨_, a', x, b', hf, hv, hran, hrest⟩ := main_sending hn hr ho
      have hops : (s'.th .main).ops = rest ∧ (s'.th .main).ran = (s.th .main).ran ++ [.send .job v] ∧ (s'.th .main).got = (s.th .main).got := by
        generalize s'.th .main = t' at hk hdied
        cases hk with
        | send c v' rest' ho' _ =>
          rw [ho] at ho'
          cases ho'
          exact ⟨rfl, rfl, rfl⟩
        | sendDead => exact absurd rfl hdied
        | dropTx c rest' ho' => rw [ho] at ho'; simp at ho'
        | dropRx c rest' ho' => rw [ho] at ho'; simp at ho'
        | die rest' ho' => rw [ho] at ho'; simp at ho'
        | recv c v' ho' _ _ _ => rw [ho] at ho'; simp at ho'
        | close c ho' _ _ _ => rw [ho] at ho'; simp at ho'
        | stop ho' _ _ => rw [ho] at ho'; simp at ho'
      rw [hops.1, hrest]
      cases b' with
      | cons y b' => exact ⟨_, _, rfl⟩
      | nil =>
        exfalso
        have hup := save_upTo hn hr' (by rw [hops.2.2, hgot])
        have hsent := save_only_main hr'
        rw [hops.2.1, hran, hv] at hsent
        have hsent' : s'.taken .job ++ s'.queue .job = files.map fun x => Item.job x.1 x.2 := by
          rw [hsent, hf, List.filterMap_append, files_ran]
          simp [toChan]
        obtain ⟨a, b, hab, hcount, hlen⟩ := hb
        have hle := queue_le hr' .job
        have hlen' := congrArg List.length hsent'
        rw [List.length_append, List.length_map, hab, List.length_append] at hlen'
        have hcap : (saveNet q n files).cap .job = q := rfl
        rw [hcap] at hle
        -- what was taken is longer than `a`
        have hsplit : s'.taken .job = (a.map fun x => Item.job x.1 x.2) ++ (s'.taken .job).drop a.length := by
          have h1 : (s'.taken .job).take a.length = a.map fun x => Item.job x.1 x.2 := by
            have h2 := congrArg (List.take a.length) hsent'
            rw [List.take_append_of_le_length (by omega), hab, List.map_append, List.take_left' (by simp)] at h2
            exact h2
          rw [← h1, List.take_append_drop]
        have hua : upTo jobFails (q + n) (s'.taken .job) <+: a.map fun x => Item.job x.1 x.2 := by
          rw [hsplit]
          exact upTo_prefix jobFails _ _ _ (by rw [files_fails]; exact hcount)
        rw [hup] at hua
        have := hua.length_le
        rw [List.length_map] at this
        omega
    · rw [hj .main hkm]
      exact ⟨v, rest, ho⟩

/-- When the main thread goes on, all workers are over. -/
theorem save_over {t : St (WTh n) WCh Item} (h : Reach (saveNet q n files) t) (hc : (t.th .main).closed = true) (k : Fin n) :
    (t.th (.work k)).fate ≠ .live := by
  refine over_of_closed h hc rfl rfl fun hd => ?_
  obtain ⟨l, hd⟩ := save_does_work hd
  simp at hd

theorem save_all (hn : 0 < n) {t : St (WTh n) WCh Item} (h : Reach (saveNet q n files) t) (hc : (t.th .main).closed = true) :
    t.taken .job = files.map (fun x => Item.job x.1 x.2) ∧ (lintsOf (t.th .main).got).Perm (files.filterMap Prod.snd) := by
  have hops : (t.th .main).ops = [] := (main_first h).resolve_left (by rw [hc]; simp)
  have hran := main_script hn h
  rw [hops, List.append_nil] at hran
  have ended : ∀ k : Fin n, (t.th (.work k)).fate = .ended := by
    intro k
    match hf : (t.th (.work k)).fate with
    | .live => exact absurd hf (save_over h hc k)
    | .ended => rfl
    | .died => exact absurd hf (save_alive hn h _)
  have hq : t.queue .job = [] :=
    (closed_inv h (.work ⟨0, hn⟩) .job (((reach_th h (.work ⟨0, hn⟩)).ended (ended _)).resolve_right (by simp [saveNet, saveProg])) rfl).1
  have htaken : t.taken .job = files.map (fun x => Item.job x.1 x.2) := by
    have := save_only_main h
    rw [hq, List.append_nil, hran, List.filterMap_append, files_ran] at this
    rw [this]
    simp [toChan]
  refine ⟨htaken, ?_⟩
  have h1 := closed_all h (i := .main) (c := .lint) hc rfl (by intro j hj; cases j <;> simp_all [saveNet, saveProg])
  have hm : (t.th .main).ran.filterMap (toChan .lint) = [] := by
    refine no_send h fun v hd => ?_
    rcases save_does_main hd with ⟨x, _, h⟩ | h | h | h <;> simp at h
  have hw : (t.th .walk).ran.filterMap (toChan .lint) = [] := no_send h fun v hd => save_does_walk hd
  have hk : ∀ k : Fin n, (t.th (.work k)).ran.filterMap (toChan .lint) = (t.th (.work k)).got.flatMap fun v => (jobOps v).filterMap (toChan .lint) := by
    intro k
    have hs := (reach_th h (.work k)).script (save_alive hn h _)
    have hi : ((saveNet q n files).prog (.work k)).item = jobOps := rfl
    have hcl : ((saveNet q n files).prog (.work k)).close = fun _ => [] := rfl
    have hf : ((saveNet q n files).prog (.work k)).first = [] := rfl
    rw [((reach_th h (.work k)).over_ops (save_over h hc k)).1, List.append_nil, full, hi, hcl, hf] at hs
    rw [hs]
    simp [List.filterMap_flatMap]
  rw [wth_sum, hm, hw, Finset.sum_congr rfl fun k _ => congrArg (fun x : List Item => (x : Multiset Item)) (hk k),
    sum_flatMap (fun k => (t.th (.work k)).got) _ _ (save_taken h), htaken] at h1
  simp only [Multiset.coe_nil, zero_add, Multiset.coe_eq_coe] at h1
  have h2 := lintsOf_perm h1
  rwa [lints_of_jobs] at h2

end save

end Art.Chan
