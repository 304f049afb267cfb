import Verif.Model.Chan
import Mathlib.Algebra.BigOperators.Group.Finset.Basic
import Mathlib.Algebra.Order.BigOperators.Group.Finset
import Mathlib.Data.Fintype.Basic
import Mathlib.Data.Fintype.Sum
import Mathlib.Algebra.Order.BigOperators.Group.List
import Mathlib.Order.WellFounded
import Mathlib.Data.Prod.Lex

/-!
Lemmas about threads and channels: what holds in every reachable state, when everything ends, and when nothing waits for ever.
-/

namespace Art.Chan

set_option linter.unusedSectionVars false

variable {ι C V : Type} [DecidableEq ι] [DecidableEq C]

theorem sum_update {M : Type} [AddCommMonoid M] [Fintype ι] {α : Type} (f : α → M) (g : ι → α) (i : ι) (x : α) :
    (∑ j, f (Function.update g i x j)) + f (g i) = (∑ j, f (g j)) + f x := by
  rw [← Finset.add_sum_erase _ _ (Finset.mem_univ i), ← Finset.add_sum_erase (Finset.univ) (fun j => f (g j)) (Finset.mem_univ i)]
  have : ∑ j ∈ Finset.univ.erase i, f (Function.update g i x j) = ∑ j ∈ Finset.univ.erase i, f (g j) := by
    apply Finset.sum_congr rfl
    intro j hj
    rw [Function.update_of_ne (Finset.ne_of_mem_erase hj)]
  rw [this]
  simp only [Function.update_self]
  rw [add_comm (f x), add_comm (f (g i)), add_assoc, add_assoc, add_comm (f x)]

/-! ## everything ends -/

/-- Weights that go down with every step. -/
structure Weights (N : Net ι C V) where
  op : Op C V → Nat
  val : C → V → Nat
  op_pos : ∀ o, 0 < op o
  send : ∀ c v, val c v < op (.send c v)
  item : ∀ i c v, (N.prog i).src = some c → (((N.prog i).item v).map op).sum < val c v

variable [Fintype ι] [Fintype C]

/-- Whether a loop goes on. -/
def thOpen (t : Th C V) : Nat := if t.closed then 0 else 1

/-- How many loops go on. -/
def openCount (s : St ι C V) : Nat := ∑ i, thOpen (s.th i)

/-- What is left to do for a thread. -/
def thWeight {N : Net ι C V} (W : Weights N) (t : Th C V) : Nat := ((t.ops.map W.op).sum + if t.fate = .live then 1 else 0)

/-- What is left to do. -/
def weight {N : Net ι C V} (W : Weights N) (s : St ι C V) : Nat :=
  (∑ i, thWeight W (s.th i)) + ∑ c, ((s.queue c).map (W.val c)).sum

theorem weight_set {N : Net ι C V} (W : Weights N) (s : St ι C V) (i : ι) (t : Th C V) :
    weight W (s.set i t) + thWeight W (s.th i) = weight W s + thWeight W t := by
  have := sum_update (thWeight W) s.th i t
  simp only [weight, St.set]
  omega

theorem weight_queue {N : Net ι C V} (W : Weights N) (s : St ι C V) (c : C) (q : List V) :
    weight W { s with queue := Function.update s.queue c q } + ((s.queue c).map (W.val c)).sum = weight W s + (q.map (W.val c)).sum := by
  have h : (∑ d, ((Function.update s.queue c q d).map (W.val d)).sum) + ((s.queue c).map (W.val c)).sum =
      (∑ d, ((s.queue d).map (W.val d)).sum) + (q.map (W.val c)).sum := by
    rw [← Finset.add_sum_erase _ _ (Finset.mem_univ c), ← Finset.add_sum_erase (Finset.univ) (fun d => ((s.queue d).map (W.val d)).sum) (Finset.mem_univ c)]
    have : ∑ d ∈ Finset.univ.erase c, ((Function.update s.queue c q d).map (W.val d)).sum = ∑ d ∈ Finset.univ.erase c, ((s.queue d).map (W.val d)).sum := by
      apply Finset.sum_congr rfl
      intro d hd
      rw [Function.update_of_ne (Finset.ne_of_mem_erase hd)]
    rw [this]
    simp only [Function.update_self]
    omega
  simp only [weight]
  omega

theorem openCount_set (s : St ι C V) (i : ι) (t : Th C V) :
    openCount (s.set i t) + thOpen (s.th i) = openCount s + thOpen t := sum_update thOpen s.th i t

/-- A step makes the measure smaller. -/
theorem step_smaller {N : Net ι C V} (W : Weights N) {s s' : St ι C V} (h : Step N s s') :
    openCount s' < openCount s ∨ openCount s' = openCount s ∧ weight W s' < weight W s := by
  cases h with
  | send i c v rest ho ht hr hq =>
    right
    have h1 := openCount_set s i { s.th i with ops := rest, ran := (s.th i).ran ++ [.send c v] }
    have h2 := weight_set W s i { s.th i with ops := rest, ran := (s.th i).ran ++ [.send c v] }
    have h3 := weight_queue W (s.set i { s.th i with ops := rest, ran := (s.th i).ran ++ [.send c v] }) c (s.queue c ++ [v])
    have h4 := W.send c v
    refine ⟨by exact Nat.add_right_cancel h1, ?_⟩
    simp only [thWeight, ho, List.map_cons, List.sum_cons] at h2
    simp only [St.set, List.map_append, List.sum_append, List.map_cons, List.map_nil, List.sum_cons, List.sum_nil] at h2 h3 ⊢
    omega
  | sendDead i c v rest ho ht hr =>
    right
    have h1 := openCount_set s i ((s.th i).over .died)
    have h2 := weight_set W s i ((s.th i).over .died)
    have h4 := W.op_pos (.send c v)
    refine ⟨by exact Nat.add_right_cancel h1, ?_⟩
    simp only [thWeight, ho, List.map_cons, List.sum_cons, Th.over, List.map_nil, List.sum_nil, reduceCtorEq, if_false] at h2 ⊢
    omega
  | die i rest ho =>
    right
    have h1 := openCount_set s i ((s.th i).over .died)
    have h2 := weight_set W s i ((s.th i).over .died)
    have h4 := W.op_pos .die
    refine ⟨by exact Nat.add_right_cancel h1, ?_⟩
    simp only [thWeight, ho, List.map_cons, List.sum_cons, Th.over, List.map_nil, List.sum_nil, reduceCtorEq, if_false] at h2 ⊢
    omega
  | dropTx i c rest ho =>
    right
    have h1 := openCount_set s i { s.th i with ops := rest, tx := Function.update (s.th i).tx c false, ran := (s.th i).ran ++ [.dropTx c] }
    have h2 := weight_set W s i { s.th i with ops := rest, tx := Function.update (s.th i).tx c false, ran := (s.th i).ran ++ [.dropTx c] }
    have h4 := W.op_pos (.dropTx c)
    refine ⟨by exact Nat.add_right_cancel h1, ?_⟩
    simp only [thWeight, ho, List.map_cons, List.sum_cons] at h2 ⊢
    omega
  | dropRx i c rest ho =>
    right
    have h1 := openCount_set s i { s.th i with ops := rest, rx := Function.update (s.th i).rx c false, ran := (s.th i).ran ++ [.dropRx c] }
    have h2 := weight_set W s i { s.th i with ops := rest, rx := Function.update (s.th i).rx c false, ran := (s.th i).ran ++ [.dropRx c] }
    have h4 := W.op_pos (.dropRx c)
    refine ⟨by exact Nat.add_right_cancel h1, ?_⟩
    simp only [thWeight, ho, List.map_cons, List.sum_cons] at h2 ⊢
    omega
  | recv i c v q ho hl hc hs hq =>
    right
    have h1 := openCount_set s i { s.th i with ops := (N.prog i).item v, got := (s.th i).got ++ [v] }
    have h2 := weight_set W s i { s.th i with ops := (N.prog i).item v, got := (s.th i).got ++ [v] }
    have h3 := weight_queue W (s.set i { s.th i with ops := (N.prog i).item v, got := (s.th i).got ++ [v] }) c q
    have h4 := W.item i c v hs
    refine ⟨by exact Nat.add_right_cancel h1, ?_⟩
    simp only [thWeight, ho, List.map_nil, List.sum_nil] at h2
    simp only [St.set, hq, List.map_cons, List.sum_cons] at h2 h3 ⊢
    simp only [weight] at h2 h3 ⊢
    omega
  | close i c ho hl hc hs hq ht =>
    left
    have h1 := openCount_set s i { s.th i with ops := (N.prog i).close (s.th i).got, closed := true }
    have h2 : thOpen (s.th i) = 1 := by simp [thOpen, hc]
    have h3 : openCount (s.set i { s.th i with ops := (N.prog i).close (s.th i).got, closed := true }) + 1 = openCount s + 0 := by
      rw [← h2]
      exact h1
    omega
  | stop i ho hl hc =>
    right
    have h1 := openCount_set s i ((s.th i).over .ended)
    have h2 := weight_set W s i ((s.th i).over .ended)
    refine ⟨by exact Nat.add_right_cancel h1, ?_⟩
    simp only [thWeight, ho, hl, Th.over, List.map_nil, List.sum_nil, reduceCtorEq, if_false, if_true] at h2 ⊢
    omega

/-- There is no endless execution. -/
theorem ends {N : Net ι C V} (W : Weights N) : WellFounded (fun s' s : St ι C V => Step N s s') := by
  refine Subrelation.wf (r := InvImage (Prod.Lex (· < ·) (· < ·)) fun s => (openCount s, weight W s)) ?_
    (InvImage.wf _ (WellFounded.prod_lex Nat.lt_wfRel.wf Nat.lt_wfRel.wf))
  intro s' s h
  rcases step_smaller W h with h | ⟨h, h'⟩
  · exact Prod.Lex.left _ _ h
  · simp only [InvImage, h]
    exact Prod.Lex.right _ h'

/-! ## what holds for one thread -/

/-- A step as one thread sees it. -/
inductive ThStep (N : Net ι C V) (i : ι) : Th C V → Th C V → Prop where
  | send (t : Th C V) (c : C) (v : V) (rest : List (Op C V)) : t.ops = .send c v :: rest → t.tx c = true →
      ThStep N i t { t with ops := rest, ran := t.ran ++ [.send c v] }
  | sendDead (t : Th C V) (c : C) (v : V) (rest : List (Op C V)) : t.ops = .send c v :: rest → t.tx c = true →
      ThStep N i t (t.over .died)
  | dropTx (t : Th C V) (c : C) (rest : List (Op C V)) : t.ops = .dropTx c :: rest →
      ThStep N i t { t with ops := rest, tx := Function.update t.tx c false, ran := t.ran ++ [.dropTx c] }
  | dropRx (t : Th C V) (c : C) (rest : List (Op C V)) : t.ops = .dropRx c :: rest →
      ThStep N i t { t with ops := rest, rx := Function.update t.rx c false, ran := t.ran ++ [.dropRx c] }
  | die (t : Th C V) (rest : List (Op C V)) : t.ops = .die :: rest → ThStep N i t (t.over .died)
  | recv (t : Th C V) (c : C) (v : V) : t.ops = [] → t.fate = .live → t.closed = false → (N.prog i).src = some c →
      ThStep N i t { t with ops := (N.prog i).item v, got := t.got ++ [v] }
  | close (t : Th C V) (c : C) : t.ops = [] → t.fate = .live → t.closed = false → (N.prog i).src = some c →
      ThStep N i t { t with ops := (N.prog i).close t.got, closed := true }
  | stop (t : Th C V) : t.ops = [] → t.fate = .live → (t.closed = true ∨ (N.prog i).src = none) → ThStep N i t (t.over .ended)

theorem step_th {N : Net ι C V} {s s' : St ι C V} (h : Step N s s') :
    ∃ i, ThStep N i (s.th i) (s'.th i) ∧ ∀ j, j ≠ i → s'.th j = s.th j := by
  cases h with
  | send i c v rest ho ht _ _ =>
    refine ⟨i, ?_, fun j hj => by simp [St.set, Function.update_of_ne hj]⟩
    simpa [St.set] using ThStep.send (s.th i) c v rest ho ht
  | sendDead i c v rest ho ht _ =>
    refine ⟨i, ?_, fun j hj => by simp [St.set, Function.update_of_ne hj]⟩
    simpa [St.set] using ThStep.sendDead (s.th i) c v rest ho ht
  | dropTx i c rest ho =>
    refine ⟨i, ?_, fun j hj => by simp [St.set, Function.update_of_ne hj]⟩
    simpa [St.set] using ThStep.dropTx (s.th i) c rest ho
  | dropRx i c rest ho =>
    refine ⟨i, ?_, fun j hj => by simp [St.set, Function.update_of_ne hj]⟩
    simpa [St.set] using ThStep.dropRx (s.th i) c rest ho
  | die i rest ho =>
    refine ⟨i, ?_, fun j hj => by simp [St.set, Function.update_of_ne hj]⟩
    simpa [St.set] using ThStep.die (s.th i) rest ho
  | recv i c v q ho hl hc hs _ =>
    refine ⟨i, ?_, fun j hj => by simp [St.set, Function.update_of_ne hj]⟩
    simpa [St.set] using ThStep.recv (s.th i) c v ho hl hc hs
  | close i c ho hl hc hs _ _ =>
    refine ⟨i, ?_, fun j hj => by simp [St.set, Function.update_of_ne hj]⟩
    simpa [St.set] using ThStep.close (s.th i) c ho hl hc hs
  | stop i ho hl hc =>
    refine ⟨i, ?_, fun j hj => by simp [St.set, Function.update_of_ne hj]⟩
    simpa [St.set] using ThStep.stop (s.th i) ho hl hc

/-- An invariant of one thread. -/
theorem th_inv {N : Net ι C V} (P : ι → Th C V → Prop) (h0 : ∀ i, P i (N.init.th i))
    (hs : ∀ i t t', P i t → ThStep N i t t' → P i t') {s : St ι C V} (h : Reach N s) : ∀ i, P i (s.th i) := by
  induction h with
  | refl => exact h0
  | tail _ h ih =>
    obtain ⟨i, hi, hj⟩ := step_th h
    intro j
    by_cases hji : j = i
    · subst hji
      exact hs j _ _ (ih j) hi
    · rw [hj j hji]
      exact ih j

/-- Everything that a thread does, given what it receives. -/
def full (N : Net ι C V) (i : ι) (got : List V) (closed : Bool) : List (Op C V) :=
  (N.prog i).first ++ got.flatMap (N.prog i).item ++ (if closed then (N.prog i).close got else [])

/-- What holds for each thread. -/
structure ThInv (N : Net ι C V) (i : ι) (t : Th C V) : Prop where
  over_ops : t.fate ≠ .live → t.ops = [] ∧ (∀ c, t.tx c = false) ∧ ∀ c, t.rx c = false
  script : t.fate ≠ .died → t.ran ++ t.ops = full N i t.got t.closed
  prefix_ : t.ran <+: full N i t.got t.closed
  txle : ∀ c, t.tx c = true → N.tx i c = true
  rxle : ∀ c, t.rx c = true → N.rx i c = true
  txdrop : ∀ c, .dropTx c ∈ t.ran → t.tx c = false
  rxdrop : ∀ c, .dropRx c ∈ t.ran → t.rx c = false
  txkept : t.fate = .live → ∀ c, N.tx i c = true → .dropTx c ∉ t.ran → t.tx c = true
  rxkept : t.fate = .live → ∀ c, N.rx i c = true → .dropRx c ∉ t.ran → t.rx c = true
  ended : t.fate = .ended → t.closed = true ∨ (N.prog i).src = none
  closed_src : t.closed = true → (N.prog i).src ≠ none
  nodie : .die ∉ t.ran

theorem over_inv {N : Net ι C V} {i : ι} {t : Th C V} (h : ThInv N i t) (f : Fate) (hf : f = .died ∨ t.ops = []) (hl : t.fate = .live)
    (he : f = .ended → t.closed = true ∨ (N.prog i).src = none) (hn : f ≠ .live) : ThInv N i (t.over f) where
  over_ops := fun _ => ⟨rfl, fun _ => rfl, fun _ => rfl⟩
  script := fun hd => by
    rcases hf with hf | hf
    · exact absurd hf hd
    · have := h.script (by rw [hl]; simp)
      rw [hf] at this
      exact this
  prefix_ := h.prefix_
  txle := fun c hc => by simp [Th.over] at hc
  rxle := fun c hc => by simp [Th.over] at hc
  txdrop := fun _ _ => rfl
  rxdrop := fun _ _ => rfl
  txkept := fun hl' => absurd hl' hn
  rxkept := fun hl' => absurd hl' hn
  ended := he
  closed_src := h.closed_src
  nodie := h.nodie

theorem th_inv_init (N : Net ι C V) (i : ι) : ThInv N i (N.init.th i) := by
  constructor <;> simp [Net.init, full]

theorem th_inv_step {N : Net ι C V} (i : ι) (t t' : Th C V) (h : ThInv N i t) (hs : ThStep N i t t') : ThInv N i t' := by
  have live_of : ∀ {o r}, t.ops = o :: r → t.fate = .live := by
    intro o r ho
    by_contra hl
    rw [(h.over_ops hl).1] at ho
    simp at ho
  cases hs with
  | send c v rest ho ht =>
    have hl := live_of ho
    have hsc := h.script (by rw [hl]; simp)
    rw [ho] at hsc
    refine ⟨fun hd => absurd hl hd, fun _ => by rw [← hsc]; simp, ⟨rest, by rw [← hsc]; simp⟩, h.txle, h.rxle, ?_, ?_, ?_, ?_, h.ended, h.closed_src, ?_⟩
    · intro c' hc'
      simp at hc'
      exact h.txdrop c' hc'
    · intro c' hc'
      simp at hc'
      exact h.rxdrop c' hc'
    · intro _ c' hc' hd
      simp at hd
      exact h.txkept hl c' hc' hd
    · intro _ c' hc' hd
      simp at hd
      exact h.rxkept hl c' hc' hd
    · simpa using h.nodie
  | sendDead c v rest ho ht => exact over_inv h _ (.inl rfl) (live_of ho) (by simp) (by simp)
  | die rest ho => exact over_inv h _ (.inl rfl) (live_of ho) (by simp) (by simp)
  | stop ho hl hc => exact over_inv h _ (.inr ho) hl (fun _ => hc) (by simp)
  | dropTx c rest ho =>
    have hl := live_of ho
    have hsc := h.script (by rw [hl]; simp)
    rw [ho] at hsc
    refine ⟨fun hd => absurd hl hd, fun _ => by rw [← hsc]; simp, ⟨rest, by rw [← hsc]; simp⟩, ?_, h.rxle, ?_, ?_, ?_, ?_, h.ended, h.closed_src, ?_⟩
    · intro c' hc'
      by_cases hcc : c' = c
      · subst hcc
        simp at hc'
      · simp only [Function.update_of_ne hcc] at hc'
        exact h.txle c' hc'
    · intro c' hc'
      simp only [List.mem_append, List.mem_singleton, Op.dropTx.injEq] at hc'
      by_cases hcc : c' = c
      · subst hcc
        simp
      · simp only [Function.update_of_ne hcc]
        exact h.txdrop c' (hc'.resolve_right hcc)
    · intro c' hc'
      simp at hc'
      exact h.rxdrop c' hc'
    · intro _ c' hc' hd
      simp only [List.mem_append, List.mem_singleton, Op.dropTx.injEq, not_or] at hd
      simp only [Function.update_of_ne hd.2]
      exact h.txkept hl c' hc' hd.1
    · intro _ c' hc' hd
      simp at hd
      exact h.rxkept hl c' hc' hd
    · simpa using h.nodie
  | dropRx c rest ho =>
    have hl := live_of ho
    have hsc := h.script (by rw [hl]; simp)
    rw [ho] at hsc
    refine ⟨fun hd => absurd hl hd, fun _ => by rw [← hsc]; simp, ⟨rest, by rw [← hsc]; simp⟩, h.txle, ?_, ?_, ?_, ?_, ?_, h.ended, h.closed_src, ?_⟩
    · intro c' hc'
      by_cases hcc : c' = c
      · subst hcc
        simp at hc'
      · simp only [Function.update_of_ne hcc] at hc'
        exact h.rxle c' hc'
    · intro c' hc'
      simp at hc'
      exact h.txdrop c' hc'
    · intro c' hc'
      simp only [List.mem_append, List.mem_singleton, Op.dropRx.injEq] at hc'
      by_cases hcc : c' = c
      · subst hcc
        simp
      · simp only [Function.update_of_ne hcc]
        exact h.rxdrop c' (hc'.resolve_right hcc)
    · intro _ c' hc' hd
      simp at hd
      exact h.txkept hl c' hc' hd
    · intro _ c' hc' hd
      simp only [List.mem_append, List.mem_singleton, Op.dropRx.injEq, not_or] at hd
      simp only [Function.update_of_ne hd.2]
      exact h.rxkept hl c' hc' hd.1
    · simpa using h.nodie
  | recv c v ho hl hc hsrc =>
    have hsc := h.script (by rw [hl]; simp)
    rw [ho, List.append_nil] at hsc
    have hf : full N i (t.got ++ [v]) t.closed = t.ran ++ (N.prog i).item v := by
      rw [hsc]
      simp [full, hc]
    exact ⟨fun hd => absurd hl hd, fun _ => hf.symm, ⟨_, hf.symm⟩, h.txle, h.rxle, h.txdrop, h.rxdrop, h.txkept, h.rxkept, h.ended,
      h.closed_src, h.nodie⟩
  | close c ho hl hc hsrc =>
    have hsc := h.script (by rw [hl]; simp)
    rw [ho, List.append_nil] at hsc
    have hf : full N i t.got true = t.ran ++ (N.prog i).close t.got := by
      rw [hsc]
      simp [full, hc]
    exact ⟨fun hd => absurd hl hd, fun _ => hf.symm, ⟨_, hf.symm⟩, h.txle, h.rxle, h.txdrop, h.rxdrop, h.txkept, h.rxkept, fun _ => .inl rfl,
      fun _ => by rw [hsrc]; simp, h.nodie⟩

theorem reach_th {N : Net ι C V} {s : St ι C V} (h : Reach N s) (i : ι) : ThInv N i (s.th i) :=
  th_inv (fun i t => ThInv N i t) (th_inv_init N) th_inv_step h i

theorem live_of_ops {N : Net ι C V} {s : St ι C V} (h : Reach N s) {i : ι} {o : Op C V} {r : List (Op C V)} (ho : (s.th i).ops = o :: r) :
    (s.th i).fate = .live := by
  by_contra hl
  rw [((reach_th h i).over_ops hl).1] at ho
  simp at ho

theorem mem_full {N : Net ι C V} {s : St ι C V} (h : Reach N s) {i : ι} (hl : (s.th i).fate ≠ .died) {o : Op C V} (ho : o ∈ (s.th i).ops) :
    o ∈ full N i (s.th i).got (s.th i).closed := by
  rw [← (reach_th h i).script hl]
  exact List.mem_append_right _ ho

theorem mem_full_of_ran {N : Net ι C V} {s : St ι C V} (h : Reach N s) {i : ι} {o : Op C V} (ho : o ∈ (s.th i).ran) :
    o ∈ full N i (s.th i).got (s.th i).closed := (reach_th h i).prefix_.subset ho

/-- A thread may do `o`. -/
def Does (N : Net ι C V) (i : ι) (o : Op C V) : Prop :=
  o ∈ (N.prog i).first ∨ (∃ v, o ∈ (N.prog i).item v) ∨ ∃ l, o ∈ (N.prog i).close l

theorem does_of_full {N : Net ι C V} {i : ι} {g : List V} {b : Bool} {o : Op C V} (h : o ∈ full N i g b) : Does N i o := by
  simp only [full, List.mem_append, List.mem_flatMap] at h
  rcases h with (h | ⟨v, _, h⟩) | h
  · exact .inl h
  · exact .inr (.inl ⟨v, h⟩)
  · cases b with
    | false => simp at h
    | true => exact .inr (.inr ⟨_, h⟩)

/-! ## what holds for channels -/

/-- The value that an action puts into the channel `c`. -/
def toChan (c : C) : Op C V → Option V
  | .send d v => if d = c then some v else none
  | _ => none

theorem closed_inv {N : Net ι C V} {s : St ι C V} (h : Reach N s) : ∀ i c, (s.th i).closed = true → (N.prog i).src = some c →
    s.queue c = [] ∧ ∀ j, (s.th j).tx c = false := by
  induction h with
  | refl => intro i c hc; simp [Net.init] at hc
  | @tail s s' hr h ih =>
    intro i c
    cases h with
    | send k d v rest ho ht _ _ =>
      intro hc hs
      have hc' : (s.th i).closed = true := by
        by_cases hik : i = k
        · subst hik; simpa [St.set] using hc
        · simpa [St.set, Function.update_of_ne hik] using hc
      have := ih i c hc' hs
      have hdc : c ≠ d := by
        rintro rfl
        rw [this.2 k] at ht
        simp at ht
      refine ⟨by simpa [Function.update_of_ne hdc] using this.1, fun j => ?_⟩
      by_cases hjk : j = k
      · subst hjk; simpa [St.set] using this.2 j
      · simpa [St.set, Function.update_of_ne hjk] using this.2 j
    | sendDead k d v rest ho ht _ =>
      intro hc hs
      have hc' : (s.th i).closed = true := by
        by_cases hik : i = k
        · subst hik; simpa [St.set, Th.over] using hc
        · simpa [St.set, Function.update_of_ne hik] using hc
      have := ih i c hc' hs
      refine ⟨this.1, fun j => ?_⟩
      by_cases hjk : j = k
      · subst hjk; simp [St.set, Th.over]
      · simpa [St.set, Function.update_of_ne hjk] using this.2 j
    | die k rest ho =>
      intro hc hs
      have hc' : (s.th i).closed = true := by
        by_cases hik : i = k
        · subst hik; simpa [St.set, Th.over] using hc
        · simpa [St.set, Function.update_of_ne hik] using hc
      have := ih i c hc' hs
      refine ⟨this.1, fun j => ?_⟩
      by_cases hjk : j = k
      · subst hjk; simp [St.set, Th.over]
      · simpa [St.set, Function.update_of_ne hjk] using this.2 j
    | stop k ho hl hcl =>
      intro hc hs
      have hc' : (s.th i).closed = true := by
        by_cases hik : i = k
        · subst hik; simpa [St.set, Th.over] using hc
        · simpa [St.set, Function.update_of_ne hik] using hc
      have := ih i c hc' hs
      refine ⟨this.1, fun j => ?_⟩
      by_cases hjk : j = k
      · subst hjk; simp [St.set, Th.over]
      · simpa [St.set, Function.update_of_ne hjk] using this.2 j
    | dropTx k d rest ho =>
      intro hc hs
      have hc' : (s.th i).closed = true := by
        by_cases hik : i = k
        · subst hik; simpa [St.set] using hc
        · simpa [St.set, Function.update_of_ne hik] using hc
      have := ih i c hc' hs
      refine ⟨this.1, fun j => ?_⟩
      by_cases hjk : j = k
      · subst hjk
        by_cases hcd : c = d
        · subst hcd; simp [St.set]
        · simpa [St.set, Function.update_of_ne hcd] using this.2 j
      · simpa [St.set, Function.update_of_ne hjk] using this.2 j
    | dropRx k d rest ho =>
      intro hc hs
      have hc' : (s.th i).closed = true := by
        by_cases hik : i = k
        · subst hik; simpa [St.set] using hc
        · simpa [St.set, Function.update_of_ne hik] using hc
      have := ih i c hc' hs
      refine ⟨this.1, fun j => ?_⟩
      by_cases hjk : j = k
      · subst hjk; simpa [St.set] using this.2 j
      · simpa [St.set, Function.update_of_ne hjk] using this.2 j
    | recv k d v q ho hl hcl hsr hq =>
      intro hc hs
      have hc' : (s.th i).closed = true := by
        by_cases hik : i = k
        · subst hik; simpa [St.set] using hc
        · simpa [St.set, Function.update_of_ne hik] using hc
      have := ih i c hc' hs
      have hdc : c ≠ d := by
        rintro rfl
        rw [this.1] at hq
        simp at hq
      refine ⟨by simpa [Function.update_of_ne hdc] using this.1, fun j => ?_⟩
      by_cases hjk : j = k
      · subst hjk; simpa [St.set] using this.2 j
      · simpa [St.set, Function.update_of_ne hjk] using this.2 j
    | close k d ho hl hcl hsr hq ht =>
      intro hc hs
      have key : s.queue c = [] ∧ ∀ j, (s.th j).tx c = false := by
        by_cases hik : i = k
        · subst hik
          rw [hsr] at hs
          cases hs
          exact ⟨hq, ht⟩
        · exact ih i c (by simpa [St.set, Function.update_of_ne hik] using hc) hs
      refine ⟨key.1, fun j => ?_⟩
      by_cases hjk : j = k
      · subst hjk; simpa [St.set] using key.2 j
      · simpa [St.set, Function.update_of_ne hjk] using key.2 j

theorem sum_set (f : Th C V → Multiset V) (s : St ι C V) (i : ι) (x : Th C V) {a : Multiset V} (h : f x = f (s.th i) + a) :
    ∑ j, f ((s.set i x).th j) = ∑ j, f (s.th j) + a := by
  have h1 : ∀ g : ι → Th C V, ∑ j, f (g j) = f (g i) + ∑ j ∈ Finset.univ.erase i, f (g j) := fun g =>
    (Finset.add_sum_erase Finset.univ (fun j => f (g j)) (Finset.mem_univ i)).symm
  rw [h1 s.th, h1 (s.set i x).th]
  have h2 : ∑ j ∈ Finset.univ.erase i, f ((s.set i x).th j) = ∑ j ∈ Finset.univ.erase i, f (s.th j) := by
    refine Finset.sum_congr rfl fun j hj => ?_
    simp only [St.set, Function.update_of_ne (Finset.ne_of_mem_erase hj)]
  rw [h2]
  simp only [St.set, Function.update_self, h]
  rw [add_right_comm]

theorem toChan_ran (c : C) (r : List (Op C V)) (o : Op C V) :
    (((r ++ [o]).filterMap (toChan c) : List V) : Multiset V) = (r.filterMap (toChan c) : Multiset V) + ((toChan c o).toList : Multiset V) := by
  rw [List.filterMap_append, ← Multiset.coe_add]
  cases h : toChan c o <;> simp [h]

/-- What was sent into a channel is what has been received from it and what is in its queue. -/
theorem sent_inv {N : Net ι C V} {s : St ι C V} (h : Reach N s) (c : C) :
    ((s.taken c ++ s.queue c : List V) : Multiset V) = ∑ i, (((s.th i).ran.filterMap (toChan c) : List V) : Multiset V) := by
  induction h with
  | refl => simp [Net.init]
  | @tail s s' hr h ih =>
    cases h with
    | send k d v rest ho ht _ _ =>
      have := sum_set (fun t => ((t.ran.filterMap (toChan c) : List V) : Multiset V)) s k
        { s.th k with ops := rest, ran := (s.th k).ran ++ [.send d v] } (toChan_ran c _ _)
      refine Eq.trans ?_ this.symm
      rw [← ih]
      by_cases hcd : d = c
      · subst hcd
        simp [toChan, Multiset.coe_add]
        simp [← Multiset.coe_add, add_assoc]
        rfl
      · simp [toChan, hcd, Function.update_of_ne (Ne.symm hcd), St.set]
    | dropTx k d rest ho =>
      have := sum_set (fun t => ((t.ran.filterMap (toChan c) : List V) : Multiset V)) s k
        { s.th k with ops := rest, tx := Function.update (s.th k).tx d false, ran := (s.th k).ran ++ [.dropTx d] } (toChan_ran c _ _)
      refine Eq.trans ?_ this.symm
      rw [← ih]
      simp [toChan, St.set]
    | dropRx k d rest ho =>
      have := sum_set (fun t => ((t.ran.filterMap (toChan c) : List V) : Multiset V)) s k
        { s.th k with ops := rest, rx := Function.update (s.th k).rx d false, ran := (s.th k).ran ++ [.dropRx d] } (toChan_ran c _ _)
      refine Eq.trans ?_ this.symm
      rw [← ih]
      simp [toChan, St.set]
    | sendDead k d v rest ho ht _ =>
      have := sum_set (fun t => ((t.ran.filterMap (toChan c) : List V) : Multiset V)) s k ((s.th k).over .died) (a := 0) (by simp [Th.over])
      refine Eq.trans ?_ this.symm
      rw [← ih]
      simp [St.set]
    | die k rest ho =>
      have := sum_set (fun t => ((t.ran.filterMap (toChan c) : List V) : Multiset V)) s k ((s.th k).over .died) (a := 0) (by simp [Th.over])
      refine Eq.trans ?_ this.symm
      rw [← ih]
      simp [St.set]
    | stop k ho hl hc =>
      have := sum_set (fun t => ((t.ran.filterMap (toChan c) : List V) : Multiset V)) s k ((s.th k).over .ended) (a := 0) (by simp [Th.over])
      refine Eq.trans ?_ this.symm
      rw [← ih]
      simp [St.set]
    | recv k d v q ho hl hcl hsr hq =>
      have := sum_set (fun t => ((t.ran.filterMap (toChan c) : List V) : Multiset V)) s k
        { s.th k with ops := (N.prog k).item v, got := (s.th k).got ++ [v] } (a := 0) (by simp)
      refine Eq.trans ?_ this.symm
      rw [← ih]
      by_cases hcd : c = d
      · subst hcd
        simp [hq]
      · simp [Function.update_of_ne hcd, St.set]
    | close k d ho hl hcl hsr hq ht =>
      have := sum_set (fun t => ((t.ran.filterMap (toChan c) : List V) : Multiset V)) s k
        { s.th k with ops := (N.prog k).close (s.th k).got, closed := true } (a := 0) (by simp)
      refine Eq.trans ?_ this.symm
      rw [← ih]
      simp [St.set]

/-- What a thread has received if it listens to `c`. -/
def gotFrom (N : Net ι C V) (c : C) (i : ι) (t : Th C V) : Multiset V := if (N.prog i).src = some c then (t.got : Multiset V) else 0

theorem sum_set' (f : ι → Th C V → Multiset V) (s : St ι C V) (i : ι) (x : Th C V) {a : Multiset V} (h : f i x = f i (s.th i) + a) :
    ∑ j, f j ((s.set i x).th j) = ∑ j, f j (s.th j) + a := by
  have h1 : ∀ g : ι → Th C V, ∑ j, f j (g j) = f i (g i) + ∑ j ∈ Finset.univ.erase i, f j (g j) := fun g =>
    (Finset.add_sum_erase Finset.univ (fun j => f j (g j)) (Finset.mem_univ i)).symm
  rw [h1 s.th, h1 (s.set i x).th]
  have h2 : ∑ j ∈ Finset.univ.erase i, f j ((s.set i x).th j) = ∑ j ∈ Finset.univ.erase i, f j (s.th j) := by
    refine Finset.sum_congr rfl fun j hj => ?_
    simp only [St.set, Function.update_of_ne (Finset.ne_of_mem_erase hj)]
  rw [h2]
  simp only [St.set, Function.update_self, h]
  rw [add_right_comm]

/-- What was received from a channel is what its listeners have received. -/
theorem taken_inv {N : Net ι C V} {s : St ι C V} (h : Reach N s) (c : C) :
    ((s.taken c : List V) : Multiset V) = ∑ i, gotFrom N c i (s.th i) := by
  induction h with
  | refl => simp [Net.init, gotFrom]
  | @tail s s' hr h ih =>
    have same : ∀ (k : ι) (x : Th C V), x.got = (s.th k).got → ∑ j, gotFrom N c j ((s.set k x).th j) = ∑ j, gotFrom N c j (s.th j) := by
      intro k x hx
      have := sum_set' (gotFrom N c) s k x (a := 0) (by simp [gotFrom, hx])
      simpa using this
    cases h with
    | send k d v rest ho ht _ _ => exact ih.trans (same k _ (by rfl)).symm
    | dropTx k d rest ho => exact ih.trans (same k _ (by rfl)).symm
    | dropRx k d rest ho => exact ih.trans (same k _ (by rfl)).symm
    | sendDead k d v rest ho ht _ => exact ih.trans (same k _ (by rfl)).symm
    | die k rest ho => exact ih.trans (same k _ (by rfl)).symm
    | stop k ho hl hc => exact ih.trans (same k _ (by rfl)).symm
    | close k d ho hl hcl hsr hq ht => exact ih.trans (same k _ (by rfl)).symm
    | recv k d v q ho hl hcl hsr hq =>
      have := sum_set' (gotFrom N c) s k { s.th k with ops := (N.prog k).item v, got := (s.th k).got ++ [v] }
        (a := if d = c then ([v] : List V) else 0) (by
          by_cases hdc : d = c
          · subst hdc
            simp [gotFrom, hsr, ← Multiset.coe_add]
          · simp [gotFrom, hsr, hdc])
      refine Eq.trans ?_ this.symm
      rw [← ih]
      by_cases hcd : d = c
      · subst hcd
        simp [← Multiset.coe_add]
      · simp [Function.update_of_ne (Ne.symm hcd), hcd, St.set]

/-! ## no deadlock -/

/-- A thread that gives away all senders at the beginning and sends nothing. -/
structure Holder (N : Net ι C V) (i : ι) : Prop where
  first : ∀ o ∈ (N.prog i).first, (∃ c, o = .dropTx c) ∨ ∃ c, o = .dropRx c
  item : ∀ v, (N.prog i).item v = []
  close : ∀ l, (N.prog i).close l = []
  tx : ∀ c, N.tx i c = true → .dropTx c ∈ (N.prog i).first
  rx : ∀ c, N.rx i c = true → (N.prog i).src = some c ∨ .dropRx c ∈ (N.prog i).first

/-- A thread that gives away nothing before its end, and sends only upwards. -/
structure Worker (N : Net ι C V) (rank : C → Nat) (i : ι) : Prop where
  does : ∀ o, Does N i o → o = .die ∨ ∃ c v, o = .send c v ∧ N.tx i c = true
  tx : ∀ c d, N.tx i c = true → (N.prog i).src = some d → rank d < rank c
  rx : ∀ c, N.rx i c = true → (N.prog i).src = some c

/-- A thread that cannot go on waits for room or waits for a value. -/
theorem blocked {N : Net ι C V} {rank : C → Nat} (hw : ∀ i, Holder N i ∨ Worker N rank i) (hcap : ∀ c, 0 < N.cap c) {s : St ι C V} (h : Reach N s)
    (hno : ∀ s', ¬ Step N s s') {i : ι} (hl : (s.th i).fate = .live) :
    (Worker N rank i ∧ ∃ c v rest, (s.th i).ops = .send c v :: rest ∧ s.queue c ≠ [] ∧ ∃ j, (s.th j).rx c = true) ∨
      ∃ c, (s.th i).ops = [] ∧ (s.th i).closed = false ∧ (N.prog i).src = some c ∧ s.queue c = [] ∧ ∃ j, (s.th j).tx c = true := by
  have hi := reach_th h i
  match ho : (s.th i).ops with
  | .dropTx c :: rest => exact absurd (Step.dropTx s i c rest ho) (hno _)
  | .dropRx c :: rest => exact absurd (Step.dropRx s i c rest ho) (hno _)
  | .die :: rest => exact absurd (Step.die s i rest ho) (hno _)
  | .send c v :: rest =>
    left
    have hd : Does N i (.send c v) := does_of_full (mem_full h (by rw [hl]; simp) (by rw [ho]; simp))
    rcases hw i with hh | hwk
    · exfalso
      rcases hd with hd | ⟨x, hd⟩ | ⟨x, hd⟩
      · rcases hh.first _ hd with ⟨c', hc'⟩ | ⟨c', hc'⟩ <;> simp at hc'
      · rw [hh.item] at hd; simp at hd
      · rw [hh.close] at hd; simp at hd
    · refine ⟨hwk, c, v, rest, rfl, ?_⟩
      have htx : (s.th i).tx c = true := by
        rcases hwk.does _ hd with hx | ⟨c', v', hx, ht⟩
        · simp at hx
        · cases hx
          refine hi.txkept hl c ht fun hr => ?_
          rcases hwk.does _ (does_of_full (mem_full_of_ran h hr)) with hx | ⟨_, _, hx, _⟩ <;> simp at hx
      have hrx : ∃ j, (s.th j).rx c = true := by
        by_contra hn
        simp only [not_exists, Bool.not_eq_true] at hn
        exact hno _ (Step.sendDead s i c v rest ho htx hn)
      refine ⟨fun hq => ?_, hrx⟩
      exact hno _ (Step.send s i c v rest ho htx hrx (by rw [hq]; exact hcap c))
  | [] =>
    right
    have hcl : (s.th i).closed = false := by
      by_contra hc
      exact hno _ (Step.stop s i ho hl (.inl (by simpa using hc)))
    match hs : (N.prog i).src with
    | none => exact absurd (Step.stop s i ho hl (.inr hs)) (hno _)
    | some c =>
      have hq : s.queue c = [] := by
        match hq : s.queue c with
        | [] => rfl
        | v :: q => exact absurd (Step.recv s i c v q ho hl hcl hs hq) (hno _)
      refine ⟨c, rfl, hcl, rfl, hq, ?_⟩
      by_contra hn
      simp only [not_exists, Bool.not_eq_true] at hn
      exact hno _ (Step.close s i c ho hl hcl hs hq hn)

/-- Threads that send only upwards are never stuck. -/
theorem progress {N : Net ι C V} {rank : C → Nat} (hw : ∀ i, Holder N i ∨ Worker N rank i) (hcap : ∀ c, 0 < N.cap c) {s : St ι C V} (h : Reach N s)
    (ho : ¬ s.Over) : ∃ s', Step N s s' := by
  by_contra hno
  simp only [not_exists] at hno
  have liveRx : ∀ j c, (s.th j).rx c = true → (s.th j).fate = .live := by
    intro j c hr
    by_contra hl
    rw [((reach_th h j).over_ops hl).2.2] at hr
    simp at hr
  have liveTx : ∀ j c, (s.th j).tx c = true → (s.th j).fate = .live := by
    intro j c hr
    by_contra hl
    rw [((reach_th h j).over_ops hl).2.1] at hr
    simp at hr
  have firstRan : ∀ j, (s.th j).fate = .live → (s.th j).ops = [] → ∀ o ∈ (N.prog j).first, o ∈ (s.th j).ran := by
    intro j hl hops o hm
    have := (reach_th h j).script (by rw [hl]; simp)
    rw [hops, List.append_nil] at this
    rw [this]
    simp [full, hm]
  -- nobody waits for room
  have noSend : ∀ m c, Finset.univ.sup rank - rank c = m → s.queue c ≠ [] → (∃ j, (s.th j).rx c = true) → False := by
    intro m
    induction m using Nat.strong_induction_on with
    | _ m ih =>
      intro c hm hq ⟨j, hj⟩
      have hl := liveRx j c hj
      rcases blocked hw hcap h hno hl with ⟨hwj, c', v, rest, hops, hq', hr'⟩ | ⟨d, hops, hcl, hsrc, hqd, _⟩
      · have hlt := hwj.tx c' c (by
          have hd : Does N j (.send c' v) := does_of_full (mem_full h (by rw [hl]; simp) (by rw [hops]; simp))
          rcases hwj.does _ hd with hx | ⟨_, _, hx, ht⟩
          · simp at hx
          · cases hx; exact ht) (hwj.rx c ((reach_th h j).rxle c hj))
        have hle : rank c' ≤ Finset.univ.sup rank := Finset.le_sup (Finset.mem_univ c')
        exact ih (Finset.univ.sup rank - rank c') (by omega) c' rfl hq' hr'
      · have hdc : (N.prog j).src = some c := by
          rcases hw j with hh | hwj
          · refine (hh.rx c ((reach_th h j).rxle c hj)).resolve_right fun hd => ?_
            rw [(reach_th h j).rxdrop c (firstRan j hl hops _ hd)] at hj
            simp at hj
          · exact hwj.rx c ((reach_th h j).rxle c hj)
        rw [hsrc] at hdc
        cases hdc
        exact hq hqd
  -- nobody waits for a value
  have noRecv : ∀ m c, rank c = m → (∃ j, (s.th j).tx c = true) → False := by
    intro m
    induction m using Nat.strong_induction_on with
    | _ m ih =>
      intro c hm ⟨j, hj⟩
      have hl := liveTx j c hj
      rcases blocked hw hcap h hno hl with ⟨_, c', v, rest, hops, hq', hr'⟩ | ⟨d, hops, hcl, hsrc, hqd, ht⟩
      · exact noSend _ c' rfl hq' hr'
      · rcases hw j with hh | hwj
        · rw [(reach_th h j).txdrop c (firstRan j hl hops _ (hh.tx c ((reach_th h j).txle c hj)))] at hj
          simp at hj
        · have := hwj.tx c d ((reach_th h j).txle c hj) hsrc
          exact ih (rank d) (by omega) d rfl ht
  refine ho fun i hl => ?_
  rcases blocked hw hcap h hno hl with ⟨_, c', v, rest, hops, hq', hr'⟩ | ⟨d, hops, hcl, hsrc, hqd, ht⟩
  · exact noSend _ c' rfl hq' hr'
  · exact noRecv _ d rfl ht

/-! ## collectors -/

/-- Somebody listens to `c` to the end: a collector that never panics. `F` is a set of threads that keep each other alive. -/
structure Faithful (N : Net ι C V) (F : ι → Prop) : Prop where
  alive : ∀ i, F i → ¬ Does N i .die
  kept : ∀ i, F i → ∀ c v, Does N i (.send c v) → ∃ j, F j ∧ (N.prog j).src = some c
  rx : ∀ i, F i → ∀ c, (N.prog i).src = some c → N.rx i c = true ∧ ¬ Does N i (.dropRx c)

theorem heard {N : Net ι C V} {s : St ι C V} (h : Reach N s) {j : ι} {c : C} (hd : (s.th j).fate ≠ .died)
    (hs : (N.prog j).src = some c) (hr : N.rx j c = true) (hn : ¬ Does N j (.dropRx c)) {i : ι} (ht : (s.th i).tx c = true) : (s.th j).rx c = true := by
  match hf : (s.th j).fate with
  | .died => exact absurd hf hd
  | .live => exact (reach_th h j).rxkept hf c hr fun hm => hn (does_of_full (mem_full_of_ran h hm))
  | .ended =>
    rcases (reach_th h j).ended hf with hc | hc
    · rw [(closed_inv h j c hc hs).2 i] at ht
      simp at ht
    · rw [hs] at hc
      simp at hc

theorem faithful_alive {N : Net ι C V} {F : ι → Prop} (hF : Faithful N F) {s : St ι C V} (h : Reach N s) : ∀ i, F i → (s.th i).fate ≠ .died := by
  induction h with
  | refl => intro i _; simp [Net.init]
  | @tail s s' hr h ih =>
    intro i hi
    have keep : ∀ (k : ι) (x : Th C V), (x.fate = .died → F k → (s.th k).fate = .died) → ((s.set k x).th i).fate ≠ .died := by
      intro k x hx hd
      by_cases hik : i = k
      · subst hik
        exact ih i hi (hx (by simpa [St.set] using hd) hi)
      · exact ih i hi (by simpa [St.set, Function.update_of_ne hik] using hd)
    cases h with
    | send k d v rest ho ht _ _ => exact keep k _ fun h _ => h
    | dropTx k d rest ho => exact keep k _ fun h _ => h
    | dropRx k d rest ho => exact keep k _ fun h _ => h
    | stop k ho hl hc => exact keep k _ fun h _ => by simp [Th.over] at h
    | recv k d v q ho hl hcl hsr hq => exact keep k _ fun h _ => h
    | close k d ho hl hcl hsr hq ht => exact keep k _ fun h _ => h
    | die k rest ho =>
      refine keep k _ fun _ hk => absurd (does_of_full (mem_full hr ?_ (by rw [ho]; simp))) (hF.alive k hk)
      rw [live_of_ops hr ho]; simp
    | sendDead k d v rest ho ht hn =>
      refine keep k _ fun _ hk => ?_
      obtain ⟨j, hj, hs⟩ := hF.kept k hk d v (does_of_full (mem_full hr (by rw [live_of_ops hr ho]; simp) (by rw [ho]; simp)))
      have := heard hr (ih j hj) hs (hF.rx j hj d hs).1 (hF.rx j hj d hs).2 ht
      rw [hn j] at this
      simp at this

/-- When its loop is over, a collector has received everything that was sent to it. -/
theorem closed_all {N : Net ι C V} {s : St ι C V} (h : Reach N s) {i : ι} {c : C} (hc : (s.th i).closed = true) (hs : (N.prog i).src = some c)
    (honly : ∀ j, (N.prog j).src = some c → j = i) :
    (((s.th i).got : List V) : Multiset V) = ∑ j, (((s.th j).ran.filterMap (toChan c) : List V) : Multiset V) := by
  rw [← sent_inv h c, (closed_inv h i c hc hs).1, List.append_nil, taken_inv h c]
  rw [Finset.sum_eq_single i]
  · simp [gotFrom, hs]
  · intro j _ hj
    have : (N.prog j).src ≠ some c := fun h => hj (honly j h)
    simp [gotFrom, this]
  · intro h
    exact absurd (Finset.mem_univ i) h

/-- When all is over, a collector has received everything that was sent to it. -/
theorem ended_all {N : Net ι C V} {s : St ι C V} (h : Reach N s) {i : ι} {c : C} (he : (s.th i).fate = .ended) (hs : (N.prog i).src = some c)
    (honly : ∀ j, (N.prog j).src = some c → j = i) :
    (((s.th i).got : List V) : Multiset V) = ∑ j, (((s.th j).ran.filterMap (toChan c) : List V) : Multiset V) :=
  closed_all h (((reach_th h i).ended he).resolve_right (by rw [hs]; simp)) hs honly

/-- Why a thread died. -/
theorem died_why {N : Net ι C V} {F : ι → Prop} (hF : Faithful N F) {s : St ι C V} (h : Reach N s) : ∀ i, (s.th i).fate = .died →
    ∃ o rest, (s.th i).ran ++ o :: rest = full N i (s.th i).got (s.th i).closed ∧
      (o = .die ∨ ∃ c v, o = .send c v ∧ ∀ j, F j → (N.prog j).src ≠ some c) := by
  induction h with
  | refl => intro i; simp [Net.init]
  | @tail s s' hr h ih =>
    intro i
    have keep : ∀ (k : ι) (x : Th C V), i ≠ k → ((s.set k x).th i).fate = .died →
        ∃ o rest, ((s.set k x).th i).ran ++ o :: rest = full N i ((s.set k x).th i).got ((s.set k x).th i).closed ∧
        (o = .die ∨ ∃ c v, o = .send c v ∧ ∀ j, F j → (N.prog j).src ≠ some c) := by
      intro k x hik
      simp only [St.set, Function.update_of_ne hik]
      exact ih i
    by_cases hik : ∃ k x, i ≠ k ∧ s'.th = (s.set k x).th
    · obtain ⟨k, x, hne, hth⟩ := hik
      rw [hth]
      exact keep k x hne
    · have self : ∀ (k : ι) (x : Th C V), s'.th = (s.set k x).th → i = k := fun k x hx => by
        by_contra hne
        exact hik ⟨k, x, hne, hx⟩
      have notlive : ∀ (k : ι) (x : Th C V), s'.th = (s.set k x).th → x.fate = .live ∨ x.fate = .ended → (s'.th i).fate ≠ .died := by
        intro k x hx hf
        obtain rfl := self k x hx
        rw [hx]
        rcases hf with hf | hf <;> simp [St.set, hf]
      cases h with
      | send k d v rest ho ht _ _ => exact fun hd => absurd hd (notlive k _ rfl (.inl (live_of_ops hr ho)))
      | dropTx k d rest ho => exact fun hd => absurd hd (notlive k _ rfl (.inl (live_of_ops hr ho)))
      | dropRx k d rest ho => exact fun hd => absurd hd (notlive k _ rfl (.inl (live_of_ops hr ho)))
      | stop k ho hl hc => exact fun hd => absurd hd (notlive k _ rfl (.inr rfl))
      | recv k d v q ho hl hcl hsr hq => exact fun hd => absurd hd (notlive k _ rfl (.inl hl))
      | close k d ho hl hcl hsr hq ht => exact fun hd => absurd hd (notlive k _ rfl (.inl hl))
      | die k rest ho =>
        obtain rfl := self k _ rfl
        intro _
        have := (reach_th hr i).script (by rw [live_of_ops hr ho]; simp)
        rw [ho] at this
        exact ⟨.die, rest, by simpa [St.set, Th.over] using this, .inl rfl⟩
      | sendDead k d v rest ho ht hn =>
        obtain rfl := self k _ rfl
        intro _
        have := (reach_th hr i).script (by rw [live_of_ops hr ho]; simp)
        rw [ho] at this
        refine ⟨.send d v, rest, by simpa [St.set, Th.over] using this, .inr ⟨d, v, rfl, fun j hj hs => ?_⟩⟩
        have := heard hr (faithful_alive hF hr j hj) hs (hF.rx j hj d hs).1 (hF.rx j hj d hs).2 ht
        rw [hn j] at this
        simp at this

end Art.Chan
