import Verif.Model.Serve
import Verif.Props.Fmt
import Verif.Props.SaveEx
import Verif.Props.Hash

/-!
C36: the server.
-/

namespace Art
open Spec

namespace Spec

/-- A request that was answered. -/
structure Call where
  id : Nat
  request : Request
  reply : Reply

/-- The project that is served after an answer. -/
def servedBy (v : ProjectResult) : Reply → ProjectResult
  | .success w => w
  | _ => v

/-- The project that is served after these answers. -/
def lastServed (v : ProjectResult) : List Call → ProjectResult
  | [] => v
  | c :: l => lastServed (servedBy v c.reply) l

/-- The answers that a request may get while `v` is served. -/
def MayReply (v : ProjectResult) : Request → Reply → Prop
  | .garbage, a => a = .rejected
  | .read none, a => a = .success v
  | .read (some (some false)), a => a = .success v
  | .read (some none), a => a = .invalidParams
  | .read (some (some true)), a => (∃ w, a = .success w) ∨ (∃ l, a = .serverError .invalidFromLoad l) ∨ a = .dropped
  | .modify none, a => a = .invalidParams
  | .modify (some none), a => a = .invalidParams
  | .modify (some (some _)), a => a ≠ .rejected

/-- The calls, one after the other, are answered by a server that keeps one project: it is replaced exactly by the answers that bring a project. After a
crash every request for the project crashes. -/
def Sequential (v : ProjectResult) (log : List Call) : Prop :=
  ∀ before c after, log = before ++ c :: after →
    ((∃ d ∈ before, d.reply = .dropped) ∧ c.request ≠ .garbage → c.reply = .dropped) ∧
    (¬ ((∃ d ∈ before, d.reply = .dropped) ∧ c.request ≠ .garbage) → MayReply (lastServed v before) c.request c.reply)

/-- In this order the calls explain what the clients see: every answer is the answer of its call, a call has come in, no request is called twice, and a
request that came in after another one was answered comes after it. -/
structure Explains (hist : List Event) (log : List Call) : Prop where
  answered : ∀ i a, Event.send i a ∈ hist → ∃ r, ⟨i, r, a⟩ ∈ log
  asked : ∀ c ∈ log, Event.arrive c.id c.request ∈ hist
  once : (log.map Call.id).Nodup
  order : ∀ h1 h2 i a j r, hist = h1 ++ h2 → Event.send i a ∈ h1 → Event.arrive j r ∈ h2 →
    ∀ l1 c l2, log = l1 ++ c :: l2 → c.id = j → ∃ d ∈ l1, d.id = i

end Spec

/-! ## the steps -/

section
variable {E : Env} {fs fs' : FS} {v w : ProjectResult} {r : Request} {s t u : Server} {hist h1 h2 : List Event} {repo : FilePath}

/-- The call that ends with an event. -/
def Event.call? : Event → Option Call
  | .finish i r a => some ⟨i, r, a⟩
  | _ => none

theorem Runs.append (h : Runs E s h1 t) (h' : Runs E t h2 u) : Runs E s (h1 ++ h2) u := by
  induction h' with
  | nil => simpa using h
  | snoc _ st ih => rw [← List.append_assoc]; exact .snoc ih st

theorem Runs.split : ∀ {h2 : List Event} {u : Server}, Runs E s (h1 ++ h2) u → ∃ t, Runs E s h1 t ∧ Runs E t h2 u := by
  intro h2
  induction h2 using List.reverseRecOn with
  | nil => intro u h; exact ⟨u, by simpa using h, .nil⟩
  | append_singleton l e ih =>
    intro u h
    rw [← List.append_assoc] at h
    generalize hg : h1 ++ l ++ [e] = g at h
    cases h with
    | nil => simp at hg
    | snoc h st =>
      obtain ⟨e1, e2⟩ := List.append_inj' hg rfl
      cases e1
      cases e2
      obtain ⟨t, a, b⟩ := ih h
      exact ⟨t, a, .snoc b st⟩

theorem Runs.empty (h : Runs E s [] t) : t = s := by
  generalize hg : ([] : List Event) = l at h
  cases h with
  | nil => rfl
  | snoc => simp at hg

theorem Runs.first {e : Event} (h : Runs E s (e :: h1) u) : ∃ t, Step E s e t ∧ Runs E t h1 u := by
  have h : Runs E s ([e] ++ h1) u := h
  obtain ⟨t, r1, r2⟩ := h.split
  generalize hg : [e] = l at r1
  cases r1 with
  | nil => cases hg
  | snoc h st =>
    obtain ⟨e1, e2⟩ := List.append_inj' (s₁ := []) hg rfl
    cases e2
    subst e1
    rw [h.empty] at st
    exact ⟨_, st, r2⟩

theorem lastServed_snoc (v : ProjectResult) (l : List Call) (c : Call) :
    lastServed v (l ++ [c]) = servedBy (lastServed v l) c.reply := by
  induction l generalizing v with
  | nil => rfl
  | cons d l ih => exact ih _

theorem sequential_snoc {log : List Call} {c : Call} (h : Sequential v log)
    (hc : ((∃ d ∈ log, d.reply = .dropped) ∧ c.request ≠ .garbage → c.reply = .dropped) ∧
      (¬ ((∃ d ∈ log, d.reply = .dropped) ∧ c.request ≠ .garbage) → MayReply (lastServed v log) c.request c.reply)) :
    Sequential v (log ++ [c]) := by
  intro b d a e
  rcases List.eq_nil_or_concat a with rfl | ⟨a', x, rfl⟩
  · obtain ⟨e1, e2⟩ := List.append_inj' e rfl
    cases e1; cases e2
    exact hc
  · rw [List.concat_eq_append, ← List.cons_append, ← List.append_assoc] at e
    obtain ⟨e1, _⟩ := List.append_inj' e rfl
    exact h b d a' e1

/-- The answer of one request is allowed, and what is served afterwards is the project in the answer, if there is one. -/
theorem handles_spec {out : Reply × ProjectResult} (h : Handles E fs v r out fs') :
    MayReply v r out.1 ∧ out.2 = servedBy v out.1 := by
  cases h with
  | read h => rcases h with rfl | rfl <;> exact ⟨rfl, rfl⟩
  | readBad => exact ⟨rfl, rfl⟩
  | reload h =>
    rename_i o
    cases o with
    | ok x => exact ⟨Or.inl ⟨_, rfl⟩, rfl⟩
    | err c => exact ⟨Or.inr (Or.inl ⟨_, rfl⟩), rfl⟩
    | panic => exact ⟨Or.inr (Or.inr rfl), rfl⟩
  | modifyBad h => rcases h with rfl | rfl <;> exact ⟨rfl, rfl⟩
  | modifyUnread => exact ⟨by simp [MayReply], rfl⟩
  | modifyPanic => exact ⟨by simp [MayReply], rfl⟩
  | modify _ h =>
    rename_i o _
    cases o with
    | ok x => exact ⟨by simp [MayReply, modifyWith], rfl⟩
    | err c => exact ⟨by simp [MayReply, modifyWith], rfl⟩
    | panic => exact ⟨by simp [MayReply, modifyWith], rfl⟩

theorem handles_not_garbage {out : Reply × ProjectResult} (h : Handles E fs v r out fs') : r ≠ .garbage := by
  cases h <;> simp

/-- What holds after every history. -/
structure Good (v : ProjectResult) (hist : List Event) (s : Server) : Prop where
  idle : ∀ i, s.threads i = .idle → ∀ r, Event.arrive i r ∉ hist
  waiting : ∀ i r, s.threads i = .waiting r → Event.arrive i r ∈ hist
  working : ∀ i r, s.threads i = .working r → Event.arrive i r ∈ hist ∧ s.holder = some (.thread i) ∧ s.poisoned = false
  ready : ∀ i a, s.threads i = .ready a → ∃ r, ⟨i, r, a⟩ ∈ hist.filterMap Event.call?
  sent : ∀ i a, Event.send i a ∈ hist → ∃ r, ⟨i, r, a⟩ ∈ hist.filterMap Event.call?
  calls : ∀ c ∈ hist.filterMap Event.call?, Event.arrive c.id c.request ∈ hist ∧ (s.threads c.id = .sent ∨ ∃ a, s.threads c.id = .ready a)
  once : ((hist.filterMap Event.call?).map Call.id).Nodup
  value : s.value = lastServed v (hist.filterMap Event.call?)
  poisoned : s.poisoned = true ↔ ∃ d ∈ hist.filterMap Event.call?, d.reply = .dropped
  legal : Sequential v (hist.filterMap Event.call?)

theorem Good.init : Good v [] (Server.init fs v) := by
  refine ⟨fun i _ r h => (by simp at h), fun i r h => (by cases h), fun i r h => (by cases h), fun i a h => (by cases h),
    fun i a h => (by simp at h), fun c h => (by simp at h), (by simp), rfl, (by simp [Server.init]), ?_⟩
  intro b c a e
  simp at e

theorem set_threads (s : Server) (i j : Nat) (t : Thread) : (s.set i t).threads j = if j = i then t else s.threads j := rfl

/-- An event that ends no call, brings no request and sends nothing. -/
theorem Good.quiet (g : Good v hist s) {e : Event} (hc : e.call? = none) (h1 : ∀ i r, e ≠ .arrive i r) (h2 : ∀ i a, e ≠ .send i a)
    (hv : t.value = s.value) (hp : t.poisoned = s.poisoned) (idle : ∀ i, t.threads i = .idle → s.threads i = .idle)
    (waiting : ∀ i r, t.threads i = .waiting r → s.threads i = .waiting r)
    (working : ∀ i r, t.threads i = .working r → Event.arrive i r ∈ hist ∧ t.holder = some (.thread i) ∧ t.poisoned = false)
    (ready : ∀ i a, t.threads i = .ready a → s.threads i = .ready a)
    (calls : ∀ i, (s.threads i = .sent ∨ ∃ a, s.threads i = .ready a) → t.threads i = .sent ∨ ∃ a, t.threads i = .ready a) :
    Good v (hist ++ [e]) t := by
  have mono : ∀ {x : Event}, x ∈ hist → x ∈ hist ++ [e] := fun h => List.mem_append_left _ h
  have hl : (hist ++ [e]).filterMap Event.call? = hist.filterMap Event.call? := by simp [hc]
  refine ⟨?_, ?_, ?_, ?_, ?_, ?_, ?_, ?_, ?_, ?_⟩
  · intro i hi r hm
    rcases List.mem_append.1 hm with hm | hm
    · exact g.idle i (idle i hi) r hm
    · exact h1 i r (List.mem_singleton.1 hm).symm
  · exact fun i r hi => mono (g.waiting i r (waiting i r hi))
  · exact fun i r hi => ⟨mono (working i r hi).1, (working i r hi).2⟩
  · intro i a hi
    rw [hl]
    exact g.ready i a (ready i a hi)
  · intro i a hm
    rw [hl]
    rcases List.mem_append.1 hm with hm | hm
    · exact g.sent i a hm
    · exact absurd (List.mem_singleton.1 hm).symm (h2 i a)
  · intro c hm
    rw [hl] at hm
    exact ⟨mono (g.calls c hm).1, calls _ (g.calls c hm).2⟩
  · rw [hl]; exact g.once
  · rw [hl, hv]; exact g.value
  · rw [hl, hp]; exact g.poisoned
  · rw [hl]; exact g.legal

/-- A call ends. -/
theorem Good.finish (g : Good v hist s) {i : Nat} {a : Reply} (hb : s.threads i = .waiting r ∨ s.threads i = .working r)
    (ht : ∀ j, t.threads j = if j = i then .ready a else s.threads j)
    (hv : t.value = servedBy s.value a)
    (hp : t.poisoned = true ↔ s.poisoned = true ∨ a = .dropped)
    (working : ∀ j r, j ≠ i → s.threads j = .working r → t.holder = some (.thread j) ∧ t.poisoned = false)
    (ok : (s.poisoned = true ∧ r ≠ .garbage → a = .dropped) ∧ (¬ (s.poisoned = true ∧ r ≠ .garbage) → MayReply s.value r a)) :
    Good v (hist ++ [.finish i r a]) t := by
  have mono : ∀ {x : Event}, x ∈ hist → x ∈ hist ++ [.finish i r a] := fun h => List.mem_append_left _ h
  have back : ∀ {x : Event}, (∀ i r a, x ≠ .finish i r a) → x ∈ hist ++ [.finish i r a] → x ∈ hist := by
    intro x hx h
    rcases List.mem_append.1 h with h | h
    · exact h
    · exact absurd (List.mem_singleton.1 h) (hx _ _ _)
  have hl : (hist ++ [Event.finish i r a]).filterMap Event.call? = hist.filterMap Event.call? ++ [⟨i, r, a⟩] := by simp [Event.call?]
  have harr : Event.arrive i r ∈ hist := by
    rcases hb with hb | hb
    · exact g.waiting i r hb
    · exact (g.working i r hb).1
  refine ⟨?_, ?_, ?_, ?_, ?_, ?_, ?_, ?_, ?_, ?_⟩
  · intro j hj r' hm
    rw [ht] at hj
    split at hj
    · cases hj
    · exact g.idle j hj r' (back (by simp) hm)
  · intro j r' hj
    rw [ht] at hj
    split at hj
    · cases hj
    · exact mono (g.waiting j r' hj)
  · intro j r' hj
    rw [ht] at hj
    split at hj
    · cases hj
    · rename_i hne
      exact ⟨mono (g.working j r' hj).1, working j r' hne hj⟩
  · intro j b hj
    rw [ht] at hj
    rw [hl]
    split at hj
    · rename_i e
      cases hj
      exact ⟨r, by simp [e]⟩
    · obtain ⟨q, hq⟩ := g.ready j b hj
      exact ⟨q, List.mem_append_left _ hq⟩
  · intro j b hm
    rw [hl]
    obtain ⟨q, hq⟩ := g.sent j b (back (by simp) hm)
    exact ⟨q, List.mem_append_left _ hq⟩
  · intro c hm
    rw [hl] at hm
    rcases List.mem_append.1 hm with hm | hm
    · refine ⟨mono (g.calls c hm).1, ?_⟩
      rw [ht]
      split
      · exact Or.inr ⟨_, rfl⟩
      · exact (g.calls c hm).2
    · rw [List.mem_singleton.1 hm]
      exact ⟨mono harr, by rw [ht]; simp⟩
  · rw [hl, List.map_append, List.nodup_append]
    refine ⟨g.once, by simp, ?_⟩
    intro x hx y hy
    obtain ⟨c, hc, rfl⟩ := List.mem_map.1 hx
    simp only [List.map_cons, List.map_nil, List.mem_singleton] at hy
    rintro e
    have := (g.calls c hc).2
    rw [e, hy] at this
    rcases hb with hb | hb <;> rw [hb] at this <;> simp at this
  · rw [hl, lastServed_snoc, hv, g.value]
  · rw [hl, hp, g.poisoned]
    simp
  · rw [hl]
    refine sequential_snoc g.legal ?_
    rw [← g.poisoned, ← g.value]
    exact ok

theorem Good.step (g : Good v hist s) {e : Event} (h : Step E s e t) : Good v (hist ++ [e]) t := by
  cases h with
  | arrive ha hi =>
    rename_i i r
    have mono : ∀ {x : Event}, x ∈ hist → x ∈ hist ++ [.arrive i r] := fun h => List.mem_append_left _ h
    have hl : (hist ++ [Event.arrive i r]).filterMap Event.call? = hist.filterMap Event.call? := by simp [Event.call?]
    refine ⟨?_, ?_, ?_, ?_, ?_, ?_, ?_, ?_, ?_, ?_⟩
    · intro j hj r' hm
      rw [set_threads] at hj
      split at hj
      · cases hj
      · rename_i hne
        rcases List.mem_append.1 hm with hm | hm
        · exact g.idle j hj r' hm
        · simp only [List.mem_singleton, Event.arrive.injEq] at hm
          exact hne hm.1
    · intro j r' hj
      rw [set_threads] at hj
      split at hj
      · rename_i e; cases hj; subst e; simp
      · exact mono (g.waiting j r' hj)
    · intro j r' hj
      rw [set_threads] at hj
      split at hj
      · cases hj
      · exact ⟨mono (g.working j r' hj).1, (g.working j r' hj).2⟩
    · intro j a hj
      rw [set_threads] at hj
      rw [hl]
      split at hj
      · cases hj
      · exact g.ready j a hj
    · intro j a hm
      rw [hl]
      exact g.sent j a (by simpa using hm)
    · intro c hc
      rw [hl] at hc
      refine ⟨mono (g.calls c hc).1, ?_⟩
      rw [set_threads]
      split
      · rename_i e
        exact absurd (g.calls c hc).2 (by rw [e, hi]; simp)
      · exact (g.calls c hc).2
    · rw [hl]; exact g.once
    · rw [hl]; exact g.value
    · rw [hl]; exact g.poisoned
    · rw [hl]; exact g.legal
  | reject ha hi =>
    refine g.finish (Or.inl hi) (fun j => rfl) rfl (by simp [Server.set]) (fun j r hj hw => (g.working j r hw).2) ⟨fun h => absurd rfl h.2, fun _ => rfl⟩
  | lock ha hi hr hh hp =>
    rename_i i r
    refine g.quiet rfl nofun nofun rfl rfl ?_ ?_ ?_ ?_ ?_
    · intro j hj
      simp only [Server.set] at hj
      split at hj
      · cases hj
      · exact hj
    · intro j r' hj
      simp only [Server.set] at hj
      split at hj
      · cases hj
      · exact hj
    · intro j r' hj
      simp only [Server.set] at hj ⊢
      split at hj
      · rename_i e
        cases hj
        exact ⟨e ▸ g.waiting i r hi, by rw [e], hp⟩
      · have := (g.working j r' hj).2.1
        rw [hh] at this
        cases this
    · intro j a hj
      simp only [Server.set] at hj
      split at hj
      · cases hj
      · exact hj
    · intro j hj
      simp only [Server.set]
      split
      · rename_i e
        rw [e, hi] at hj
        simp at hj
      · exact hj
  | poisoned ha hi hr hh hp =>
    refine g.finish (Or.inl hi) (fun j => rfl) rfl (by simp [Server.set, hp]) (fun j r hj hw => (g.working j r hw).2) ⟨fun _ => rfl, fun h => absurd ⟨hp, hr⟩ h⟩
  | work ha hi hh hd =>
    rename_i i r out fs'
    obtain ⟨h1, h2⟩ := handles_spec hd
    have hpo := (g.working i r hi).2.2
    refine g.finish (Or.inr hi) (fun j => rfl) h2 ?_ ?_ ?_
    · rw [hpo]
      obtain ⟨a, b⟩ := out
      cases a <;> simp
    · intro j r' hj hw
      have := (g.working j r' hw).2.1
      rw [hh] at this
      simp only [Option.some.injEq, Holder.thread.injEq] at this
      exact absurd this.symm hj
    · rw [hpo]
      exact ⟨fun h => absurd h.1 (by simp), fun _ => h1⟩
  | send ha hi =>
    rename_i i a
    have mono : ∀ {x : Event}, x ∈ hist → x ∈ hist ++ [.send i a] := fun h => List.mem_append_left _ h
    have hl : (hist ++ [Event.send i a]).filterMap Event.call? = hist.filterMap Event.call? := by simp [Event.call?]
    refine ⟨?_, ?_, ?_, ?_, ?_, ?_, ?_, ?_, ?_, ?_⟩
    · intro j hj r' hm
      rw [set_threads] at hj
      split at hj
      · cases hj
      · exact g.idle j hj r' (by simpa using hm)
    · intro j r' hj
      rw [set_threads] at hj
      split at hj
      · cases hj
      · exact mono (g.waiting j r' hj)
    · intro j r' hj
      rw [set_threads] at hj
      split at hj
      · cases hj
      · exact ⟨mono (g.working j r' hj).1, (g.working j r' hj).2⟩
    · intro j a hj
      rw [set_threads] at hj
      rw [hl]
      split at hj
      · cases hj
      · exact g.ready j a hj
    · intro j b hm
      rw [hl]
      rcases List.mem_append.1 hm with hm | hm
      · exact g.sent j b hm
      · simp only [List.mem_singleton, Event.send.injEq] at hm
        rw [hm.1, hm.2]
        exact g.ready i a hi
    · intro c hc
      rw [hl] at hc
      refine ⟨mono (g.calls c hc).1, ?_⟩
      rw [set_threads]
      split
      · exact Or.inl rfl
      · exact (g.calls c hc).2
    · rw [hl]; exact g.once
    · rw [hl]; exact g.value
    · rw [hl]; exact g.poisoned
    · rw [hl]; exact g.legal
  | edit ha => exact g.quiet rfl nofun nofun rfl rfl (fun _ h => h) (fun _ _ h => h) g.working (fun _ _ h => h) (fun _ h => h)
  | quit ha hh =>
    refine g.quiet rfl nofun nofun rfl rfl (fun _ h => h) (fun _ _ h => h) ?_ (fun _ _ h => h) (fun _ h => h)
    intro i r h
    have := (g.working i r h).2.1
    rw [hh] at this
    cases this
  | kill ha hw => exact g.quiet rfl nofun nofun rfl rfl (fun _ h => h) (fun _ _ h => h) g.working (fun _ _ h => h) (fun _ h => h)
  | die ha _ _ _ => exact g.quiet rfl nofun nofun rfl rfl (fun _ h => h) (fun _ _ h => h) g.working (fun _ _ h => h) (fun _ h => h)

theorem good_of (h : Runs E (Server.init fs v) hist s) : Good v hist s := by
  induction h with
  | nil => exact .init
  | snoc _ st ih => exact ih.step st

/-! ## the theorems -/

/-- C36: whatever the clients do at the same time, what they see is explained by handling the requests one after the other, in an order that respects the order of time;
the project is replaced exactly by successful modifications and reloads, and a read returns the project that was put there last. -/
theorem C36_linearizable (h : Runs E (Server.init fs v) hist s) : ∃ log, Explains hist log ∧ Sequential v log := by
  have g := good_of h
  refine ⟨hist.filterMap Event.call?, ⟨g.sent, fun c hc => (g.calls c hc).1, g.once, ?_⟩, g.legal⟩
  intro h1 h2 i a j r e hs ha l1 c l2 el ej
  subst e
  rw [List.filterMap_append] at el
  obtain ⟨t, r1, _⟩ := h.split
  obtain ⟨q, hq⟩ := (good_of r1).sent i a hs
  -- the second request is idle until it comes in
  have hno : c ∉ h1.filterMap Event.call? := by
    intro hc
    obtain ⟨b1, b2, rfl⟩ := List.append_of_mem ha
    rw [← List.append_assoc] at h
    obtain ⟨t2, r2, r3⟩ := h.split
    obtain ⟨t3, st, _⟩ := r3.first
    have hidle : t2.threads j = .idle := by cases st; assumption
    have hc2 : c ∈ (h1 ++ b1).filterMap Event.call? := by
      rw [List.filterMap_append]
      exact List.mem_append_left _ hc
    have := ((good_of r2).calls c hc2).2
    rw [ej, hidle] at this
    simp at this
  rcases List.append_eq_append_iff.1 el with ⟨k, e1, e2⟩ | ⟨k, e1, e2⟩
  · exact ⟨_, by rw [e1]; exact List.mem_append_left _ hq, rfl⟩
  · cases k with
    | nil =>
      simp only [List.append_nil] at e1
      exact ⟨_, by rw [← e1]; exact hq, rfl⟩
    | cons x k =>
      simp only [List.cons_append, List.cons.injEq] at e2
      exact absurd (by rw [e1, ← e2.1]; simp) hno

/-- C36 for one request: unless it answers with a project, what is served stays as it was; otherwise the project of the answer is served. -/
theorem C36_failed_unchanged {i : Nat} {a : Reply} (h : Step E s (.finish i r a) t) :
    ((∀ w, a ≠ .success w) → t.value = s.value) ∧ ∀ w, a = .success w → t.value = w := by
  have key : t.value = servedBy s.value a := by
    cases h with
    | reject => rfl
    | poisoned => rfl
    | work _ _ _ hd => exact (handles_spec hd).2
  rw [key]
  exact ⟨fun hn => by cases a <;> first | rfl | exact absurd rfl (hn _), fun w e => by rw [e]; rfl⟩

namespace Spec
/-- The project comes from reading or modifying the project in the directory. -/
def Loaded (E : Env) (repo : FilePath) (w : ProjectResult) : Prop :=
  (∃ fs, ReadsProject E.L E.readToml E.hash E.ncpu fs repo (.ok (w.lints, w.project))) ∨
  ∃ fs ops fs', Modifies E.L E.readToml E.hash E.dbg E.ncpu fs repo ops (some (.ok (w.lints, w.project))) fs'
end Spec

theorem base_of_read {c : Categorized} {p : Project} {ncpu : Nat} (h : ReadsProject E.L E.readToml E.hash ncpu fs repo (.ok (c, p))) :
    p.settings.base = repo := by
  obtain ⟨raw, path, s, r, arts, ls, _, h2, _, _, _, _, rfl, _⟩ := reads_parts h
  unfold resolveSettings at h2
  simp only [Res.bind_eq_ok] at h2
  obtain ⟨_, _, _, _, _, _, _, _, h5⟩ := h2
  cases h5
  rfl

theorem base_of_modify {x : Categorized × Project} {ops : List ArtifactOp} (h : Modifies E.L E.readToml E.hash E.dbg E.ncpu fs repo ops (some (.ok x)) fs') :
    x.2.settings.base = repo := by
  generalize hg : some (Res.ok x) = o at h
  cases h with
  | early => cases hg
  | refused _ _ h3 => exact absurd (Option.some.inj hg).symm (h3 _)
  | crash => cases hg
  | failed => cases hg
  | done h1 h2 _ _ _ =>
    cases hg
    obtain ⟨c, p, c', h3, h4⟩ := planned ⟨_, _, h1, h2⟩
    have : ∀ q : Project, q.sort.settings = q.settings := fun q => rfl
    rw [this]
    rw [← base_of_read h3]
    unfold Plans at h4
    split at h4
    · obtain ⟨arts, _, e⟩ := h4
      unfold finishPlan at e
      simp only [checkLints_eq] at e
      split at e
      · cases e; rfl
      · cases e
    · cases h4
    · cases h4

/-- C36: all the time the server serves the project of the directory in which it was started, as it was read or written at some moment. -/
theorem C36_loaded {dir : FilePath} (hst : Starts E fs dir repo s) (h : Runs E s hist t) :
    Loaded E repo t.value ∧ t.value.project.settings.base = repo ∧
    ∀ i w, Event.send i (.success w) ∈ hist → Loaded E repo w := by
  obtain ⟨hf, hr⟩ := hst
  rename_i c p
  have main : ∀ {hist t}, Runs E (Server.init fs ⟨p, c⟩) hist t → (Loaded E repo t.value ∧ t.value.project.settings.base = repo) ∧
      ∀ d ∈ hist.filterMap Event.call?, ∀ w, d.reply = .success w → Loaded E repo w := by
    intro hist t h
    induction h with
    | nil => exact ⟨⟨Or.inl ⟨fs, hr⟩, base_of_read hr⟩, by simp⟩
    | snoc h st ih =>
      rename_i hist s e t
      have quiet : e.call? = none → t.value = s.value → (Loaded E repo t.value ∧ t.value.project.settings.base = repo) ∧
          ∀ d ∈ (hist ++ [e]).filterMap Event.call?, ∀ w, d.reply = .success w → Loaded E repo w := by
        intro he hv
        rw [hv]
        refine ⟨ih.1, ?_⟩
        have : (hist ++ [e]).filterMap Event.call? = hist.filterMap Event.call? := by simp [he]
        rw [this]
        exact ih.2
      have fin : ∀ i r a, e = .finish i r a → (Loaded E repo t.value ∧ t.value.project.settings.base = repo) → (∀ w, a = .success w → Loaded E repo w) →
          (Loaded E repo t.value ∧ t.value.project.settings.base = repo) ∧
          ∀ d ∈ (hist ++ [e]).filterMap Event.call?, ∀ w, d.reply = .success w → Loaded E repo w := by
        intro i r a he h1 h2
        subst he
        refine ⟨h1, ?_⟩
        have : (hist ++ [Event.finish i r a]).filterMap Event.call? = hist.filterMap Event.call? ++ [⟨i, r, a⟩] := by simp [Event.call?]
        rw [this]
        intro d hd w hw
        rcases List.mem_append.1 hd with hd | hd
        · exact ih.2 d hd w hw
        · rw [List.mem_singleton.1 hd] at hw
          exact h2 w hw
      cases st with
      | arrive => exact quiet rfl rfl
      | reject => exact fin _ _ _ rfl ih.1 nofun
      | lock => exact quiet rfl rfl
      | poisoned => exact fin _ _ _ rfl ih.1 nofun
      | work _ _ _ hd =>
        refine fin _ _ _ rfl ?_ ?_
        · cases hd with
          | @reload o hr' =>
            rw [ih.1.2] at hr'
            cases o with
            | ok x => exact ⟨Or.inl ⟨_, hr'⟩, base_of_read hr'⟩
            | _ => exact ih.1
          | @modify _ _ o _ _ hm =>
            rw [ih.1.2] at hm
            cases o with
            | ok x => exact ⟨Or.inr ⟨_, _, _, hm⟩, base_of_modify hm⟩
            | _ => exact ih.1
          | _ => exact ih.1
        · intro w hw
          cases hd with
          | read _ => cases hw; exact ih.1.1
          | @reload o hr' =>
            rw [ih.1.2] at hr'
            cases o with
            | ok x => cases hw; exact Or.inl ⟨_, hr'⟩
            | _ => cases hw
          | @modify _ _ o _ _ hm =>
            rw [ih.1.2] at hm
            cases o with
            | ok x => cases hw; exact Or.inr ⟨_, _, _, hm⟩
            | _ => cases hw
          | _ => cases hw
      | send => exact quiet rfl rfl
      | edit => exact quiet rfl rfl
      | quit => exact quiet rfl rfl
      | kill => exact quiet rfl rfl
      | die => exact quiet rfl rfl
  obtain ⟨h1, h2⟩ := main h
  refine ⟨h1.1, h1.2, fun i w hs => ?_⟩
  obtain ⟨q, hq⟩ := (good_of h).sent i _ hs
  exact h2 _ hq w rfl

/-- C52: an interrupt ends the server only between requests: every request that got the mutex was finished, and nothing happens afterwards. -/
theorem C52_interrupt (h : Runs E (Server.init fs v) hist s) (hq : Event.quit ∈ hist) :
    (∃ before, hist = before ++ [.quit]) ∧ ∀ i, Event.lock i ∈ hist → ∃ r a, Event.finish i r a ∈ hist := by
  have main : ∀ {hist t}, Runs E (Server.init fs v) hist t → (Event.quit ∈ hist → t.alive = false ∧ ∃ before, hist = before ++ [.quit]) ∧
      (∀ i, Event.lock i ∈ hist → (∃ r a, Event.finish i r a ∈ hist) ∨ (t.holder = some (.thread i) ∧ Event.quit ∉ hist)) := by
    intro hist t h
    induction h with
    | nil => simp
    | snoc h st ih =>
      rename_i hist s e t
      have alive : s.alive = true := by cases st <;> assumption
      have nq : Event.quit ∉ hist := fun hm => by rw [(ih.1 hm).1] at alive; cases alive
      have up : ∀ {i}, (∃ r a, Event.finish i r a ∈ hist) → ∃ r a, Event.finish i r a ∈ hist ++ [e] :=
        fun ⟨r, a, h⟩ => ⟨r, a, List.mem_append_left _ h⟩
      have plain : e ≠ .quit → (∀ i, e ≠ .lock i) → t.holder = s.holder →
          (Event.quit ∈ hist ++ [e] → t.alive = false ∧ ∃ before, hist ++ [e] = before ++ [.quit]) ∧
          (∀ i, Event.lock i ∈ hist ++ [e] → (∃ r a, Event.finish i r a ∈ hist ++ [e]) ∨ (t.holder = some (.thread i) ∧ Event.quit ∉ hist ++ [e])) := by
        intro h1 h2 h3
        have nq' : Event.quit ∉ hist ++ [e] := by
          simp only [List.mem_append, List.mem_singleton, not_or]
          exact ⟨nq, fun h => h1 h.symm⟩
        refine ⟨fun h => absurd h nq', fun i hi => ?_⟩
        rcases List.mem_append.1 hi with hi | hi
        · rcases ih.2 i hi with h | h
          · exact Or.inl (up h)
          · exact Or.inr ⟨h3 ▸ h.1, nq'⟩
        · exact absurd (List.mem_singleton.1 hi).symm (h2 i)
      cases st with
      | lock ha hi hr hh hp =>
        rename_i j r
        refine ⟨fun h => by simp [nq] at h, fun i hi => ?_⟩
        rcases List.mem_append.1 hi with hi | hi
        · rcases ih.2 i hi with h | h
          · exact Or.inl (up h)
          · rw [hh] at h; cases h.1
        · simp only [List.mem_singleton, Event.lock.injEq] at hi
          subst hi
          exact Or.inr ⟨rfl, by simp [nq]⟩
      | work ha hi hh hd =>
        rename_i j r out fs'
        refine ⟨fun h => by simp [nq] at h, fun i hi => ?_⟩
        have hi : Event.lock i ∈ hist := by simpa using hi
        rcases ih.2 i hi with h | h
        · exact Or.inl (up h)
        · rw [hh] at h
          simp only [Option.some.injEq, Holder.thread.injEq] at h
          rw [← h.1]
          exact Or.inl ⟨r, out.1, by simp⟩
      | quit ha hh =>
        refine ⟨fun _ => ⟨rfl, _, rfl⟩, fun i hi => ?_⟩
        have hi : Event.lock i ∈ hist := by simpa using hi
        rcases ih.2 i hi with h | h
        · exact Or.inl (up h)
        · rw [hh] at h; cases h.1
      | _ => exact plain nofun nofun rfl
  obtain ⟨h1, h2⟩ := main h
  refine ⟨(h1 hq).2, fun i hi => ?_⟩
  rcases h2 i hi with h | h
  · exact h
  · exact absurd hq h.2

/-! ## the disk -/

/-- The links of operations that were sent are sets. -/
theorem wire_sets {strict : Bool} {ops : List WireOp} {ops' : List ArtifactOp} (h : Res.mapM' (WireOp.read strict) ops = .ok ops') : LinkSets ops' := by
  have im : ∀ {x : WireIm} {a : ArtifactIm}, x.read = .ok a → ISet.Nodup a.partof := by
    intro x a ha
    unfold WireIm.read at ha
    simp only [Res.bind_eq_ok] at ha
    obtain ⟨_, _, l, _, e⟩ := ha
    cases e
    exact ISet.nodup_collect l
  intro op ho a hb
  obtain ⟨x, _, hx⟩ := forall₂_mem_right (Res.mapM'_eq_ok.1 h) ho
  cases x with
  | create b =>
    simp only [WireOp.read, Res.bind_eq_ok] at hx
    obtain ⟨a', h1, e⟩ := hx
    cases e
    rcases hb with e | ⟨_, e⟩
    · cases e; exact im h1
    · cases e
  | update b id =>
    simp only [WireOp.read, Res.bind_eq_ok] at hx
    obtain ⟨a', h1, _, _, e⟩ := hx
    cases e
    rcases hb with e | ⟨_, e⟩
    · cases e
    · cases e; exact im h1
  | delete n id =>
    simp only [WireOp.read, Res.bind_eq_ok] at hx
    obtain ⟨_, _, _, _, e⟩ := hx
    cases e
    rcases hb with e | ⟨_, e⟩ <;> cases e

/-- C36: at every step of the server, even when it is killed, either every artifact file still has its content there or in its backup, or a new project has been
written completely. -/
theorem C36_write_safe {e : Event} {sett : Settings} (w : FS.WF s.disk) (hs : SettingsOf E.readToml s.disk s.value.project.settings.base sett)
    (hsafe : Safe s.disk sett) (h : Step E s e t) (he : e ≠ .edit) :
    (∀ q, ArtifactFile s.disk sett q → StillThere s.disk t.disk q) ∨
    ∃ ops p' files, Accepted E.L E.readToml E.hash E.dbg E.ncpu s.disk s.value.project.settings.base ops p' ∧ projectFiles E.L p' = .ok files ∧
      ∀ x ∈ files, contentAt t.disk x.1 = some (.text x.2) := by
  have same : t.disk = s.disk → ∀ q, ArtifactFile s.disk sett q → StillThere s.disk t.disk q := by
    intro e q _
    rw [e]
    exact Or.inl rfl
  cases h with
  | work _ _ _ hd =>
    cases hd with
    | modify h1 h2 =>
      rcases C27_modify w hs hsafe (wire_sets h1) h2 with h | ⟨_, p', files, h⟩
      · exact Or.inl h.2
      · exact Or.inr ⟨_, p', files, h⟩
    | _ => exact Or.inl (same rfl)
  | die _ _ h1 h2 =>
    rcases C27_modify w hs hsafe (wire_sets h1) h2 with h | ⟨_, p', files, h⟩
    · exact Or.inl h.2
    · exact Or.inr ⟨_, p', files, h⟩
  | edit => exact absurd rfl he
  | _ => exact Or.inl (same rfl)

theorem step_base {e : Event} (h : Step E s e t) : t.value.project.settings.base = s.value.project.settings.base := by
  cases h with
  | work _ _ _ hd =>
    cases hd with
    | @reload o hr =>
      cases o with
      | ok x => exact base_of_read hr
      | _ => rfl
    | @modify _ _ o _ _ hm =>
      cases o with
      | ok x => exact base_of_modify hm
      | _ => rfl
    | _ => rfl
  | _ => rfl

theorem runs_base (h : Runs E s hist t) : t.value.project.settings.base = s.value.project.settings.base := by
  induction h with
  | nil => rfl
  | snoc _ st ih => rw [step_base st, ih]

namespace Spec
/-- The event leaves the disk alone: it is no change by another program, not the death of the server, no successful modification and none that fails when
it is written. -/
def LeavesDisk : Event → Prop
  | .edit | .die => False
  | .finish _ (.modify _) (.success _) => False
  | .finish _ (.modify _) (.serverError .createBackups _) => False
  | .finish _ (.modify _) (.serverError .saveProject _) => False
  | _ => True
end Spec

theorem failed_kind {sett : Settings} {files : List (FilePath × Str)} {cfg : Cfg} {k : ModifyErrorKind}
    (h : Reaches E.L sett files (Cfg.init E.L fs sett) cfg) (hp : cfg.phase = .failed k) : k = .createBackups ∨ k = .saveProject := by
  have main : ∀ {cfg}, Reaches E.L sett files (Cfg.init E.L fs sett) cfg → ∀ k, cfg.phase = .failed k → k = .createBackups ∨ k = .saveProject := by
    intro cfg h
    induction h with
    | refl => intro k hk; cases hk
    | tail _ st ih =>
      intro k hk
      cases st with
      | act => exact ih k hk
      | fail => exact ih k hk
      | backupErr => cases hk; exact Or.inl rfl
      | saveErr => cases hk; exact Or.inr rfl
      | _ => cases hk
  exact main h k hp

theorem modifies_err {e : ModifyError} {ops : List ArtifactOp} (h : Modifies E.L E.readToml E.hash E.dbg E.ncpu fs repo ops (some (.err e)) fs')
    (h1 : e.kind ≠ .createBackups) (h2 : e.kind ≠ .saveProject) : fs' = fs := by
  generalize hg : some (Res.err e) = o at h
  cases h with
  | early => rfl
  | refused => rfl
  | crash => cases hg
  | done => cases hg
  | failed _ _ _ h4 h5 =>
    cases hg
    rcases failed_kind h4 h5 with h | h
    · exact absurd h h1
    · exact absurd h h2

/-- Requests other than these events do not change the disk. -/
theorem C36_disk_unchanged {e : Event} (h : Step E s e t) (he : LeavesDisk e) : t.disk = s.disk := by
  cases h with
  | work _ _ _ hd =>
    cases hd with
    | @modify _ _ o _ _ hm =>
      cases o with
      | ok x => exact he.elim
      | err x =>
        refine modifies_err hm (fun hk => ?_) (fun hk => ?_) <;>
        · simp only [modifyWith, hk] at he
          exact he
      | panic =>
        generalize hg : some (Res.panic : Res ModifyError (Categorized × Project)) = o at hm
        cases hm <;> first | rfl | cases hg
    | _ => rfl
  | edit => exact he.elim
  | die => exact he.elim
  | _ => rfl

theorem runs_disk (h : Runs E s hist t) (hq : ∀ e ∈ hist, LeavesDisk e) : t.disk = s.disk := by
  induction h with
  | nil => rfl
  | snoc _ st ih =>
    rw [C36_disk_unchanged st (hq _ (by simp)), ih fun e he => hq e (List.mem_append_left _ he)]

/-- C36: as long as nothing else writes to the disk, a reload after a successful modification gives the project of its answer, up to the spelling of names, or crashes
if that project has a reference that crashes the name parser. The conditions are those of `C46_reload`. -/
theorem C36_fresh {sett : Settings} {i : Nat} {ops : List WireOp} {ops' : List ArtifactOp} {out : Reply × ProjectResult}
    (wf : FS.WF s.disk) (hs : SettingsOf E.readToml s.disk s.value.project.settings.base sett) (hsafe : Safe s.disk sett) (ap : Apart sett)
    (hops : Res.mapM' (WireOp.read E.strict) ops = .ok ops') (once : ∀ op ∈ ops', ∀ a, Brings op a → ReadOnce sett a.file)
    (h : Step E s (.finish i (.modify (some (some ops))) (.success w)) t)
    (kept : ∀ a ∈ editable w.project, Survives E.L sett a.file ((editable w.project).filter (fun b => decide (b.file = a.file))))
    (hr : Runs E t hist u) (hq : ∀ e ∈ hist, LeavesDisk e)
    (hd : Handles E u.disk u.value (.read (some (some true))) out fs') :
    (Crashing w.project ∧ out.1 = .dropped) ∨
    (¬ Crashing w.project ∧ ∃ w', out.1 = .success w' ∧ foldCase w'.project = foldCase w.project) := by
  have e1 := runs_disk hr hq
  have e2 := (runs_base hr).trans (step_base h)
  generalize ha : Reply.success w = a at h
  cases h with
  | poisoned => cases ha
  | @work _ _ o d _ _ _ hm =>
    cases hm with
    | modifyBad h => cases ha
    | modifyUnread => cases ha
    | modifyPanic => cases ha
    | @modify _ opsr o d hread hm =>
      rw [hops] at hread
      cases hread
      cases o with
      | err e => cases ha
      | panic => cases ha
      | ok x =>
        cases ha
        generalize hg : Request.read (some (some true)) = rq at hd
        cases hd with
        | read h => cases hg; rcases h with h | h <;> cases h
        | readBad => cases hg
        | modifyBad => cases hg
        | modifyUnread => cases hg
        | modifyPanic => cases hg
        | modify => cases hg
        | @reload o hrd =>
          rw [e1, e2] at hrd
          rcases C46_reload wf hs hsafe ap (wire_sets hops) once hm kept hrd with ⟨h1, rfl⟩ | ⟨h1, c2, q2, rfl, h2⟩
          · exact Or.inl ⟨h1, rfl⟩
          · exact Or.inr ⟨h1, _, rfl, h2⟩

/-! ## crashes -/

/-- After one request has crashed no request for the project is ever answered again. -/
theorem C36_crash_is_final {i : Nat} (h : Runs E (Server.init fs v) (h1 ++ .finish i r .dropped :: h2) s) :
    ∀ j r' a, Event.finish j r' a ∈ h2 → r' ≠ .garbage → a = .dropped := by
  intro j r' a hj hne
  have g := good_of h
  obtain ⟨b1, b2, rfl⟩ := List.append_of_mem hj
  have e : (h1 ++ Event.finish i r .dropped :: (b1 ++ Event.finish j r' a :: b2)).filterMap Event.call? =
      (h1.filterMap Event.call? ++ ⟨i, r, .dropped⟩ :: b1.filterMap Event.call?) ++ ⟨j, r', a⟩ :: b2.filterMap Event.call? := by
    simp [Event.call?]
  exact (g.legal _ _ _ e).1 ⟨⟨⟨i, r, .dropped⟩, by simp, rfl⟩, hne⟩

/-- An operation that crashes while it is read stops the server: the request has the mutex by then. -/
theorem C36_panic_in_params {i : Nat} {x : WireOp} {before after : List WireOp} {ops' : List ArtifactOp} {a : Reply}
    (hx : x.read E.strict = .panic) (hb : Res.mapM' (WireOp.read E.strict) before = .ok ops')
    (h : Runs E (Server.init fs v) (h1 ++ .finish i (.modify (some (some (before ++ x :: after)))) a :: h2) s) :
    a = .dropped ∧ ∀ j r' a', Event.finish j r' a' ∈ h2 → r' ≠ .garbage → a' = .dropped := by
  have hpan : Res.mapM' (WireOp.read E.strict) (before ++ x :: after) = .panic := by
    clear h
    induction before generalizing ops' with
    | nil => simp only [List.nil_append, Res.mapM', hx]; rfl
    | cons y before ih =>
      simp only [Res.mapM', Res.bind_eq_ok] at hb
      obtain ⟨y, h1, ys, h2, _⟩ := hb
      simp only [List.cons_append, Res.mapM', h1, ih h2]
      rfl
  have ha : a = .dropped := by
    obtain ⟨t, r1, r2⟩ := h.split
    obtain ⟨t2, st, _⟩ := r2.first
    generalize hg : Request.modify (some (some (before ++ x :: after))) = rq at st
    cases st with
    | reject => cases hg
    | poisoned => rfl
    | work _ _ _ hd =>
      cases hd with
      | read => cases hg
      | readBad => cases hg
      | reload => cases hg
      | modifyBad h => cases hg; rcases h with h | h <;> cases h
      | modifyUnread h => cases hg; rw [hpan] at h; cases h
      | modifyPanic => rfl
      | modify h => cases hg; rw [hpan] at h; cases h
  subst ha
  exact ⟨rfl, C36_crash_is_final h⟩

/-- Such operations: any id that is too long (`C31_accepts`), and any name that crashes the name parser (C01). -/
theorem C36_panics (n : Name) {id m : Str} (hid : ∀ c ∈ id, UrlSafe c) (hlen : 22 < id.length) (hmod : id.length % 4 ≠ 1) (hm : Name.fromStr m = .panic) :
    (WireOp.delete n.raw id).read false = .panic ∧ ∀ strict, (WireOp.delete m id).read strict = .panic := by
  refine ⟨?_, fun strict => ?_⟩
  · simp only [WireOp.read, wireName, Name.fromStr_raw_self, (C31_accepts hid).2 hlen hmod]
    rfl
  · simp only [WireOp.read, wireName, hm]
    rfl

/-! ## examples -/

/-- A request that is handled alone. -/
theorem Runs.request {i : Nat} {out : Reply × ProjectResult} (ha : s.alive = true) (hh : s.holder = none) (hp : s.poisoned = false) (hi : s.threads i = .idle)
    (hd : Handles E s.disk s.value r out fs') : ∃ u, Runs E s [.arrive i r, .lock i, .finish i r out.1, .send i out.1] u ∧
      u.disk = fs' ∧ u.value = out.2 ∧ u.alive = true ∧ u.holder = none ∧ (out.1 ≠ .dropped → u.poisoned = false) ∧
      ∀ j, j ≠ i → u.threads j = s.threads j := by
  refine ⟨_, .snoc (h := [.arrive i r, .lock i, .finish i r out.1]) (.snoc (h := [.arrive i r, .lock i]) (.snoc (h := [.arrive i r])
    (.snoc (h := []) .nil (.arrive ha hi)) (.lock ha (by simp [Server.set]) (handles_not_garbage hd) hh hp))
    (.work ha (by simp [Server.set]) rfl hd)) (.send ha (by simp [Server.set])), rfl, rfl, ha, rfl, ?_, ?_⟩
  · intro hne
    obtain ⟨a, b⟩ := out
    cases a <;> first | rfl | exact absurd rfl hne
  · intro j hj
    simp [Server.set, hj]

/-- The environment of the examples. -/
def exEnv (L : Libs) : Env := ⟨L, fun _ => some exRaw, exId, fun _ => [], 4, false⟩

/-- Move SPC-b to a directory that does not exist. -/
def exMove : List WireOp := [.update ⟨c!"SPC-b", c!"/p/design/new/b.md", [], none, c!"more"⟩ (exId exImB).ser]
def exMove' : List ArtifactOp := [.update { exImB with file := c!"/p/design/new/b.md" } (exId exImB)]

theorem exReadNow {L : Libs} (hs : SettingsOf (fun _ => some exRaw) fs c!"/p" exS) (hc : (walkCode fs exS).countP (fun f => (codeSent L fs f).dead) < 4)
    (ha : (walkArtifacts fs exS).countP (fun f => (artSent L exS.pre fs f).dead) < 4) :
    ReadsProject L (fun _ => some exRaw) exId 4 fs c!"/p" (readNow L exId fs exS) := readNow_reads hs hc ha

theorem exMove_read : Res.mapM' (WireOp.read false) exMove = .ok exMove' := by decide +kernel

/-- The disk after the failure. -/
def exMoved : FS := ((modifyNow nameLibs exId exGood exS exMove' 1000).map (fun r => r.2.2)).getD []

theorem exMoved_settings : SettingsOf (fun _ => some exRaw) exMoved c!"/p" exS := by
  refine ⟨exS.settingsPath, exRaw, ?_, rfl⟩
  have h1 : IMap.get? exMoved c!"/p" = some .dir := by decide +kernel
  have h2 : IMap.get? exMoved (c!"/p" ++ c!"/.art/settings.toml") = some (.file (.text [])) := by decide +kernel
  unfold loadSettingsRaw
  rw [h1]
  simp only [h2]
  rfl

theorem exMoved_few : (walkCode exMoved exS).countP (fun f => (codeSent nameLibs exMoved f).dead) < 4 ∧
    (walkArtifacts exMoved exS).countP (fun f => (artSent nameLibs exS.pre exMoved f).dead) < 4 := by decide +kernel

theorem exServe_now : (readNow nameLibs exId exGood exS).toOption.map (fun r => r.2.artifacts.map (fun x => x.1.raw)) =
      some [c!"REQ-a", c!"SPC-a", c!"SPC-b"] ∧
    (readNow nameLibs exId exMoved exS).toOption.map (fun r => r.2.artifacts.map (fun x => x.1.raw)) = some [c!"REQ-a", c!"SPC-a"] ∧
    (modifyNow nameLibs exId exGood exS exMove' 1000).map (fun r => r.2.1) = some (.failed .saveProject) := by
  decide +kernel

theorem exMoved_reads (g : FS) (e : g = exMoved) : ReadsProject nameLibs (fun _ => some exRaw) exId 4 g c!"/p" (readNow nameLibs exId g exS) := by
  have h := exMoved_settings
  have f := exMoved_few
  rw [← e] at h f
  exact exReadNow h f.1 f.2

theorem exGood_few : (walkCode exGood exS).countP (fun f => (codeSent nameLibs exGood f).dead) < 4 ∧
    (walkArtifacts exGood exS).countP (fun f => (artSent nameLibs exS.pre exGood f).dead) < 4 := by decide +kernel

theorem exGood_reads : ReadsProject nameLibs (fun _ => some exRaw) exId 4 exGood c!"/p" (readNow nameLibs exId exGood exS) := by
  have h := exGood_settings
  have f := exGood_few
  generalize exGood = g at h f ⊢
  exact exReadNow h f.1 f.2

theorem exGood_repo : findRepo exGood c!"/p/src" = some c!"/p" := by decide +kernel

theorem exMove_fails : ∃ e : ModifyError, e.kind = .saveProject ∧
    Modifies nameLibs (fun _ => some exRaw) exId (fun _ => []) 4 exGood c!"/p" exMove' (some (.err e)) exMoved := by
  have h3 := exServe_now.2.2
  have f := exGood_few
  have hs := exGood_settings
  unfold exMoved
  generalize exGood = g at h3 f hs ⊢
  obtain ⟨⟨files, ph, fs'⟩, h4, h5⟩ := Option.map_eq_some_iff.1 h3
  simp only at h5
  subst h5
  obtain ⟨_, out, ⟨e, rfl, hk⟩, hm⟩ := modifyNow_sound (ncpu := 4) hs f.1 f.2 h4
  rw [h4]
  exact ⟨e, hk, hm⟩

theorem names_of {o : Res Categorized (Categorized × Project)} {l : List Str} (h : o.toOption.map (fun r => r.2.artifacts.map (fun x => x.1.raw)) = some l) :
    ∃ c p, o = .ok (c, p) ∧ p.artifacts.map (fun x => x.1.raw) = l := by
  rcases o with ⟨c, p⟩ | _ | _
  · exact ⟨c, p, rfl, by simpa [Res.toOption] using h⟩
  · cases h
  · cases h

/-- A modification that fails, then a read. -/
theorem fail_then_read {dir : FilePath} {c0 : Categorized} {p0 : Project} {ops : List WireOp} {ops' : List ArtifactOp} {e : ModifyError} (hf : findRepo fs dir = some repo)
    (r0 : ReadsProject E.L E.readToml E.hash E.ncpu fs repo (.ok (c0, p0))) (ho : Res.mapM' (WireOp.read E.strict) ops = .ok ops')
    (hm : Modifies E.L E.readToml E.hash E.dbg E.ncpu fs repo ops' (some (.err e)) fs') :
    ∃ s0 hist u, Starts E fs dir repo s0 ∧ Runs E s0 hist u ∧ Event.send 0 (.serverError e.kind e.lints) ∈ hist ∧
      Event.send 1 (.success ⟨p0, c0⟩) ∈ hist ∧ u.disk = fs' := by
  have hbase : p0.settings.base = repo := base_of_read r0
  obtain ⟨u1, a1, a2, a3, a4, a5, a6, a7⟩ := Runs.request (E := E) (s := Server.init fs ⟨p0, c0⟩) (i := 0) rfl rfl rfl rfl
    (Handles.modify ho (by rw [show (Server.init fs ⟨p0, c0⟩).value.project.settings.base = repo from hbase]; exact hm))
  obtain ⟨u2, b1, b2, b3, b4, b5, b6, b7⟩ := Runs.request (E := E) (s := u1) (i := 1) a4 a5 (a6 (by simp [modifyWith])) (a7 1 (by simp))
    (Handles.read (Or.inl rfl))
  refine ⟨_, _, u2, .start hf r0, a1.append b1, ?_, ?_, ?_⟩
  · simp [modifyWith]
  · refine List.mem_append_right _ ?_
    rw [a3]
    simp [modifyWith, Server.init]
  · rw [b2, a2]

/-- A failed modification leaves the served project as it is, but not the disk: SPC-b should move to a directory that does not exist; the request fails, reads
still show SPC-b, and on the disk there is no SPC-b any more. -/
theorem C36_stale_after_failure : ∃ s0 hist u v e c q, Starts (exEnv nameLibs) exGood c!"/p/src" c!"/p" s0 ∧
    Runs (exEnv nameLibs) s0 hist u ∧ Event.send 0 (.serverError .saveProject e) ∈ hist ∧ Event.send 1 (.success v) ∈ hist ∧
    (∃ x ∈ v.project.artifacts, x.1.raw = c!"SPC-b") ∧
    ReadsProject nameLibs (fun _ => some exRaw) exId 4 u.disk c!"/p" (.ok (c, q)) ∧ ¬ ∃ x ∈ q.artifacts, x.1.raw = c!"SPC-b" := by
  obtain ⟨h1, h2, _⟩ := exServe_now
  have r0 := exGood_reads
  obtain ⟨g1, hg⟩ : ∃ g, g = exMoved := ⟨_, rfl⟩
  have r1 := exMoved_reads g1 hg
  obtain ⟨e, hk, hm⟩ := exMove_fails
  have hf := exGood_repo
  rw [← hg] at h2 hm
  generalize exGood = g0 at h1 r0 hm hf ⊢
  obtain ⟨c0, p0, e0, n0⟩ := names_of h1
  obtain ⟨c1, p1, e1, n1⟩ := names_of h2
  rw [e0] at r0
  rw [e1] at r1
  obtain ⟨s0, hist, u, k1, k2, k3, k4, k5⟩ := fail_then_read (E := exEnv nameLibs) hf r0 exMove_read hm
  refine ⟨s0, hist, u, _, _, c1, p1, k1, k2, hk ▸ k3, k4, ?_, ?_, ?_⟩
  · have : c!"SPC-b" ∈ p0.artifacts.map (fun x => x.1.raw) := by rw [n0]; simp
    exact List.mem_map.1 this
  · rw [k5]; exact r1
  · rintro ⟨x, hx, hn⟩
    have : c!"SPC-b" ∈ p1.artifacts.map (fun x => x.1.raw) := List.mem_map.2 ⟨x, hx, hn⟩
    rw [n1] at this
    exact absurd this (by decide)

/-- The operation of `exCrash` as it is sent. -/
def exCrashWire : List WireOp := [.create ⟨c!"SPC-d", c!"/p/design/d.md", [], none, c!"see [[" ++ [longS] ++ c!"PC-a]]"⟩]

theorem exCrashWire_read : Res.mapM' (WireOp.read false) exCrashWire = .ok [.create exCrash] := by decide +kernel

/-- The disk after `exCrash` was created. -/
def exCrashed : FS := ((modifiedNow keptLibs exId exGood exS [.create exCrash] 1000).map (fun r => r.2.2)).getD []

theorem exCrashed_settings : SettingsOf (fun _ => some exRaw) exCrashed c!"/p" exS := by
  refine ⟨exS.settingsPath, exRaw, ?_, rfl⟩
  have h1 : IMap.get? exCrashed c!"/p" = some .dir := by decide +kernel
  have h2 : IMap.get? exCrashed (c!"/p" ++ c!"/.art/settings.toml") = some (.file (.text [])) := by decide +kernel
  unfold loadSettingsRaw
  rw [h1]
  simp only [h2]
  rfl

theorem exCrashed_few : (walkCode exCrashed exS).countP (fun f => (codeSent keptLibs exCrashed f).dead) < 4 ∧
    (walkArtifacts exCrashed exS).countP (fun f => (artSent keptLibs exS.pre exCrashed f).dead) < 4 := by decide +kernel

theorem exCrashed_now : (match readNow keptLibs exId exCrashed exS with | .panic => true | _ => false) = true ∧
    (readNow keptLibs exId exGood exS).isOk = true := by decide +kernel

theorem exCrashed_reads (g : FS) (e : g = exCrashed) : ReadsProject keptLibs (fun _ => some exRaw) exId 4 g c!"/p" .panic := by
  have h := exCrashed_settings
  have f := exCrashed_few
  have n := exCrashed_now.1
  rw [← e] at h f n
  have e : readNow keptLibs exId g exS = .panic := by
    revert n
    cases readNow keptLibs exId g exS <;> simp
  rw [← e]
  exact exReadNow h f.1 f.2

theorem exGood_kept : (walkCode exGood exS).countP (fun f => (codeSent keptLibs exGood f).dead) < 4 ∧
    (walkArtifacts exGood exS).countP (fun f => (artSent keptLibs exS.pre exGood f).dead) < 4 := by decide +kernel

theorem exCrash_done : ∃ r, Modifies keptLibs (fun _ => some exRaw) exId (fun _ => []) 4 exGood c!"/p" [.create exCrash] (some (.ok r)) exCrashed := by
  have h0 := exCrash_now
  have f := exGood_kept
  have hs := exGood_settings
  unfold exCrashed
  generalize exGood = g at h0 f hs ⊢
  obtain ⟨⟨q, ph, fs'⟩, h1, h2⟩ := Option.map_eq_some_iff.1 h0
  simp only [Prod.mk.injEq] at h2
  obtain ⟨_, rfl, _⟩ := h2
  obtain ⟨c, hm⟩ := modifiedNow_sound (ncpu := 4) hs f.1 f.2 h1
  rw [h1]
  exact ⟨_, hm⟩

theorem exGood_kept_reads : ∃ c p, ReadsProject keptLibs (fun _ => some exRaw) exId 4 exGood c!"/p" (.ok (c, p)) := by
  have h := exGood_settings
  have f := exGood_kept
  have n := exCrashed_now.2
  generalize exGood = g at h f n ⊢
  have r := exReadNow h f.1 f.2
  revert n r
  cases readNow keptLibs exId g exS with
  | ok x => exact fun _ r => ⟨_, _, r⟩
  | err => exact fun n => by cases n
  | panic => exact fun n => by cases n

/-- A modification that succeeds, then a reload that panics. -/
theorem done_then_reload {dir : FilePath} {c0 : Categorized} {p0 : Project} {ops : List WireOp} {ops' : List ArtifactOp} {x : Categorized × Project}
    (hf : findRepo fs dir = some repo)
    (r0 : ReadsProject E.L E.readToml E.hash E.ncpu fs repo (.ok (c0, p0))) (ho : Res.mapM' (WireOp.read E.strict) ops = .ok ops')
    (hm : Modifies E.L E.readToml E.hash E.dbg E.ncpu fs repo ops' (some (.ok x)) fs')
    (r1 : ReadsProject E.L E.readToml E.hash E.ncpu fs' repo .panic) :
    ∃ s0 hist u, Starts E fs dir repo s0 ∧ Runs E s0 hist u ∧ Event.send 0 (.success ⟨x.2, x.1⟩) ∈ hist ∧
      Event.finish 1 (.read (some (some true))) .dropped ∈ hist := by
  have hbase : p0.settings.base = repo := base_of_read r0
  obtain ⟨u1, a1, a2, a3, a4, a5, a6, a7⟩ := Runs.request (E := E) (s := Server.init fs ⟨p0, c0⟩) (i := 0) rfl rfl rfl rfl
    (Handles.modify ho (by rw [show (Server.init fs ⟨p0, c0⟩).value.project.settings.base = repo from hbase]; exact hm))
  have hb : u1.value.project.settings.base = repo := by rw [runs_base a1]; exact hbase
  obtain ⟨u2, b1, b2, b3, b4, b5, b6, b7⟩ := Runs.request (E := E) (s := u1) (i := 1) a4 a5 (a6 (by simp [modifyWith])) (a7 1 (by simp))
    (Handles.reload (out := .panic) (by rw [a2, hb]; exact r1))
  refine ⟨_, _, u2, .start hf r0, a1.append b1, ?_, ?_⟩
  · simp [modifyWith]
  · simp [reloadWith]

/-- Two well-formed requests stop the server for good (`C36_crash_is_final`): the first creates an artifact with a certain text and succeeds, the second asks for a
reload, which crashes. -/
theorem C36_create_then_reload : ∃ s0 hist u v, Starts (exEnv keptLibs) exGood c!"/p/src" c!"/p" s0 ∧ Runs (exEnv keptLibs) s0 hist u ∧
    Event.send 0 (.success v) ∈ hist ∧ Event.finish 1 (.read (some (some true))) .dropped ∈ hist := by
  obtain ⟨c0, p0, r0⟩ := exGood_kept_reads
  obtain ⟨x, hm⟩ := exCrash_done
  obtain ⟨g1, hg⟩ : ∃ g, g = exCrashed := ⟨_, rfl⟩
  have r1 := exCrashed_reads g1 hg
  have hf := exGood_repo
  rw [← hg] at hm
  generalize exGood = g0 at r0 hm hf ⊢
  obtain ⟨s0, hist, u, k1, k2, k3, k4⟩ := done_then_reload (E := exEnv keptLibs) hf r0 exCrashWire_read hm r1
  exact ⟨s0, hist, u, _, k1, k2, k3, k4⟩

theorem Runs.cons {e : Event} (st : Step E s e t) (h : Runs E t h1 u) : Runs E s (e :: h1) u :=
  Runs.append (h1 := [e]) (.snoc (h := []) .nil st) h

/-- Two reads at the same time, then an interrupt: `C36_linearizable` and `C52_interrupt` apply. -/
example : ∃ u, Runs E (Server.init fs v) [.arrive 0 (.read none), .arrive 1 (.read (some (some false))), .lock 1,
    .finish 1 (.read (some (some false))) (.success v), .lock 0, .send 1 (.success v), .finish 0 (.read none) (.success v), .quit] u :=
  ⟨_, .cons (.arrive rfl rfl) <| .cons (.arrive rfl rfl) <| .cons (.lock (r := .read (some (some false))) rfl rfl nofun rfl rfl) <|
    .cons (.work (out := (.success v, v)) rfl rfl rfl (.read (Or.inr rfl))) <| .cons (.lock (r := .read none) rfl rfl nofun rfl rfl) <|
    .cons (.send rfl rfl) <| .cons (.work (out := (.success v, v)) rfl rfl rfl (.read (Or.inl rfl))) <| .cons (.quit rfl rfl) .nil⟩

/-- An id that is too long. -/
def exLongId : List WireOp := [.delete c!"REQ-a" c!"__79BAUGBwgJCgsMDQ4PEAAA"]

theorem exLongId_panics : Res.mapM' (WireOp.read false) exLongId = .panic := by decide +kernel

/-- A request with an id that is too long, then a read that gets no answer: `C36_panic_in_params` applies. -/
example (hE : E.strict = false) : ∃ u, Runs E (Server.init fs v) [.arrive 0 (.modify (some (some exLongId))), .lock 0,
    .finish 0 (.modify (some (some exLongId))) .dropped, .arrive 1 (.read none), .finish 1 (.read none) .dropped] u :=
  ⟨_, .cons (.arrive rfl rfl) <| .cons (.lock (r := .modify (some (some exLongId))) rfl rfl nofun rfl rfl) <|
    .cons (.work (out := (.dropped, v)) rfl rfl rfl (.modifyPanic (by rw [hE]; exact exLongId_panics))) <| .cons (.arrive rfl rfl) <|
    .cons (.poisoned (r := .read none) rfl rfl nofun rfl rfl) .nil⟩

end
end Art
