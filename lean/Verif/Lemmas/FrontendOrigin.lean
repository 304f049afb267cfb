import Verif.Props.Frontend

/-! Where the edits and the shown project of a page come from. -/

namespace Art
namespace Web

variable {nd : Char → Bool} {lim : Nat} {p0 : Proj} {v0 : View} {tr : List Event} {w w' : World}

/-- Only these messages change the shown project. -/
theorem update_shared {u u' : UI} {m : Msg} {sent : List Req} (h : u.update nd lim m = .ok (u', sent)) :
    u'.shared = u.shared ∨ (∃ jid, m = .recvProject jid u'.shared ∧ sent = []) ∨ ∃ t, m = .recvInitial (some u'.shared) t := by
  cases m with
  | setView v => simp only [UI.update, Res.ok.injEq, Prod.mk.injEq] at h; obtain ⟨rfl, rfl⟩ := h; exact Or.inl rfl
  | nav => simp only [UI.update, Res.ok.injEq, Prod.mk.injEq] at h; obtain ⟨rfl, rfl⟩ := h; exact Or.inl rfl
  | recvInitial p t =>
    have hs : u'.shared = p.getD u.shared := by
      simp only [UI.update] at h
      split at h
      · simp only [Res.ok.injEq, Prod.mk.injEq] at h; obtain ⟨rfl, rfl⟩ := h; rfl
      · rcases startFetchProject_cases { u with shared := p.getD u.shared, webType := t, fetching := false } false with
          ⟨_, l, e⟩ | ⟨_, _, e⟩ <;> rw [e] at h <;> simp only [Res.ok.injEq, Prod.mk.injEq] at h <;> obtain ⟨rfl, rfl⟩ := h <;> simp
    cases p with
    | none => exact Or.inl hs
    | some p => rw [show u'.shared = p from hs]; exact Or.inr (Or.inr ⟨t, rfl⟩)
  | fetchProject r =>
    simp only [UI.update] at h
    rcases startFetchProject_cases u r with ⟨_, l, e⟩ | ⟨_, _, e⟩ <;> rw [e] at h <;>
      simp only [Res.ok.injEq, Prod.mk.injEq] at h <;> obtain ⟨rfl, rfl⟩ := h <;> simp
  | sendUpdate ids =>
    rcases startSendUpdate_ok h with ⟨_, rfl, _⟩ | ⟨_, ops, _, _, rfl⟩
    · simp
    · exact Or.inl rfl
  | recvProject jid p =>
    simp only [UI.update, Res.bind_eq_ok, Res.pure_def, Res.ok.injEq, Prod.mk.injEq] at h
    obtain ⟨u1, h1, rfl, rfl⟩ := h
    right; left
    refine ⟨jid, ?_, rfl⟩
    rcases recvProject_ok h1 with ⟨_, rfl⟩ | ⟨_, _, _, rfl⟩ <;> rfl
  | recvError logs =>
    simp only [UI.update, Res.ok.injEq, Prod.mk.injEq] at h; obtain ⟨rfl, rfl⟩ := h; exact Or.inl (by simp)
  | pushLogs logs =>
    simp only [UI.update, Res.ok.injEq, Prod.mk.injEq] at h; obtain ⟨rfl, rfl⟩ := h; exact Or.inl (by simp)
  | clearLogs ids => simp only [UI.update, Res.ok.injEq, Prod.mk.injEq] at h; obtain ⟨rfl, rfl⟩ := h; exact Or.inl rfl
  | clearAllLogs => simp only [UI.update, Res.ok.injEq, Prod.mk.injEq] at h; obtain ⟨rfl, rfl⟩ := h; exact Or.inl rfl
  | editArtifact id f =>
    simp only [UI.update, Res.bind_eq_ok, Res.pure_def, Res.ok.injEq, Prod.mk.injEq] at h
    obtain ⟨u1, h1, rfl, rfl⟩ := h
    obtain ⟨_, _, _, _, rfl⟩ := editArtifact_ok h1
    exact Or.inl rfl
  | startNew id => simp only [UI.update, Res.ok.injEq, Prod.mk.injEq] at h; obtain ⟨rfl, rfl⟩ := h; exact Or.inl rfl
  | startCurrent id =>
    simp only [UI.update, Res.bind_eq_ok, Res.pure_def, Res.ok.injEq, Prod.mk.injEq] at h
    obtain ⟨u1, h1, rfl, rfl⟩ := h
    obtain ⟨_, _, _, _, rfl⟩ := startCurrent_ok h1
    exact Or.inl rfl
  | stopEdit id =>
    simp only [UI.update, Res.bind_eq_ok, Res.pure_def, Res.ok.injEq, Prod.mk.injEq] at h
    obtain ⟨u1, h1, rfl, rfl⟩ := h
    obtain ⟨_, rfl⟩ := completeEditing_ok h1
    exact Or.inl rfl

/-- A step is an update of the page, or leaves the page alone except that an id is given out. -/
theorem step_update {e : Event} (hs : Step nd lim w e w') :
    (∃ m r, e = .handled m r.2 ∧ w.ui.update nd lim m = .ok r ∧ w'.ui = r.1 ∧
      (FromPage nd lim m ∧ w'.arrived = w.arrived ∨ m ∈ w.batch ∧ w'.arrived = w.arrived ∨ ∃ ms, w.arrived = m :: ms ∧ w'.arrived = ms)) ∨
    (e = .click ∧ (∃ k, w'.ui = { w.ui with nextId := k }) ∧ w'.arrived = w.arrived) ∨
    ∃ q m, e = .response q m ∧ w'.ui = w.ui ∧ w'.arrived = w.arrived ++ [m] ∧ Answers q m := by
  cases hs with
  | @page m r hb hp hu => exact Or.inl ⟨m, r, rfl, hu, rfl, Or.inl ⟨hp, rfl⟩⟩
  | @create v hb hv => exact Or.inr (Or.inl ⟨rfl, ⟨_, rfl⟩, rfl⟩)
  | @edit v hb hv => exact Or.inr (Or.inl ⟨rfl, ⟨_, rfl⟩, rfl⟩)
  | @next m ms r hb hu => exact Or.inl ⟨m, r, rfl, hu, rfl, Or.inr (Or.inl ⟨by rw [hb]; simp, rfl⟩)⟩
  | @response a q b m ho ha => exact Or.inr (Or.inr ⟨q, m, rfl, rfl, rfl, ha⟩)
  | @deliver m ms r hb ha hu => exact Or.inl ⟨m, r, rfl, hu, rfl, Or.inr (Or.inr ⟨ms, ha, rfl⟩)⟩

/-- Where the shown project comes from. -/
theorem shared_runs (h : Runs nd lim (World.init p0 v0) tr w) :
    w.ui.shared = p0 ∨ (∃ jid, Event.handled (.recvProject jid w.ui.shared) [] ∈ tr) ∨
      ∃ t sent, Event.handled (.recvInitial (some w.ui.shared) t) sent ∈ tr := by
  generalize hw0 : World.init p0 v0 = w0 at h
  induction h with
  | nil => subst hw0; exact Or.inl rfl
  | @snoc w w' l e hr hs ih =>
    have old : w'.ui.shared = w.ui.shared → w'.ui.shared = p0 ∨ (∃ jid, Event.handled (.recvProject jid w'.ui.shared) [] ∈ l ++ [e]) ∨
        ∃ t sent, Event.handled (.recvInitial (some w'.ui.shared) t) sent ∈ l ++ [e] := by
      intro hw
      rw [hw]
      rcases ih with h | ⟨j, h⟩ | ⟨t, s, h⟩
      · exact Or.inl h
      · exact Or.inr (Or.inl ⟨j, List.mem_append_left _ h⟩)
      · exact Or.inr (Or.inr ⟨t, s, List.mem_append_left _ h⟩)
    rcases step_update hs with ⟨m, r, rfl, hu, hw, _⟩ | ⟨_, ⟨k, hw⟩, _⟩ | ⟨_, _, _, hw, _⟩
    · obtain ⟨u', sent⟩ := r
      simp only at hw
      rcases update_shared hu with h | ⟨jid, rfl, rfl⟩ | ⟨t, rfl⟩
      · exact old (by rw [hw, h])
      · exact Or.inr (Or.inl ⟨jid, by rw [hw]; simp⟩)
      · exact Or.inr (Or.inr ⟨t, sent, by rw [hw]; simp⟩)
    · exact old (by rw [hw])
    · exact old (by rw [hw])

/-- A response that is handled has arrived. -/
theorem handled_arrived (h : Runs nd lim (World.init p0 v0) tr w) :
    (∀ m ∈ w.arrived, ∃ q, Event.response q m ∈ tr) ∧
    ∀ m sent, Event.handled m sent ∈ tr → IsRecv m → ∃ q, Event.response q m ∈ tr := by
  generalize hw0 : World.init p0 v0 = w0 at h
  induction h with
  | nil => subst hw0; exact ⟨by simp [World.init], by simp⟩
  | @snoc w w' l e hr hs ih =>
    obtain ⟨i1, i2⟩ := ih
    subst hw0
    have g := good_runs (good_init p0 v0) hr
    have up : ∀ {m}, (∃ q, Event.response q m ∈ l) → ∃ q, Event.response q m ∈ l ++ [e] :=
      fun ⟨q, h⟩ => ⟨q, List.mem_append_left _ h⟩
    rcases step_update hs with ⟨m, r, rfl, hu, hw, hc⟩ | ⟨rfl, _, ha⟩ | ⟨q, m, rfl, _, ha, _⟩
    · constructor
      · intro m' hm'
        apply up
        rcases hc with ⟨_, ha⟩ | ⟨_, ha⟩ | ⟨ms, ha, ha'⟩
        · exact i1 _ (ha ▸ hm')
        · exact i1 _ (ha ▸ hm')
        · exact i1 _ (by rw [ha]; rw [ha'] at hm'; exact List.mem_cons_of_mem _ hm')
      · intro m' sent hm' hrecv
        rcases List.mem_append.1 hm' with hm' | hm'
        · exact up (i2 _ _ hm' hrecv)
        · simp only [List.mem_singleton, Event.handled.injEq] at hm'
          obtain ⟨rfl, rfl⟩ := hm'
          apply up
          rcases hc with ⟨hp, _⟩ | ⟨hb, _⟩ | ⟨ms, ha, _⟩
          · exact absurd hrecv (fromPage_not_recv hp)
          · exfalso
            rcases g.bat with h | ⟨v, h⟩ | ⟨k, v, _, _, h | h⟩ <;> rw [h] at hb <;> simp at hb
            · rw [hb] at hrecv; exact hrecv
            · rcases hb with hb | hb <;> rw [hb] at hrecv <;> exact hrecv
            · rcases hb with hb | hb <;> rw [hb] at hrecv <;> exact hrecv
          · exact i1 _ (by rw [ha]; simp)
    · refine ⟨fun m hm => up (i1 m (ha ▸ hm)), fun m sent hm hrecv => ?_⟩
      simp only [List.mem_append, List.mem_singleton, reduceCtorEq, or_false] at hm
      exact up (i2 _ _ hm hrecv)
    · refine ⟨fun m' hm' => ?_, fun m' sent hm' hrecv => ?_⟩
      · rw [ha] at hm'
        rcases List.mem_append.1 hm' with hm' | hm'
        · exact up (i1 m' hm')
        · simp only [List.mem_singleton] at hm'
          subst hm'
          exact ⟨q, by simp⟩
      · simp only [List.mem_append, List.mem_singleton, reduceCtorEq, or_false] at hm'
        exact up (i2 _ _ hm' hrecv)

/-- The page saves one edit at a time. -/
theorem sends_one (h : Runs nd lim (World.init p0 v0) tr w) {ids : List Nat} {sent : List Req}
    (hm : Event.handled (.sendUpdate ids) sent ∈ tr) : ∃ id, ids = [id] := by
  generalize hw0 : World.init p0 v0 = w0 at h
  induction h with
  | nil => simp at hm
  | @snoc w w' l e hr hs ih =>
    rcases List.mem_append.1 hm with hm | hm
    · exact ih hm
    · subst hw0
      have g := good_runs (good_init p0 v0) hr
      simp only [List.mem_singleton] at hm
      subst hm
      rcases step_update hs with ⟨m, r, he, hu, hw, hc⟩ | ⟨he, _⟩ | ⟨_, _, he, _⟩
      · simp only [Event.handled.injEq] at he
        obtain ⟨rfl, _⟩ := he
        rcases hc with ⟨hp, _⟩ | ⟨hb, _⟩ | ⟨ms, ha, _⟩
        · cases hp with
          | save id => exact ⟨id, rfl⟩
        · exfalso
          rcases g.bat with h | ⟨v, h⟩ | ⟨k, v, _, _, h | h⟩ <;> rw [h] at hb <;> simp at hb
        · exact False.elim (g.arr (.sendUpdate ids) (by rw [ha]; simp))
      · cases he
      · cases he

/-- Typing does not change which version of the artifact the edit started from. -/
theorem typed_original {e e' : Edit} {f : Field} (h : Typed e f e') : e'.originalId = e.originalId := by
  cases f with
  | name v => cases h; rfl
  | file v => cases h; rfl
  | done v => cases h; rfl
  | text v => cases h; rfl
  | partofCreate => cases h; rfl
  | partofUpdate i v => obtain ⟨_, _, _, _, _, rfl⟩ := h; rfl
  | partofDelete i => obtain ⟨_, _, _, _, _, rfl⟩ := h; rfl

/-- Where an edit comes from: the artifact that was shown when it was started. -/
theorem origin_runs (h : Runs nd lim (World.init p0 v0) tr w) {id : Nat} {e : Edit} (he : w.ui.editing.get? id = some e) :
    ∀ o, e.originalId = some o → ∃ before after w1 n a, tr = before ++ .handled (.startCurrent id) [] :: after ∧
      Runs nd lim (World.init p0 v0) before w1 ∧ w1.ui.view = .artifact n ∧ w1.ui.shared.get? n = some a ∧ a.id = o := by
  generalize hw0 : World.init p0 v0 = w0 at h
  induction h generalizing e with
  | nil => subst hw0; simp [World.init] at he
  | @snoc w w' l ev hr hs ih =>
    subst hw0
    intro o ho
    have old : ∀ e0, w.ui.editing.get? id = some e0 → e0.originalId = some o →
        ∃ before after w1 n a, l ++ [ev] = before ++ .handled (.startCurrent id) [] :: after ∧
          Runs nd lim (World.init p0 v0) before w1 ∧ w1.ui.view = .artifact n ∧ w1.ui.shared.get? n = some a ∧ a.id = o := by
      intro e0 h0 h1
      obtain ⟨before, after, w1, n, a, rfl, h2, h3, h4, h5⟩ := ih h0 o h1
      exact ⟨before, after ++ [ev], w1, n, a, by simp, h2, h3, h4, h5⟩
    cases hg : w.ui.editing.get? id with
    | some e0 =>
      rcases C37_edit_kept hr hs hg with h | ⟨f, e1, _, ht, h⟩ | ⟨_, h⟩ | ⟨h, _⟩
      · rw [he] at h
        cases h
        exact old e hg ho
      · rw [he] at h
        cases h
        exact old e0 hg (by rw [← typed_original ht]; exact ho)
      · rw [he] at h; cases h
      · rw [he] at h; cases h
    | none =>
      rcases step_update hs with ⟨m, r, rfl, hu, hw, _⟩ | ⟨_, ⟨k, hw⟩, _⟩ | ⟨_, _, _, hw, _⟩
      · obtain ⟨u', sent⟩ := r
        simp only at hw
        subst hw
        rcases (update_eff hu).ed id (by rw [he]; rfl) with h | rfl | rfl
        · rw [hg] at h; cases h
        · simp only [UI.update, Res.ok.injEq, Prod.mk.injEq] at hu
          rw [← hu.1] at he
          simp only [get?_insert_nat, if_true, Option.some.injEq] at he
          subst he
          cases ho
        · simp only [UI.update, Res.bind_eq_ok, Res.pure_def, Res.ok.injEq, Prod.mk.injEq] at hu
          obtain ⟨u1, h1, e1, rfl⟩ := hu
          obtain ⟨n, a, hv, ha, hu1⟩ := startCurrent_ok h1
          rw [← e1, hu1] at he
          simp only [get?_insert_nat, if_true, Option.some.injEq] at he
          subst he
          simp only [Edit.fromArtifact, Option.some.injEq] at ho
          exact ⟨l, [], w, n, a, rfl, hr, hv, ha, ho⟩
      · rw [hw] at he
        simp only at he
        rw [hg] at he; cases he
      · rw [hw, hg] at he; cases he

/-- An edit keeps the version it started from as long as it is open. -/
theorem originalId_runs {w1 : World} {l1 l2 : List Event} {id : Nat} {e e1 : Edit} (h1 : Runs nd lim (World.init p0 v0) l1 w1) (he1 : w1.ui.editing.get? id = some e1)
    (h2 : Runs nd lim w1 l2 w) (he : w.ui.editing.get? id = some e) : e.originalId = e1.originalId := by
  induction h2 generalizing e with
  | nil => rw [he1] at he; cases he; rfl
  | @snoc u u' l ev hr hs ih =>
    have hu := good_runs (good_init p0 v0) h1
    have hall : Runs nd lim (World.init p0 v0) (l1 ++ l) u := runs_append h1 hr
    cases hg : u.ui.editing.get? id with
    | some e0 =>
      rcases C37_edit_kept hall hs hg with h | ⟨f, e2, _, ht, h⟩ | ⟨_, h⟩ | ⟨h, _⟩
      · rw [he] at h
        cases h
        exact ih hg
      · rw [he] at h
        cases h
        rw [typed_original ht]
        exact ih hg
      · rw [he] at h; cases h
      · rw [he] at h; cases h
    | none =>
      have hused := used_runs hu (used_of_some hu (by rw [he1]; rfl)) hr
      have := gone_step hused (good_runs hu hr) hg hs
      rw [he] at this
      cases this

theorem Runs.cons {w0 w1 : World} {ev : Event} {l : List Event} (hs : Step nd lim w0 ev w1) (h : Runs nd lim w1 l w) : Runs nd lim w0 (ev :: l) w :=
  runs_append (.snoc (.nil w0) hs) h

end Web
end Art
