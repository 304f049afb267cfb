import Verif.Lemmas.FrontendHist
import Verif.Props.View
import Verif.Props.Completion

/-!
# C37: the web page keeps edits until they are saved
The theorems are about histories of the page (`Runs`): sequences of clicks, keystrokes, changes of the URL and
responses, in any order and of any length, starting with the page just opened (`World.init`).
-/

namespace Art
namespace Web

variable {nd : Char → Bool} {lim : Nat} {p0 : Proj} {v0 : View} {tr : List Event} {w w' : World}

/-- At every moment at most one request is on its way, and the page is busy exactly when one is. So the page cannot stay
busy without an answer to come. -/
theorem C37_one_in_flight (h : Runs nd lim (World.init p0 v0) tr w) :
    w.outstanding.length + w.arrived.length ≤ 1 ∧
    (w.ui.fetching = true ↔ w.outstanding.length + w.arrived.length = 1) := by
  have g := (good_runs (good_init p0 v0) h).count
  cases hf : w.ui.fetching <;> rw [hf] at g
  · simp only [Bool.toNat_false] at g
    exact ⟨by omega, by rw [g]; simp⟩
  · simp only [Bool.toNat_true] at g
    exact ⟨by omega, by simp [g]⟩

/-- One step of a history and an edit: the edit stays, or is typed into, or is cancelled, or is removed because the response
to an update request that contained it reports success. Nothing else removes or changes an edit. -/
theorem C37_edit_kept (h : Runs nd lim (World.init p0 v0) tr w) {ev : Event} (hs : Step nd lim w ev w') {id : Nat}
    {e : Edit} (he : w.ui.editing.get? id = some e) :
    w'.ui.editing.get? id = some e ∨
    (∃ f e', ev = .handled (.editArtifact id f) [] ∧ Typed e f e' ∧ w'.ui.editing.get? id = some e') ∨
    (ev = .handled (.stopEdit id) [] ∧ w'.ui.editing.get? id = none) ∨
    (w'.ui.editing.get? id = none ∧ ∃ jid p ids ops w1 a b, ev = .handled (.recvProject jid p) [] ∧ id ∈ ids ∧
      SentIn nd lim (World.init p0 v0) tr w jid ids ops w1
        (a ++ .response (.modify jid ops) (.recvProject jid p) :: b)) := by
  have g := good_runs (good_init p0 v0) h
  have f := flight_runs h
  -- the effect of a message on the edits
  have key : ∀ {m : Msg} {u' : UI} {sent : List Req}, w.ui.update nd lim m = .ok (u', sent) →
      (∀ i, m = .startNew i ∨ m = .startCurrent i → i ≠ id) → (∀ j p, m = .recvProject j p → .recvProject j p ∈ w.arrived) →
      u'.editing.get? id = some e ∨
      (∃ f e', Event.handled m sent = .handled (.editArtifact id f) [] ∧ Typed e f e' ∧ u'.editing.get? id = some e') ∨
      (Event.handled m sent = .handled (.stopEdit id) [] ∧ u'.editing.get? id = none) ∨
      (u'.editing.get? id = none ∧ ∃ jid p ids ops w1 a b, Event.handled m sent = .handled (.recvProject jid p) [] ∧ id ∈ ids ∧
        SentIn nd lim (World.init p0 v0) tr w jid ids ops w1
          (a ++ .response (.modify jid ops) (.recvProject jid p) :: b)) := by
    intro m u' sent hu hst hrec
    cases m with
    | setView v =>
      simp only [UI.update, Res.ok.injEq, Prod.mk.injEq] at hu
      rw [← hu.1]; exact Or.inl he
    | nav =>
      simp only [UI.update, Res.ok.injEq, Prod.mk.injEq] at hu
      rw [← hu.1]; exact Or.inl he
    | recvInitial p wt =>
      left
      simp only [UI.update] at hu
      split at hu
      · simp only [Res.ok.injEq, Prod.mk.injEq] at hu; rw [← hu.1]; exact he
      · simp only [Res.ok.injEq] at hu
        rcases startFetchProject_cases { w.ui with shared := p.getD w.ui.shared, webType := wt, fetching := false } false with
          ⟨_, l, h⟩ | ⟨_, _, h⟩ <;> rw [h] at hu <;> simp only [Prod.mk.injEq] at hu <;> rw [← hu.1] <;> simpa using he
    | fetchProject r =>
      left
      simp only [UI.update, Res.ok.injEq] at hu
      rcases startFetchProject_cases w.ui r with ⟨_, l, h⟩ | ⟨_, _, h⟩ <;> rw [h] at hu <;>
        simp only [Prod.mk.injEq] at hu <;> rw [← hu.1] <;> simpa using he
    | sendUpdate ids =>
      left
      rcases startSendUpdate_ok hu with ⟨_, rfl, _⟩ | ⟨_, _, _, _, rfl⟩
      · simpa using he
      · exact he
    | recvProject j p =>
      simp only [UI.update, Res.bind_eq_ok, Res.pure_def, Res.ok.injEq, Prod.mk.injEq] at hu
      obtain ⟨u1, h1, rfl, rfl⟩ := hu
      rcases recvProject_ok h1 with ⟨_, rfl⟩ | ⟨ids, v, hg, rfl⟩
      · exact Or.inl he
      · by_cases hi : id ∈ ids
        · right; right; right
          refine ⟨?_, ?_⟩
          · show IMap.get? (ids.foldl (fun m i => m.remove i) w.ui.editing) id = none
            rw [get?_removeAll ids g.edNodup, if_pos hi]
          · rcases f.arrived j p (hrec j p rfl) with h0 | ⟨ids', h0, ops, w1, a, b, hsent⟩
            · rw [hg] at h0; simp at h0
            · rw [hg] at h0
              simp only [Option.some.injEq] at h0
              subst h0
              exact ⟨j, p, ids, ops, w1, a, b, rfl, hi, hsent⟩
        · left
          show IMap.get? (ids.foldl (fun m i => m.remove i) w.ui.editing) id = some e
          rw [get?_removeAll ids g.edNodup, if_neg hi, he]
    | recvError l =>
      simp only [UI.update, Res.ok.injEq, Prod.mk.injEq] at hu
      rw [← hu.1]; left; simpa using he
    | pushLogs l =>
      simp only [UI.update, Res.ok.injEq, Prod.mk.injEq] at hu
      rw [← hu.1]; left; simpa using he
    | clearLogs l =>
      simp only [UI.update, Res.ok.injEq, Prod.mk.injEq] at hu
      rw [← hu.1]; exact Or.inl he
    | clearAllLogs =>
      simp only [UI.update, Res.ok.injEq, Prod.mk.injEq] at hu
      rw [← hu.1]; exact Or.inl he
    | editArtifact i fl =>
      simp only [UI.update, Res.bind_eq_ok, Res.pure_def, Res.ok.injEq, Prod.mk.injEq] at hu
      obtain ⟨u1, h1, rfl, rfl⟩ := hu
      obtain ⟨e1, e', he1, hset, rfl⟩ := editArtifact_ok h1
      by_cases hi : i = id
      · subst hi
        rw [he] at he1
        simp only [Option.some.injEq] at he1
        subst he1
        exact Or.inr (Or.inl ⟨fl, e', rfl, set_typed.1 hset, by simp [get?_insert_nat]⟩)
      · left
        simp only [get?_insert_nat]
        rw [if_neg hi, he]
    | startNew i =>
      simp only [UI.update, Res.ok.injEq, Prod.mk.injEq] at hu
      rw [← hu.1]
      left
      simp only [get?_insert_nat]
      rw [if_neg (hst i (Or.inl rfl)), he]
    | startCurrent i =>
      simp only [UI.update, Res.bind_eq_ok, Res.pure_def, Res.ok.injEq, Prod.mk.injEq] at hu
      obtain ⟨u1, h1, rfl, rfl⟩ := hu
      obtain ⟨n, a, _, _, rfl⟩ := startCurrent_ok h1
      left
      simp only [get?_insert_nat]
      rw [if_neg (hst i (Or.inr rfl)), he]
    | stopEdit i =>
      simp only [UI.update, Res.bind_eq_ok, Res.pure_def, Res.ok.injEq, Prod.mk.injEq] at hu
      obtain ⟨u1, h1, rfl, rfl⟩ := hu
      obtain ⟨v, rfl⟩ := completeEditing_ok h1
      by_cases hi : i = id
      · subst hi
        exact Or.inr (Or.inr (Or.inl ⟨rfl, by simp [get?_remove_nat g.edNodup]⟩))
      · left
        simp only [get?_remove_nat g.edNodup]
        rw [if_neg hi, he]
  cases hs with
  | @page m r hb hp hu =>
    exact key hu (fun i hi => by
      rcases hi with hi | hi
      · exact absurd hi (fromPage_not_start hp i).1
      · exact absurd hi (fromPage_not_start hp i).2) (fun j p hm => by subst hm; cases hp)
  | create => exact Or.inl he
  | edit => exact Or.inl he
  | @next m ms r hb hu =>
    refine key hu (fun i hi => ?_) (fun j p hm => ?_)
    · rcases g.bat with h | ⟨v, h⟩ | ⟨k, v, hk, hn, h | h⟩ <;> rw [hb] at h <;> simp at h <;> rw [h.1] at hi <;>
        simp at hi <;> rw [← hi] <;> rintro rfl <;> rw [hn] at he <;> simp at he
    · subst hm
      rcases g.bat with h | ⟨v, h⟩ | ⟨k, v, hk, hn, h | h⟩ <;> rw [hb] at h <;> simp at h
  | response => exact Or.inl he
  | @deliver m ms r hb ha hu =>
    refine key hu (fun i hi => ?_) (fun j p hm => by rw [ha, hm]; simp)
    have hr : IsRecv m := g.arr m (by rw [ha]; simp)
    rcases hi with hi | hi
    · exact absurd hi (recv_not_start hr i).1
    · exact absurd hi (recv_not_start hr i).2

/-- A new edit never replaces another one. -/
theorem C37_fresh (h : Runs nd lim (World.init p0 v0) tr w) {id : Nat} {sent : List Req}
    (hs : Step nd lim w (.handled (.startNew id) sent) w' ∨ Step nd lim w (.handled (.startCurrent id) sent) w') :
    w.ui.editing.get? id = none ∧ ∀ i, i ≠ id → w'.ui.editing.get? i = w.ui.editing.get? i := by
  have g := good_runs (good_init p0 v0) h
  have hb : ∀ {m : Msg} {ms : List Msg}, w.batch = m :: ms → m = .startNew id ∨ m = .startCurrent id →
      w.ui.editing.get? id = none := by
    intro m ms hb hm
    rcases g.bat with h | ⟨v, h⟩ | ⟨k, v, hk, hn, h | h⟩ <;> rw [hb] at h <;> simp at h <;> rw [h.1] at hm <;>
      simp at hm <;> rw [← hm] <;> exact hn
  rcases hs with hs | hs
  · generalize hev : Event.handled (.startNew id) sent = ev at hs
    cases hs with
    | @page m r _ hp hu => cases hev; cases hp
    | create => cases hev
    | edit => cases hev
    | @next m ms r hb' hu =>
      simp only [Event.handled.injEq] at hev
      obtain ⟨rfl, rfl⟩ := hev
      refine ⟨hb hb' (Or.inl rfl), fun i hi => ?_⟩
      obtain ⟨u', s⟩ := r
      simp only [UI.update, Res.ok.injEq, Prod.mk.injEq] at hu
      show u'.editing.get? i = _
      rw [← hu.1]
      simp only [get?_insert_nat]
      rw [if_neg (Ne.symm hi)]
    | response => cases hev
    | @deliver m ms r _ ha hu =>
      simp only [Event.handled.injEq] at hev
      exact absurd hev.1.symm (recv_not_start (g.arr m (by rw [ha]; simp)) id).1
  · generalize hev : Event.handled (.startCurrent id) sent = ev at hs
    cases hs with
    | @page m r _ hp hu => cases hev; cases hp
    | create => cases hev
    | edit => cases hev
    | @next m ms r hb' hu =>
      simp only [Event.handled.injEq] at hev
      obtain ⟨rfl, rfl⟩ := hev
      refine ⟨hb hb' (Or.inr rfl), fun i hi => ?_⟩
      obtain ⟨u', s⟩ := r
      simp only [UI.update, Res.bind_eq_ok, Res.pure_def, Res.ok.injEq, Prod.mk.injEq] at hu
      obtain ⟨u1, h1, rfl, rfl⟩ := hu
      obtain ⟨n, a, _, _, rfl⟩ := startCurrent_ok h1
      show IMap.get? (IMap.insert _ _ _) i = _
      rw [get?_insert_nat, if_neg (Ne.symm hi)]
    | response => cases hev
    | @deliver m ms r _ ha hu =>
      simp only [Event.handled.injEq] at hev
      exact absurd hev.1.symm (recv_not_start (g.arr m (by rw [ha]; simp)) id).2

/-- Once an edit is gone its id is never used again. -/
theorem C37_gone_for_good (h : Runs nd lim (World.init p0 v0) tr w) {id : Nat} {e : Edit}
    (he : w.ui.editing.get? id = some e) {ev : Event} (hs : Step nd lim w ev w') (hg : w'.ui.editing.get? id = none)
    {tr2 : List Event} {w2 : World} (h2 : Runs nd lim w' tr2 w2) : w2.ui.editing.get? id = none := by
  have g := good_runs (good_init p0 v0) h
  have hu : Used id w := used_of_some g (by rw [he]; rfl)
  exact (gone_runs (used_step g hu hs) (good_step g hs) hg h2).2

/-- The content of an edit only changes by typing: if it is still there later and nothing was typed into it, it says the
same. -/
theorem C37_content (h : Runs nd lim (World.init p0 v0) tr w) {id : Nat} {e e' : Edit}
    (he : w.ui.editing.get? id = some e) {tr2 : List Event} {w2 : World} (h2 : Runs nd lim w tr2 w2)
    (hn : NotTyped id tr2) (he' : w2.ui.editing.get? id = some e') : e' = e := by
  have key : w2.ui.editing.get? id = some e ∨ w2.ui.editing.get? id = none := by
    clear he'
    have g0 := good_runs (good_init p0 v0) h
    have hu : Used id w := used_of_some g0 (by rw [he]; rfl)
    induction h2 with
    | nil => exact Or.inl he
    | @snoc wa wb l ev hr hs ih =>
      have hra := runs_append h hr
      have g := good_runs (good_init p0 v0) hra
      rcases ih (fun f s hm => hn f s (by simp [hm])) with ih | ih
      · rcases C37_edit_kept hra hs ih with h | ⟨f, e1, hev, _⟩ | ⟨_, h⟩ | ⟨h, _⟩
        · exact Or.inl h
        · exact absurd (by rw [hev]; simp) (hn f [])
        · exact Or.inr h
        · exact Or.inr h
      · exact Or.inr (gone_step (used_runs g0 hu hr) g ih hs)
  rcases key with k | k
  · rw [k] at he'; simpa using he'.symm
  · rw [k] at he'; simp at he'

/-- What the server was asked to save is what the form says, if nothing was typed since the request was sent. So when the
response removes the edit, nothing is lost. Missing for the full claim: what was typed after the request was sent; that it
is lost is `C37_late_keystrokes_false`. -/
theorem C37_saved_is_sent_partial {jid id : Nat} {ids : List Nat}
    {ops : List ArtifactOp} {w1 : World} {after : List Event}
    (hsent : SentIn nd lim (World.init p0 v0) tr w jid ids ops w1 after) (hid : id ∈ ids) (hn : NotTyped id after)
    {e : Edit} (he : w.ui.editing.get? id = some e) : ∃ op ∈ ops, OpFor e op := by
  obtain ⟨before, w2, _, hb, hst, ha, hf⟩ := hsent
  obtain ⟨op, hop, e1, he1, hfor⟩ := forall₂_mem_left hf hid
  have hrun : Runs nd lim w1 (.handled (.sendUpdate ids) [.modify jid ops] :: after) w := by
    have := runs_append (Runs.snoc (.nil _) hst) ha
    simpa using this
  have := C37_content hb he1 hrun (fun f s hm => by
    rcases List.mem_cons.1 hm with hm | hm
    · cases hm
    · exact hn f s hm) he
  subst this
  exact ⟨op, hop, hfor⟩

/-- A response that reports success: the page shows the new project and is free again. Either it answers a read and no edit
is touched, or it answers an update and exactly the edits of that update are removed. -/
theorem C37_success (h : Runs nd lim (World.init p0 v0) tr w) {jid : Nat} {p : Proj} {sent : List Req}
    (hs : Step nd lim w (.handled (.recvProject jid p) sent) w') :
    w'.ui.shared = p ∧ w'.ui.fetching = false ∧ sent = [] ∧
    ((∀ i, w'.ui.editing.get? i = w.ui.editing.get? i) ∨
     ∃ ids ops w1 a b, SentIn nd lim (World.init p0 v0) tr w jid ids ops w1
        (a ++ .response (.modify jid ops) (.recvProject jid p) :: b) ∧
      ∀ i, w'.ui.editing.get? i = if i ∈ ids then none else w.ui.editing.get? i) := by
  have g := good_runs (good_init p0 v0) h
  have f := flight_runs h
  generalize hev : Event.handled (.recvProject jid p) sent = ev at hs
  cases hs with
  | @page m r _ hp hu => cases hev; cases hp
  | create => cases hev
  | edit => cases hev
  | @next m ms r hb hu =>
    simp only [Event.handled.injEq] at hev
    rcases g.bat with h | ⟨v, h⟩ | ⟨k, v, hk, hn, h | h⟩ <;> rw [hb] at h <;> simp at h <;> rw [h.1] at hev <;> simp at hev
  | response => cases hev
  | @deliver m ms r hb ha hu =>
    simp only [Event.handled.injEq] at hev
    obtain ⟨rfl, rfl⟩ := hev
    obtain ⟨u', s⟩ := r
    simp only [UI.update, Res.bind_eq_ok, Res.pure_def, Res.ok.injEq, Prod.mk.injEq] at hu
    obtain ⟨u1, h1, rfl, rfl⟩ := hu
    rcases recvProject_ok h1 with ⟨_, rfl⟩ | ⟨ids, v, hg, rfl⟩
    · exact ⟨rfl, rfl, rfl, Or.inl fun _ => rfl⟩
    · refine ⟨rfl, rfl, rfl, Or.inr ?_⟩
      rcases f.arrived jid p (by rw [ha]; simp) with h0 | ⟨ids', h0, ops, w1, a, b, hsent⟩
      · rw [hg] at h0; simp at h0
      · rw [hg] at h0
        simp only [Option.some.injEq] at h0
        subst h0
        exact ⟨ids, ops, w1, a, b, hsent, fun i => get?_removeAll ids g.edNodup i⟩

/-- A response that reports a failure: every edit, the view and the project stay, every message of the failure is shown, and
the page is free again, so the edit can be sent again. -/
theorem C37_failed_keeps (u : UI) (logs : List Log) : ∃ u', u.update nd lim (.recvError logs) = .ok (u', []) ∧
    u'.editing = u.editing ∧ u'.view = u.view ∧ u'.shared = u.shared ∧ u'.fetching = false ∧
    (∀ l ∈ logs, ∃ k, u'.errors.get? k = some l) ∧ ∀ k < u.nextId, u'.errors.get? k = u.errors.get? k :=
  ⟨_, rfl, by simp, by simp, by simp, rfl, fun _ hl => pushLogs_new logs u hl, fun _ hk => pushLogs_old logs u hk⟩

/-- While a request is on its way, saving and reloading send nothing and change nothing except that a message is shown. -/
theorem C37_busy (u : UI) (h : u.fetching = true) (m : Msg) (hm : (∃ ids, m = .sendUpdate ids) ∨ ∃ r, m = .fetchProject r) :
    ∃ u', u.update nd lim m = .ok (u', []) ∧ u'.editing = u.editing ∧ u'.updating = u.updating ∧ u'.view = u.view ∧
      u'.shared = u.shared ∧ u'.fetching = true ∧ ∃ l, u'.errors.get? u.nextId = some l := by
  have hl : ∀ l, (u.pushLogs [l]).errors.get? u.nextId = some l := by
    intro l
    rw [pushLogs_cons]
    show IMap.get? (IMap.insert _ _ _) _ = _
    rw [get?_insert_nat, if_pos rfl]
  rcases hm with ⟨ids, rfl⟩ | ⟨r, rfl⟩
  · refine ⟨u.pushLogs [⟨.info, c!"in progress"⟩], ?_, by simp, by simp, by simp, by simp, by simp [h], _, hl _⟩
    simp [UI.update, UI.startSendUpdate, h]
  · rcases startFetchProject_cases u r with ⟨_, l, h1⟩ | ⟨_, h2, _⟩
    · exact ⟨u.pushLogs [l], by simp [UI.update, h1], by simp, by simp, by simp, by simp, by simp [h], _, hl _⟩
    · rw [h] at h2; simp at h2

/-- Saving when the page is free: one request, with a fresh id, that for each edit creates the artifact or updates the
one that was edited, with the content of the form. No edit changes. -/
theorem C37_save (u : UI) (ids : List Nat) (hf : u.fetching = false)
    (hok : ∀ id ∈ ids, ∃ e, u.editing.get? id = some e ∧ FieldsOk e) :
    ∃ u' ops, u.update nd lim (.sendUpdate ids) = .ok (u', [.modify u.nextId ops]) ∧
      List.Forall₂ (fun id op => ∃ e, u.editing.get? id = some e ∧ OpFor e op) ids ops ∧
      u'.editing = u.editing ∧ u'.fetching = true ∧ u'.nextId = u.nextId + 1 ∧ u'.updating.get? u.nextId = some ids := by
  obtain ⟨ops, hops⟩ := Res.mapM'_ok_of (f := u.opOf) (l := ids) (fun id hid => by
    obtain ⟨e, he, hfo⟩ := hok id hid
    exact opOf_of he hfo)
  refine ⟨{ u with fetching := true, updating := u.updating.insert u.nextId ids, nextId := u.nextId + 1 }, ops, ?_,
    (Res.mapM'_eq_ok.1 hops).imp fun _ _ h => opOf_ok h, ?_⟩
  · show u.startSendUpdate ids = _
    unfold UI.startSendUpdate
    rw [if_neg (by simp [hf]), hops]
    rfl
  · exact ⟨rfl, rfl, rfl, by simp [get?_insert_nat]⟩

/-- Saving panics exactly when the page is free and one of the edits is not there or has a field that is not a name. -/
theorem C37_save_panics_iff (u : UI) (ids : List Nat) : u.update nd lim (.sendUpdate ids) = .panic ↔
    u.fetching = false ∧ ∃ id ∈ ids, ∀ e, u.editing.get? id = some e → ¬ FieldsOk e := by
  constructor
  · intro h
    cases hf : u.fetching with
    | true =>
      obtain ⟨u', h', _⟩ := C37_busy (nd := nd) (lim := lim) u hf (.sendUpdate ids) (Or.inl ⟨_, rfl⟩)
      rw [h] at h'; simp at h'
    | false =>
      refine ⟨rfl, ?_⟩
      by_contra hc
      push Not at hc
      obtain ⟨u', ops, h', _⟩ := C37_save (nd := nd) (lim := lim) u ids hf hc
      rw [h] at h'; simp at h'
  · rintro ⟨hf, id, hid, hno⟩
    cases hr : u.update nd lim (.sendUpdate ids) with
    | panic => rfl
    | err e => exact e.elim
    | ok r =>
      exfalso
      rcases startSendUpdate_ok (u' := r.1) (sent := r.2) hr with ⟨h, _⟩ | ⟨_, ops, hops, _⟩
      · rw [hf] at h; simp at h
      · obtain ⟨op, _, h⟩ := forall₂_mem_left (Res.mapM'_eq_ok.1 hops) hid
        obtain ⟨e, he, hfo⟩ := opOf_fields h
        exact hno e he hfo

/-- Pressing save on a new artifact without typing a name panics, and with it the whole page is lost. -/
theorem C37_save_new_panics (u : UI) (id : Nat) (hf : u.fetching = false) (h : u.editing.get? id = some Edit.new) :
    u.update nd lim (.sendUpdate [id]) = .panic := by
  rw [C37_save_panics_iff]
  refine ⟨hf, id, by simp, fun e he => ?_⟩
  rw [h] at he
  simp only [Option.some.injEq] at he
  subst he
  rintro ⟨⟨n, hn⟩, _⟩
  have := Name.fromStr_raw_self n
  rw [hn] at this
  revert this
  show Name.fromStr [] = .ok n → False
  rw [show Name.fromStr [] = .err .invalidName from rfl]
  simp

/-- Typing panics exactly when the edit or the field is not there. -/
theorem C37_type_panics_iff (u : UI) (id : Nat) (f : Field) : u.update nd lim (.editArtifact id f) = .panic ↔
    ∀ e, u.editing.get? id = some e → ¬ ∃ e', Typed e f e' := by
  simp only [UI.update, UI.editArtifact]
  cases he : u.editing.get? id with
  | none => simp
  | some e =>
    simp only [Option.some.injEq]
    cases hs : e.set f with
    | none =>
      simp only [Res.bind_panic, true_iff]
      rintro _ rfl ⟨e', h⟩
      rw [set_typed.2 h] at hs
      simp at hs
    | some e' =>
      simp only [Res.bind_ok, Res.pure_def, reduceCtorEq, false_iff]
      intro h
      exact h e rfl ⟨e', set_typed.1 hs⟩

/-- Editing the current artifact panics exactly when no artifact of the project is shown. -/
theorem C37_edit_panics_iff (u : UI) (id : Nat) : u.update nd lim (.startCurrent id) = .panic ↔
    ∀ n, u.view = .artifact n → u.shared.get? n = none := by
  simp only [UI.update, UI.startCurrent]
  cases hv : u.view with
  | artifact n =>
    simp only [View.artifact.injEq]
    cases hg : u.shared.get? n with
    | none => simp only [Res.bind_panic, true_iff]; rintro _ rfl; exact hg
    | some a => simp only [Res.bind_ok, Res.pure_def, reduceCtorEq, false_iff]; intro h; rw [h n rfl] at hg; simp at hg
  | graph => simp
  | edit i => simp
  | notFound => simp

/-- Cancelling, and a success response, panic exactly when the form that is shown is removed, the artifact that was edited is
not in the project any more, and the name in the form is one on which parsing panics (`C01_panic_iff`). -/
theorem C37_close_panics_iff (u : UI) (hn : IMap.Nodup u.editing) :
    (∀ id, u.update nd lim (.stopEdit id) = .panic ↔ ∃ e, u.view = .edit id ∧ u.editing.get? id = some e ∧
      Name.fromStr e.name = .panic ∧ ∀ q ∈ u.shared, some q.2.id ≠ e.originalId) ∧
    (∀ jid p, u.update nd lim (.recvProject jid p) = .panic ↔ ∃ ids, u.updating.get? jid = some ids ∧ ∃ i ∈ ids, ∃ e,
      u.view = .edit i ∧ u.editing.get? i = some e ∧ Name.fromStr e.name = .panic ∧
      ∀ q ∈ p, some q.2.id ≠ e.originalId) := by
  have lands : ∀ {p : Proj} {e : Edit} {v : View}, Lands p e v → Name.fromStr e.name = .panic →
      (∀ q ∈ p, some q.2.id ≠ e.originalId) → v = .graph := by
    intro p e v hl hp hq
    rcases hl with ⟨o, q, ho, hm, hid, _⟩ | ⟨_, n, hr, _⟩ | ⟨_, _, h⟩
    · exact absurd (by rw [hid, ho]) (hq q hm)
    · have := Name.fromStr_raw_self n
      rw [hr, hp] at this; simp at this
    · exact h
  have one : ∀ {u : UI} {e : Edit} {id : Nat}, u.view = .edit id → u.editing.get? id = some e → Name.fromStr e.name = .panic →
      (∀ q ∈ u.shared, some q.2.id ≠ e.originalId) → u.completeEditing nd lim id = .panic := by
    intro u e id hv he hp hq
    unfold UI.completeEditing
    rw [he]
    simp only [hv]
    rw [if_pos trivial]
    rcases routeRemoved_cases (nd := nd) (lim := lim) { u with editing := u.editing.remove id, view := .edit id } e with
      ⟨v, s, h1, h2, h3⟩ | ⟨h1, _⟩
    · exfalso
      unfold UI.routeRemoved at h1
      simp only [hp] at h1
      cases ho : e.originalId with
      | none => rw [ho] at h1; simp at h1
      | some o =>
        rw [ho] at h1
        simp only at h1
        split at h1
        · rename_i q hf
          have hq1 := List.find?_some hf
          have hq2 := List.mem_of_find?_eq_some hf
          simp only [decide_eq_true_eq] at hq1
          exact absurd (by rw [hq1, ho]) (hq q hq2)
        · simp at h1
    · rw [h1]; rfl
  constructor
  · intro id
    constructor
    · intro h
      simp only [UI.update] at h
      rcases completeEditing_cases (nd := nd) (lim := lim) u id with ⟨u', h1, _⟩ | ⟨_, h2⟩
      · rw [h1] at h; simp at h
      · exact h2
    · rintro ⟨e, hv, he, hp, hq⟩
      simp only [UI.update, one hv he hp hq, Res.bind_panic]
  · intro jid p
    simp only [UI.update, UI.recvProject]
    cases hg : u.updating.get? jid with
    | none => simp
    | some ids =>
      simp only [Option.some.injEq]
      set u1 : UI := { u with shared := p, fetching := false, updating := u.updating.remove jid } with hu1
      have hsame : ∀ r : Res Empty UI, (do pure (← r, ([] : List Req))) = (Res.panic : Res Empty (UI × List Req)) ↔ r = .panic := by
        intro r; cases r with
        | ok a => simp
        | err e => exact e.elim
        | panic => simp
      refine (hsame _).trans ?_
      constructor
      · intro h
        rcases completeAll_cases (nd := nd) (lim := lim) ids u1 hn with ⟨u', h1, _⟩ | ⟨_, h2⟩
        · rw [h1] at h; simp at h
        · exact ⟨ids, rfl, h2⟩
      · rintro ⟨_, rfl, i, hi, e, hv, he, hp, hq⟩
        clear hsame hg
        have hv : u1.view = .edit i := hv
        have he : u1.editing.get? i = some e := he
        have hn : IMap.Nodup u1.editing := hn
        have hq : ∀ q ∈ u1.shared, some q.2.id ≠ e.originalId := hq
        clear_value u1
        clear hu1
        induction ids generalizing u1 with
        | nil => simp at hi
        | cons k ids ih =>
          unfold UI.completeAll
          by_cases hk : k = i
          · subst hk
            rw [one hv he hp hq]; rfl
          · have hi' : i ∈ ids := by simpa [Ne.symm hk] using hi
            rcases completeEditing_cases (nd := nd) (lim := lim) u1 k with ⟨u2, h1, h2⟩ | ⟨h1, _⟩
            · rw [h1, Res.bind_ok]
              obtain ⟨v, hu2⟩ := completeEditing_ok h1
              refine ih u2 hi' ?_ ?_ ?_ ?_
              · rcases h2 with ⟨h2, _⟩ | ⟨_, h2, _⟩
                · rw [h2]; exact hv
                · rw [hv] at h2; simp at h2; exact absurd h2.symm hk
              · rw [hu2]
                show IMap.get? (IMap.remove _ _) i = _
                rw [get?_remove_nat hn, if_neg hk, he]
              · rw [hu2]; exact IMap.nodup_remove hn k
              · rw [hu2]; exact hq
            · rw [h1]; rfl

/-- No other message panics. -/
theorem C37_others_never_panic (u : UI) (m : Msg)
    (hm : (∃ v, m = .setView v) ∨ m = .nav ∨ (∃ p w, m = .recvInitial p w) ∨ (∃ r, m = .fetchProject r) ∨
      (∃ l, m = .recvError l) ∨ (∃ l, m = .pushLogs l) ∨ (∃ l, m = .clearLogs l) ∨ m = .clearAllLogs ∨
      ∃ i, m = .startNew i) : u.update nd lim m ≠ .panic := by
  rcases hm with ⟨v, rfl⟩ | rfl | ⟨p, w, rfl⟩ | ⟨r, rfl⟩ | ⟨l, rfl⟩ | ⟨l, rfl⟩ | ⟨l, rfl⟩ | rfl | ⟨i, rfl⟩ <;>
    simp only [UI.update] <;> try simp
  split <;> simp

/-- Where the page goes when an edit is removed: nowhere if its form is not the one shown, and else to the artifact or the
graph. It never stays on a form that is gone. -/
theorem C37_view_after (h : Runs nd lim (World.init p0 v0) tr w) {m : Msg} {sent : List Req}
    (hs : Step nd lim w (.handled m sent) w') (hm : (∃ id, m = .stopEdit id) ∨ ∃ jid p, m = .recvProject jid p) :
    ((∀ i, w.ui.view = .edit i → w'.ui.editing.get? i = w.ui.editing.get? i) ∧ w'.ui.view = w.ui.view) ∨
    ∃ i e, w.ui.view = .edit i ∧ w.ui.editing.get? i = some e ∧ w'.ui.editing.get? i = none ∧
      Lands w'.ui.shared e w'.ui.view := by
  have g := good_runs (good_init p0 v0) h
  have key : ∀ {u' : UI}, w.ui.update nd lim m = .ok (u', sent) →
      ((∀ i, w.ui.view = .edit i → u'.editing.get? i = w.ui.editing.get? i) ∧ u'.view = w.ui.view) ∨
      ∃ i e, w.ui.view = .edit i ∧ w.ui.editing.get? i = some e ∧ u'.editing.get? i = none ∧ Lands u'.shared e u'.view := by
    intro u' hu
    rcases hm with ⟨id, rfl⟩ | ⟨jid, p, rfl⟩
    · simp only [UI.update, Res.bind_eq_ok, Res.pure_def, Res.ok.injEq, Prod.mk.injEq] at hu
      obtain ⟨u1, h1, rfl, rfl⟩ := hu
      obtain ⟨v, hv⟩ := completeEditing_ok h1
      have hget : ∀ k, u1.editing.get? k = if id = k then none else w.ui.editing.get? k := by
        intro k; rw [hv, ← get?_remove_nat g.edNodup]
      rcases completeEditing_cases (nd := nd) (lim := lim) w.ui id with ⟨u2, h2, h3⟩ | ⟨h2, _⟩
      · rw [h1] at h2
        simp only [Res.ok.injEq] at h2
        subst h2
        rcases h3 with ⟨h3, h4⟩ | ⟨e, h3, h4, h5⟩
        · refine Or.inl ⟨fun i hi => ?_, h3⟩
          rw [hget]
          split
          · rename_i e; subst e; exact (h4 hi).symm
          · rfl
        · exact Or.inr ⟨id, e, h3, h4, by rw [hget, if_pos rfl], by rw [hv]; rw [hv] at h5; exact h5⟩
      · rw [h1] at h2; simp at h2
    · simp only [UI.update, Res.bind_eq_ok, Res.pure_def, Res.ok.injEq, Prod.mk.injEq] at hu
      obtain ⟨u1, h1, rfl, rfl⟩ := hu
      have h1' := h1
      unfold UI.recvProject at h1
      simp only at h1
      cases hg : w.ui.updating.get? jid with
      | none =>
        rw [hg] at h1
        simp only [Res.ok.injEq] at h1
        subst h1
        exact Or.inl ⟨fun _ _ => rfl, rfl⟩
      | some ids =>
        rw [hg] at h1
        simp only at h1
        rcases completeAll_cases (nd := nd) (lim := lim) ids
          { w.ui with shared := p, fetching := false, updating := w.ui.updating.remove jid } g.edNodup with ⟨u2, h2, h3⟩ | ⟨h2, _⟩
        · rw [h1] at h2
          simp only [Res.ok.injEq] at h2
          subst h2
          obtain ⟨v, hv⟩ := completeAll_ok h1
          have hget : ∀ k, u1.editing.get? k = if k ∈ ids then none else w.ui.editing.get? k := by
            intro k; rw [hv]; exact get?_removeAll ids g.edNodup k
          have hsh : u1.shared = p := by rw [hv]
          rcases h3 with ⟨h3, h4⟩ | ⟨i, hi, e, h3, h4, h5⟩
          · refine Or.inl ⟨fun i hi => ?_, h3⟩
            rw [hget]
            split
            · rename_i hm; exact (h4 i hm hi).symm
            · rfl
          · exact Or.inr ⟨i, e, h3, h4, by rw [hget, if_pos hi], by rw [hsh]; exact h5⟩
        · rw [h1] at h2; simp at h2
  generalize hev : Event.handled m sent = ev at hs
  cases hs with
  | @page m' r _ hp hu => cases hev; exact key (u' := r.1) hu
  | create => cases hev
  | edit => cases hev
  | @next m' ms r hb hu => cases hev; exact key (u' := r.1) hu
  | response => cases hev
  | @deliver m' ms r hb ha hu => cases hev; exact key (u' := r.1) hu

/-- Messages of level info are shown among the errors; the list of infos is always empty. -/
theorem C37_infos_empty (h : Runs nd lim (World.init p0 v0) tr w) : w.ui.infos = [] :=
  (good_runs (good_init p0 v0) h).infos

/-- Nothing stops a page that was exported as static (no server) from sending an update. -/
theorem C37_static_sends (u : UI) (id : Nat) (e : Edit) (hf : u.fetching = false) (he : u.editing.get? id = some e)
    (hok : FieldsOk e) : (∃ u' ops, { u with webType := .static }.update nd lim (.sendUpdate [id]) =
      .ok (u', [.modify u.nextId ops])) ∧
    ∀ r, ∃ u', { u with webType := .static }.update nd lim (.fetchProject r) = .ok (u', []) := by
  constructor
  · obtain ⟨u', ops, h, _⟩ := C37_save (nd := nd) (lim := lim) { u with webType := .static } [id] hf (by
      intro i hi
      simp only [List.mem_singleton] at hi
      subst hi
      exact ⟨e, he, hok⟩)
    exact ⟨u', ops, h⟩
  · intro r
    rcases startFetchProject_cases { u with webType := .static } r with ⟨_, l, h⟩ | ⟨h, _⟩
    · exact ⟨{ u with webType := .static }.pushLogs [l], by simp only [UI.update, h]⟩
    · exact absurd rfl h

/-! ## What is typed while a save is on its way is lost -/

/-- A character class for the examples. -/
abbrev exNd : Char → Bool := fun _ => false

/-- The artifact that the server answers with in the example. -/
def exShown : Shown := ⟨⟨Vector.replicate 16 5⟩, nm "REQ-a", c!"/d/a.md", [], none, []⟩
/-- The artifact that is sent in the example. -/
def exIm : ArtifactIm := ⟨nm "REQ-a", [], [], none, []⟩
/-- The form when it is sent. -/
def exEdit : Edit := ⟨none, c!"REQ-a", [], [], [], []⟩
/-- The form when the response is handled. -/
def exLate : Edit := ⟨none, c!"REQ-a", [], [], [], c!"late"⟩

/-- The page is opened, the project is read, an artifact is created, its name is typed and it is saved. -/
def exSaved : List Event :=
  [.response .initial (.recvInitial none .editable), .handled (.recvInitial none .editable) [.read 0 false],
   .response (.read 0 false) (.recvProject 0 []), .handled (.recvProject 0 []) [],
   .click, .handled (.startNew 1) [], .handled (.setView (.edit 1)) [],
   .handled (.editArtifact 1 (.name c!"REQ-a")) [],
   .handled (.sendUpdate [1]) [.modify 2 [.create exIm]]]

/-- Then a text is typed and the response arrives. -/
def exTyped : List Event :=
  exSaved ++ [.handled (.editArtifact 1 (.text c!"late")) [],
    .response (.modify 2 [.create exIm]) (.recvProject 2 [(nm "REQ-a", exShown)])]

/-- The world after `exSaved`. -/
def exSavedW : World :=
  ⟨⟨.editable, [], .edit 1, true, [], [], [(1, exEdit)], [(2, [1])], 3⟩, [.modify 2 [.create exIm]], [], []⟩
/-- The world after `exTyped`. -/
def exTypedW : World :=
  ⟨⟨.editable, [], .edit 1, true, [], [], [(1, exLate)], [(2, [1])], 3⟩, [], [.recvProject 2 [(nm "REQ-a", exShown)]], []⟩

theorem exSaved_runs : Runs exNd 1000 (World.init [] .graph) exSaved exSavedW := by
  have s0 : Runs exNd 1000 (World.init [] .graph) [] (World.init [] .graph) := .nil _
  have s1 := s0.snoc (.response (a := []) (b := []) (q := .initial) (m := .recvInitial none .editable) rfl (.initial none .editable))
  have s2 := s1.snoc (.deliver (ms := []) (r := (_, _)) rfl rfl rfl)
  have s3 := s2.snoc (.response (a := []) (b := []) (q := .read 0 false) rfl (.read 0 false []))
  have s4 := s3.snoc (.deliver (ms := []) (r := (_, _)) rfl rfl rfl)
  have s5 := s4.snoc (.create rfl (C47_edit_link exNd 1000 1 (by decide)))
  have s6 := s5.snoc (.next (r := (_, _)) rfl rfl)
  have s7 := s6.snoc (.next (r := (_, _)) rfl rfl)
  have s8 := s7.snoc (.page (r := (_, _)) rfl (.field 1 (.name c!"REQ-a")) rfl)
  have s9 := s8.snoc (.page (r := (_, _)) rfl (.save 1) rfl)
  exact s9

theorem exTyped_runs : Runs exNd 1000 (World.init [] .graph) exTyped exTypedW := by
  have s1 := exSaved_runs.snoc (.page (r := (_, _)) rfl (.field 1 (.text c!"late")) rfl)
  have s2 := s1.snoc (.response (a := []) (b := []) rfl (.modify 2 [.create exIm] [(nm "REQ-a", exShown)]))
  exact s2

/-- Non-vacuity: the response in the example and the world after it. -/
theorem exTyped_step : Step exNd 1000 exTypedW (.handled (.recvProject 2 [(nm "REQ-a", exShown)]) [])
    ⟨⟨.editable, [(nm "REQ-a", exShown)], .artifact (nm "REQ-a"), false, [], [], [], [], 3⟩, [], [], []⟩ :=
  .deliver (r := (_, _)) rfl rfl rfl

/-- The claim that what is typed survives a save is false: here the response removes the edit although its content was never
sent, and nobody cancelled. -/
theorem C37_late_keystrokes_false : ¬ ∀ (nd : Char → Bool) (lim : Nat) (p0 : Proj) (v0 : View) (tr : List Event) (w w' : World)
    (jid : Nat) (p : Proj) (id : Nat) (e : Edit), Runs nd lim (World.init p0 v0) tr w →
    Step nd lim w (.handled (.recvProject jid p) []) w' → w.ui.editing.get? id = some e →
    w'.ui.editing.get? id = none → EverSent e tr := by
  intro h
  obtain ⟨m, jid, ops, op, hm, hop, hfor⟩ := h _ _ _ _ _ _ _ 2 _ 1 exLate exTyped_runs exTyped_step rfl rfl
  have hops : ops = [.create exIm] := by
    simp only [exTyped, exSaved, List.cons_append, List.nil_append, List.mem_cons, Event.handled.injEq, reduceCtorEq,
      List.cons.injEq, Req.modify.injEq, and_true, false_or, or_false, and_false, List.not_mem_nil] at hm
    exact hm.2.2
  rw [hops] at hop
  simp only [List.mem_singleton] at hop
  subst hop
  have : exIm.text = exLate.text := hfor.2.2.2.1
  exact absurd this (by decide)

/-! ## Concrete cases -/

/-- One request is on its way after save. -/
example : exSavedW.outstanding.length + exSavedW.arrived.length = 1 ∧ exSavedW.ui.fetching = true := by decide

/-- `C37_edit_kept`, `C37_success`, `C37_gone_for_good` and `C37_view_after` apply to the last step of the example: the form was
shown, is removed, and the page goes to the artifact. -/
example : exTypedW.ui.editing.get? 1 = some exLate ∧ exTypedW.ui.view = .edit 1 := ⟨rfl, rfl⟩
example : Lands [(nm "REQ-a", exShown)] exLate (.artifact (nm "REQ-a")) :=
  Or.inr (Or.inl ⟨by simp [exLate], nm "REQ-a", rfl, rfl, rfl⟩)

/-- `SentIn` holds in the example, and `C37_saved_is_sent_partial` applies with nothing typed since. -/
example : ∃ op ∈ [ArtifactOp.create exIm], OpFor exEdit op := by
  obtain ⟨ids, hi, w1, after, h⟩ := (flight_runs exSaved_runs).mods 2 [.create exIm] (by simp [exSavedW])
  have hids : ids = [1] := by
    have : exSavedW.ui.updating.get? 2 = some [1] := rfl
    rw [this] at hi
    simpa using hi.symm
  subst hids
  have hafter : after = [] := by
    obtain ⟨before, w2, he, _⟩ := h
    cases after with
    | nil => rfl
    | cons x xs =>
      exfalso
      rcases List.eq_nil_or_concat (x :: xs) with h0 | ⟨ys, y, h0⟩
      · simp at h0
      · rw [h0] at he
        have he' : exSaved = (before ++ .handled (.sendUpdate [1]) [.modify 2 [.create exIm]] :: ys) ++ [y] := by
          rw [he]; simp
        have hd := congrArg List.dropLast he'
        rw [List.dropLast_concat] at hd
        have : Event.handled (.sendUpdate [1]) [.modify 2 [.create exIm]] ∈ exSaved.dropLast := by
          rw [hd]; simp
        simp [exSaved] at this
  subst hafter
  exact C37_saved_is_sent_partial (id := 1) h (by simp) (by simp [NotTyped]) (e := exEdit) rfl

/-- A failure keeps the edit and the page can send again. -/
example : ∃ u', exSavedW.ui.update exNd 1000 (.recvError [⟨.error, c!"500"⟩]) = .ok (u', []) ∧
    u'.editing.get? 1 = some exEdit ∧ u'.fetching = false ∧ u'.updating.get? 2 = some [1] := ⟨_, rfl, rfl, rfl, rfl⟩

/-- `C37_busy`: pressing save twice sends one request. -/
example : ∃ u', exSavedW.ui.update exNd 1000 (.sendUpdate [1]) = .ok (u', []) ∧ u'.editing.get? 1 = some exEdit :=
  ⟨_, rfl, rfl⟩

/-- `C37_save`, `C37_static_sends`: the form has only names. -/
example : FieldsOk exEdit := ⟨⟨nm "REQ-a", rfl⟩, by simp [exEdit]⟩

/-- `C37_close_panics_iff`: a name with U+017F is typed and the form is cancelled. -/
example : ({ exSavedW.ui with editing := [(1, { exEdit with name := longS :: c!"PC-a" })] } : UI).update exNd 1000 (.stopEdit 1) =
    .panic := rfl

/-- `C37_type_panics_iff`: deleting a part that is there, and one that is not. -/
example : Typed { exEdit with partof := [c!"REQ-b", c!"REQ-c"] } (.partofDelete 1) { exEdit with partof := [c!"REQ-b"] } :=
  ⟨[c!"REQ-b"], c!"REQ-c", [], rfl, rfl, rfl⟩
example : exSavedW.ui.update exNd 1000 (.editArtifact 1 (.partofDelete 0)) = .panic := rfl

/-- `C37_edit_panics_iff`: the graph is shown. -/
example : ({ exSavedW.ui with view := .graph } : UI).update exNd 1000 (.startCurrent 7) = .panic := rfl

end Web
end Art
